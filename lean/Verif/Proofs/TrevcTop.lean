import Verif.Proofs.TrevcMain

set_option linter.unusedVariables false
set_option linter.unusedSectionVars false
set_option linter.unusedSimpArgs false

/-! # trevc: norms, counting, the whole routine -/

namespace TLA
open Kernel Finset
variable {L : Type} [DecidableEq L]
variable {isReal : Bool} {isinf : ℝ → Bool} {smin smax : ℝ}
variable {pr : DivPar} {sfmin sfmax : ℝ} {n : Nat}

theorem wp_trevcNorms {inf : Bool} {T : MatV L} (tm : T.m = n) (tn : T.n = n) {ν : Store L ℂ} (hsub : ∀ j, j + 1 < n → ν (T.cell (j + 1) j) = 0) (fuel : Nat) :
    ∀ (j : Nat) (c : RArr), c.n = n → wp (trevcNorms inf T fuel j c) ν (fun c' ν' => c'.n = n ∧ ν = ν') := by
  induction fuel with
  | zero => intro j c h; exact ⟨h, rfl⟩
  | succ fuel ih =>
    intro j c h
    unfold trevcNorms
    simp only [tm]
    by_cases hj : j < n
    · rw [if_pos hj]
      simp only [wp_bind]
      refine wp_conseq (wp_trevcPair (n := n) tm tn (hsub j)) ?_
      rintro b ν' ⟨rfl, rfl⟩
      rw [if_neg (by simp)]
      simp only [wp_bind]
      refine wp_forUp (fun _ _ ν' => ν = ν') (Nat.zero_le j) rfl ?_ ?_
      · rintro i s ν' _ hi rfl
        simp only [wp_bind, wp_get, wp_pure]
        exact ⟨⟨by omega, by omega⟩, trivial⟩
      · rintro s ν' rfl
        unfold RArr.set
        rw [if_pos (by omega)]
        exact ih (j + 1) _ h
    · rw [if_neg hj]; exact ⟨h, rfl⟩

theorem wp_trevcColnorms {inf : Bool} {T : MatV L} (tm : T.m = n) (tn : T.n = n) {ν : Store L ℂ} (hsub : ∀ j, j + 1 < n → ν (T.cell (j + 1) j) = 0) {c : RArr} (hc : c.n = n) :
    wp (trevcColnorms inf T c) ν (fun c' ν' => c'.n = n ∧ ν = ν') := by
  unfold trevcColnorms
  simp only [wp_bind, wp_check, tm, tn, hc, decide_true, if_true]
  exact wp_trevcNorms tm tn hsub n 0 c hc

theorem wp_trevcCount {T : MatV L} (tm : T.m = n) (tn : T.n = n) {ν : Store L ℂ} (hsub : ∀ j, j + 1 < n → ν (T.cell (j + 1) j) = 0) (sel : Nat → Bool) (fuel : Nat) :
    ∀ j, j ≤ n → n ≤ j + fuel → wp (trevcCount T fuel j (selRank sel j) sel) ν (fun r ν' => r = (selRank sel n, sel) ∧ ν = ν') := by
  induction fuel with
  | zero => intro j h1 h2; obtain rfl : j = n := by omega
            exact ⟨rfl, rfl⟩
  | succ fuel ih =>
    intro j h1 h2
    unfold trevcCount
    simp only [tm]
    by_cases hj : j < n
    · rw [if_pos hj]
      simp only [wp_bind]
      refine wp_conseq (wp_trevcPair (n := n) tm tn (hsub j)) ?_
      rintro b ν' ⟨rfl, rfl⟩
      rw [if_neg (by simp)]
      have e : (if sel j then selRank sel j + 1 else selRank sel j) = selRank sel (j + 1) := by
        rw [selRank_succ]; split_ifs <;> rfl
      rw [e]
      exact ih (j + 1) hj (by omega)
    · obtain rfl : j = n := by omega
      rw [if_neg hj]; exact ⟨rfl, rfl⟩

/-- The arguments of trevc. -/
structure TrevcArg (left right : Bool) (how : HowMny) (sel : Nat → Bool) (n : Nat) (T Vl Vr : MatV L) (rwn : Nat) (work : VecV L) : Prop where
  tm : T.m = n
  tn : T.n = n
  rw : n ≤ rwn
  wn : 3 * n ≤ work.n
  sd : left = true ∨ right = true
  wi : work.Inj
  tw : T.DisjV work
  okr : right = true → TrArg n T Vr work ∧ selRank (trAct how sel) n ≤ Vr.n
  okl : left = true → TrArg n T Vl work ∧ selRank (trAct how sel) n ≤ Vl.n
  dj : left = true → right = true → Vl.Disj Vr ∧ Vr.Disj Vl

set_option maxHeartbeats 1000000 in
/-- trevc up to the loop of the right eigenvectors, and from it to that of the left ones. -/
theorem wp_trevc (hu : pr.u ≠ 0) (hsf : 0 < sfmax) {left right : Bool} {how : HowMny} {sel : Nat → Bool} {T Vl Vr : MatV L} {rwn : Nat} {work : VecV L}
    (hn : 0 < n) (ok : TrevcArg left right how sel n T Vl Vr rwn work) {μ : Store L ℂ} (hsub : ∀ j, j + 1 < n → entry μ T (j + 1) j = 0)
    (hr : right = true → ∀ i k, i < k → k < n → trAct how sel k = true → entry μ T i i ≠ entry μ T k k)
    (hl : left = true → ∀ k i, k < i → i < n → trAct how sel k = true → entry μ T i i ≠ entry μ T k k) :
    wp (trevc (hetOps isReal isinf smin smax) pr sfmin sfmax left right how sel T Vl Vr rwn work) μ (fun r ν => r = (selRank (trAct how sel) n, sel) ∧
      (right = true → ∃ G, (∀ i j, i < n → j < Vr.n → ν (Vr.cell i j) = G i j) ∧ RightInv how sel n (entry μ T) (entry μ Vr) 0 G) ∧
      (left = true → ∃ G, (∀ i j, i < n → j < Vl.n → ν (Vl.cell i j) = G i j) ∧ LeftInv how sel n (entry μ T) (entry μ Vl) n G) ∧
      ∀ l, (right = true → ¬ Vr.Owns l) → (left = true → ¬ Vl.Owns l) → ¬ work.Owns l → ν l = μ l) := by
  obtain ⟨tm, tn, hrw, wn, sd, wi, tw, okr, okl, dj⟩ := ok
  unfold trevc
  simp only [tm]
  rw [if_neg (by omega)]
  simp only [wp_bind]
  have hcount : wp (if how = .Select then trevcCount T n 0 0 sel else pure (n, sel) : M L ℂ (Nat × (Nat → Bool))) μ
      (fun r ν => r = (selRank (trAct how sel) n, sel) ∧ μ = ν) := by
    by_cases c : how = .Select
    · rw [if_pos c]
      have e : trAct how sel = sel := by funext i; simp [trAct, c]
      rw [e]
      have := wp_trevcCount (n := n) tm tn hsub sel n 0 (by omega) (by omega)
      rwa [show selRank sel 0 = 0 by simp [selRank]] at this
    · rw [if_neg c, selRank_ne c]; exact ⟨rfl, rfl⟩
  refine wp_conseq hcount ?_
  rintro _ _ ⟨rfl, rfl⟩
  have hmm : selRank (trAct how sel) n ≤ (if left ∧ right then min Vl.n Vr.n else if left then Vl.n else Vr.n) := by
    split_ifs with c1 c2
    · exact le_min (okl c1.1).2 (okr c1.2).2
    · exact (okl c2).2
    · exact (okr (sd.resolve_left c2)).2
  simp only [wp_check, wp_bind, hmm, wn, hrw, decide_true, if_true]
  have hR : wp (if right then do
      let colN ← trevcColnorms true T ⟨n, fun _ => 0⟩
      let _ ← trevcRight (hetOps isReal isinf smin smax) pr sfmin sfmax how sel T Vr (work.sub 0 n) (work.sub n (2 * n)) colN (selRank (trAct how sel) n)
      pure ()
    else pure () : M L ℂ Unit) μ (fun _ ν => (right = true → ∃ G, TrSt Vr work μ G ν ∧ RightInv how sel n (entry μ T) (entry μ Vr) 0 G) ∧
      ∀ l, (right = true → ¬ Vr.Owns l) → ¬ work.Owns l → ν l = μ l) := by
    by_cases c : right = true
    · rw [if_pos c]
      simp only [wp_bind]
      refine wp_conseq (wp_trevcColnorms (n := n) tm tn hsub rfl) ?_
      rintro colN _ ⟨cn, rfl⟩
      refine wp_conseq (wp_trevcRight hu hsf (okr c).1 cn hsub (okr c).2 (hr c)) ?_
      rintro _ ν ⟨G, h, hI⟩
      exact ⟨fun _ => ⟨G, h, hI⟩, fun l h1 h2 => h.frame l (h1 c) h2⟩
    · rw [if_neg c]; exact ⟨fun h => absurd h c, fun _ _ _ => rfl⟩
  refine wp_conseq hR ?_
  rintro _ ν1 ⟨hR1, f1⟩
  have rT : ∀ i j, i < n → j < n → entry ν1 T i j = entry μ T i j := by
    intro i j hi hj
    refine f1 _ (fun c => (okr c).1.tv i j (by omega) (by omega)) (tw i j (by omega) (by omega))
  have hsub1 : ∀ j, j + 1 < n → entry ν1 T (j + 1) j = 0 := fun j hj => by rw [rT _ _ hj (by omega)]; exact hsub j hj
  have hL : wp (if left then do
      let colN ← trevcColnorms false T ⟨n, fun _ => 0⟩
      let _ ← trevcLeft (hetOps isReal isinf smin smax) pr sfmin sfmax how sel T Vl (work.sub 0 n) (work.sub n (2 * n)) colN
      pure ()
    else pure () : M L ℂ Unit) ν1 (fun _ ν => (left = true → ∃ G, TrSt Vl work ν1 G ν ∧ LeftInv how sel n (entry ν1 T) (entry ν1 Vl) n G) ∧
      ∀ l, (left = true → ¬ Vl.Owns l) → ¬ work.Owns l → ν l = ν1 l) := by
    by_cases c : left = true
    · rw [if_pos c]
      simp only [wp_bind]
      refine wp_conseq (wp_trevcColnorms (n := n) tm tn hsub1 rfl) ?_
      rintro colN _ ⟨cn, rfl⟩
      refine wp_conseq (wp_trevcLeft hu hsf (okl c).1 cn hsub1 (okl c).2 fun k i h1 h2 h3 => ?_) ?_
      · rw [rT _ _ h2 h2, rT _ _ (by omega) (by omega)]; exact hl c k i h1 h2 h3
      rintro _ ν ⟨G, h, hI⟩
      exact ⟨fun _ => ⟨G, h, hI⟩, fun l h1 h2 => h.frame l (h1 c) h2⟩
    · rw [if_neg c]; exact ⟨fun h => absurd h c, fun _ _ _ => rfl⟩
  refine wp_conseq hL ?_
  rintro _ ν2 ⟨hL2, f2⟩
  refine ⟨rfl, fun c => ?_, fun c => ?_, fun l h1 h2 h3 => by rw [f2 l h2 h3, f1 l h1 h3]⟩
  · obtain ⟨G, h, hI⟩ := hR1 c
    have ok := (okr c).1
    refine ⟨G, fun i j hi hj => ?_, hI⟩
    rw [f2 _ (fun cl => (dj cl c).2 i j (by rw [ok.vm]; exact hi) hj) (ok.vw i j (by rw [ok.vm]; exact hi) hj)]
    exact h.val i j (by rw [ok.vm]; exact hi) hj
  · obtain ⟨G, h, hI⟩ := hL2 c
    have ok := (okl c).1
    by_cases q : ∃ j0, j0 < Vl.n
    · have rV : ∀ i j, i < n → j < Vl.n → entry ν1 Vl i j = entry μ Vl i j := fun i j hi hj =>
        f1 _ (fun cr => (dj c cr).1 i j (by rw [ok.vm]; exact hi) hj) (ok.vw i j (by rw [ok.vm]; exact hi) hj)
      refine ⟨fun r j => if j < Vl.n then G r j else entry μ Vl r j, fun i j hi hj => by beta_reduce; rw [if_pos hj]; exact h.val i j (by rw [ok.vm]; exact hi) hj, fun k k1 k2 => ?_, fun r j hr hj => ?_⟩
      · obtain ⟨z, a1, a2⟩ := hI.done k k1 k2
        have hlt := selRank_lt (j := n) k1 k2
        have := (okl c).2
        refine ⟨z, a1.congr k1 rT, fun r hr => ?_⟩
        beta_reduce
        rw [if_pos (by omega), a2 r hr]
        unfold trCol
        by_cases hB : how = .Back
        · rw [if_pos hB, if_pos hB]
          have e : selRank (trAct how sel) n = n := selRank_ne (by rw [hB]; decide) sel n
          exact sum_congr rfl fun s hs => by rw [rV r s hr (by have := mem_range.1 hs; omega)]
        · rw [if_neg hB, if_neg hB]
      · by_cases hj' : j < Vl.n
        · rw [if_pos hj', hI.todo r j hr hj, rV r j hr hj']
        · rw [if_neg hj']
    · have h0 : ∀ j, ¬ j < Vl.n := fun j hj => q ⟨j, hj⟩
      have hz : selRank (trAct how sel) n = 0 := by have := (okl c).2; have := h0 0; omega
      refine ⟨entry μ Vl, fun i j _ hj => absurd hj (h0 j), fun k k1 k2 => ?_, fun _ _ _ _ => rfl⟩
      have := selRank_lt (j := n) k1 k2
      omega

set_option maxHeartbeats 1000000 in
/-- With a repeated eigenvalue the right eigenvectors are not found. -/
theorem wp_trevcRight_fail (hu : pr.u ≠ 0) (hsf : 0 < sfmax) {how : HowMny} {sel : Nat → Bool} {T V : MatV L} {work : VecV L} (ok : TrArg n T V work) {colN : RArr} (cn : colN.n = n)
    {μ : Store L ℂ} (hsub : ∀ j, j + 1 < n → entry μ T (j + 1) j = 0) (hV : selRank (trAct how sel) n ≤ V.n) {i0 k0 : Nat} (h0 : i0 < k0) (hk0 : k0 < n)
    (ha0 : trAct how sel k0 = true) (he : entry μ T i0 i0 = entry μ T k0 k0) :
    wp (trevcRight (hetOps isReal isinf smin smax) pr sfmin sfmax how sel T V (work.sub 0 n) (work.sub n (2 * n)) colN (selRank (trAct how sel) n)) μ
      (fun _ _ => False) (fun e _ => e = .divz) := by
  obtain ⟨tm, tn, vm, vi, wi, wn, tv, tw, vw⟩ := id ok
  -- the largest index with an equal eigenvalue before it
  obtain ⟨k1, ⟨hk1, ha1, hex⟩, hmax1⟩ : ∃ k, (k < n ∧ trAct how sel k = true ∧ ∃ i, i < k ∧ entry μ T i i = entry μ T k k) ∧
      ∀ k', k < k' → ¬ (k' < n ∧ trAct how sel k' = true ∧ ∃ i, i < k' ∧ entry μ T i i = entry μ T k' k') := by
    classical
    let P : Nat → Prop := fun k => k < n ∧ trAct how sel k = true ∧ ∃ i, i < k ∧ entry μ T i i = entry μ T k k
    have hP : P k0 := ⟨hk0, ha0, i0, h0, he⟩
    refine ⟨Nat.findGreatest P n, Nat.findGreatest_spec (P := P) hk0.le hP, fun k' hk' hp => ?_⟩
    exact Nat.findGreatest_is_greatest (P := P) hk' hp.1.le hp
  obtain ⟨i1, ⟨hi1, he1⟩, hmaxi⟩ : ∃ i, (i < k1 ∧ entry μ T i i = entry μ T k1 k1) ∧ ∀ i', i < i' → ¬ (i' < k1 ∧ entry μ T i' i' = entry μ T k1 k1) := by
    classical
    let P : Nat → Prop := fun i => i < k1 ∧ entry μ T i i = entry μ T k1 k1
    obtain ⟨i, hi, e⟩ := hex
    have hP : P i := ⟨hi, e⟩
    refine ⟨Nat.findGreatest P k1, Nat.findGreatest_spec (P := P) hi.le hP, fun k' hk' hp => ?_⟩
    exact Nat.findGreatest_is_greatest (P := P) hk' hp.1.le hp
  unfold trevcRight
  simp only [tm]
  refine wp_forUp (fun ii c ν => ii ≤ n - 1 - k1 ∧ c = selRank (trAct how sel) (n - ii) ∧ ∃ G, TrSt V work μ G ν ∧ RightInv how sel n (entry μ T) (entry μ V) (n - ii) G)
    (Nat.zero_le n) ?_ ?_ (fun _ _ h => by have := h.1; omega)
  · exact ⟨Nat.zero_le _, rfl, entry μ V, ⟨fun _ _ _ _ => rfl, fun _ _ _ => rfl⟩, fun k h1 h2 => by omega, fun r j _ _ => rfl⟩
  · rintro ii c ν _ hii ⟨hle, hc, G, h, hI⟩
    obtain ⟨i, hi⟩ : ∃ i, i = n - 1 - ii := ⟨_, rfl⟩
    rw [show n - ii = i + 1 by omega] at hc hI
    rw [← hi, show n - (ii + 1) = i by omega]
    by_cases q : i = k1
    · subst q
      have ht : ∀ a b, a < n → b < n → entry ν T a b = entry μ T a b := fun a b ha hb => ok.read h ha hb
      have sok : SubstOK n T (work.sub 0 n) colN := ⟨wi.sub (by omega), ok.disj tw (by omega), tm, tn, Nat.sub_zero n, cn⟩
      refine wp_trevcRightPre ok hsub hk1 h ha1 (wp_mono (wp_trevcBack_fail hu hsf sok hk1 hi1 ?_ fun a h1 h2 => ?_) (fun _ _ h => h.elim) (fun _ _ h => h))
      · rw [ht _ _ (by omega) (by omega), ht _ _ hk1 hk1, he1]
      · rw [ht _ _ (by omega) (by omega), ht _ _ hk1 hk1]; exact fun e => hmaxi a h1 ⟨h2, e⟩
    · refine wp_mono (wp_trevcRightStep hu hsf ok cn hsub hV (by omega) (fun ha a h2 e => hmax1 i (by omega) ⟨by omega, ha, a, h2, e⟩) hc h hI) ?_ (fun _ _ h => h.elim)
      rintro c' ν' ⟨h1, G', h2, h3⟩
      exact ⟨by omega, h1, G', h2, h3⟩

set_option maxHeartbeats 1000000 in
theorem wp_trevc_fail (hu : pr.u ≠ 0) (hsf : 0 < sfmax) {left : Bool} {how : HowMny} {sel : Nat → Bool} {T Vl Vr : MatV L} {rwn : Nat} {work : VecV L}
    (hn : 0 < n) (ok : TrevcArg left true how sel n T Vl Vr rwn work) {μ : Store L ℂ} (hsub : ∀ j, j + 1 < n → entry μ T (j + 1) j = 0)
    {i0 k0 : Nat} (h0 : i0 < k0) (hk0 : k0 < n) (ha0 : trAct how sel k0 = true) (he : entry μ T i0 i0 = entry μ T k0 k0) :
    wp (trevc (hetOps isReal isinf smin smax) pr sfmin sfmax left true how sel T Vl Vr rwn work) μ (fun _ _ => False) (fun e _ => e = .divz) := by
  obtain ⟨tm, tn, hrw, wn, sd, wi, tw, okr, okl, dj⟩ := ok
  unfold trevc
  simp only [tm]
  rw [if_neg (by omega)]
  simp only [wp_bind]
  have hcount : wp (if how = .Select then trevcCount T n 0 0 sel else pure (n, sel) : M L ℂ (Nat × (Nat → Bool))) μ
      (fun r ν => r = (selRank (trAct how sel) n, sel) ∧ μ = ν) := by
    by_cases c : how = .Select
    · rw [if_pos c]
      have e : trAct how sel = sel := by funext i; simp [trAct, c]
      rw [e]
      have := wp_trevcCount (n := n) tm tn hsub sel n 0 (by omega) (by omega)
      rwa [show selRank sel 0 = 0 by simp [selRank]] at this
    · rw [if_neg c, selRank_ne c]; exact ⟨rfl, rfl⟩
  refine wp_mono hcount ?_ (fun _ _ h => h.elim)
  rintro _ _ ⟨rfl, rfl⟩
  have hmm : selRank (trAct how sel) n ≤ (if left ∧ true = true then min Vl.n Vr.n else if left then Vl.n else Vr.n) := by
    split_ifs with c1 c2
    · exact le_min (okl c1.1).2 (okr rfl).2
    · exact (okl c2).2
    · exact (okr rfl).2
  simp only [and_true] at hmm
  simp only [wp_check, wp_bind, hmm, wn, hrw, decide_true, if_true, and_true]
  refine wp_mono (wp_trevcColnorms (n := n) tm tn hsub rfl) ?_ (fun _ _ h => h.elim)
  rintro colN _ ⟨cn, rfl⟩
  exact wp_mono (wp_trevcRight_fail hu hsf (okr rfl).1 cn hsub (okr rfl).2 h0 hk0 ha0 he) (fun _ _ h => h.elim) (fun _ _ h => h)

end TLA
