import Verif.Proofs.TrevcLeft
import Verif.Proofs.Block
import Verif.Proofs.SubView

set_option linter.unusedVariables false
set_option linter.unusedSectionVars false
set_option linter.unusedSimpArgs false

/-! # trevc: storing the eigenvectors -/

namespace TLA
open Kernel Finset
variable {L : Type} [DecidableEq L]
variable {isReal : Bool} {isinf : ℝ → Bool} {smin smax : ℝ}
variable {pr : DivPar} {sfmin sfmax : ℝ} {n : Nat}

theorem triF_congr_range {t t' : Nat → Nat → ℂ} (h : ∀ i j, i < n → j < n → t i j = t' i j) :
    mat n n (triF .Upper .NonUnit t) = mat n n (triF .Upper .NonUnit t') := by
  funext i j
  show triF .Upper .NonUnit t i j = triF .Upper .NonUnit t' i j
  unfold triF
  rw [h i j i.2 j.2, h i i i.2 i.2]

theorem IsRightEv.congr {t t' : Nat → Nat → ℂ} {i : Nat} {z : Nat → ℂ} (hi : i < n) (h : ∀ i j, i < n → j < n → t i j = t' i j) (hz : IsRightEv n t i z) :
    IsRightEv n t' i z := by
  obtain ⟨a, b, c⟩ := hz
  refine ⟨a, b, ?_⟩
  rw [← triF_congr_range h, ← h i i hi hi]
  exact c

theorem IsLeftEv.congr {t t' : Nat → Nat → ℂ} {i : Nat} {z : Nat → ℂ} (hi : i < n) (h : ∀ i j, i < n → j < n → t i j = t' i j) (hz : IsLeftEv n t i z) :
    IsLeftEv n t' i z := by
  obtain ⟨a, b, c⟩ := hz
  refine ⟨a, b, ?_⟩
  rw [← triF_congr_range h, ← h i i hi hi]
  exact c

/-- `V` holds `G`; outside `V` and `work` the store is that of the start. -/
structure TrSt (V : MatV L) (work : VecV L) (μ : Store L ℂ) (G : Nat → Nat → ℂ) (ν : Store L ℂ) : Prop where
  val : ∀ i j, i < V.m → j < V.n → ν (V.cell i j) = G i j
  frame : ∀ l, ¬ V.Owns l → ¬ work.Owns l → ν l = μ l

/-- The arguments of one of the two loops. -/
structure TrArg (n : Nat) (T V : MatV L) (work : VecV L) : Prop where
  tm : T.m = n
  tn : T.n = n
  vm : V.m = n
  vi : V.Inj
  wi : work.Inj
  wn : 3 * n ≤ work.n
  tv : T.Disj V
  tw : T.DisjV work
  vw : V.DisjV work

theorem TrArg.read {T V : MatV L} {work : VecV L} (ok : TrArg n T V work) {μ ν : Store L ℂ} {G} (h : TrSt V work μ G ν) {i j : Nat} (hi : i < n) (hj : j < n) :
    ν (T.cell i j) = μ (T.cell i j) :=
  h.frame _ (ok.tv i j (by rw [ok.tm]; exact hi) (by rw [ok.tn]; exact hj)) (ok.tw i j (by rw [ok.tm]; exact hi) (by rw [ok.tn]; exact hj))

theorem TrArg.disj {T V : MatV L} {work : VecV L} (ok : TrArg n T V work) {A : MatV L} (h : A.DisjV work) {a b : Nat} (hb : b ≤ 3 * n) : A.DisjV (work.sub a b) :=
  fun i j hi hj ho => h i j hi hj (VecV.Owns.sub (le_trans hb ok.wn) ho)

theorem wp_trevcPair {T : MatV L} {j : Nat} {ν : Store L ℂ} (hm : T.m = n) (hn : T.n = n) (h : j + 1 < n → ν (T.cell (j + 1) j) = 0) :
    wp (trevcPair T n j) ν (fun b ν' => b = false ∧ ν = ν') := by
  unfold trevcPair
  by_cases c : j + 1 < n
  · rw [if_pos c]
    simp only [wp_bind, wp_get, wp_pure]
    exact ⟨⟨by omega, by omega⟩, by simp [h c], trivial⟩
  · rw [if_neg c]; exact ⟨rfl, rfl⟩

/-- Is eigenvector `i` asked for? -/
def trAct (how : HowMny) (sel : Nat → Bool) (i : Nat) : Bool := decide (how ≠ .Select) || sel i

theorem wp_trevcSkip {how : HowMny} {sel : Nat → Bool} {T : MatV L} {i : Nat} {ν : Store L ℂ} (hm : T.m = n) (hn : T.n = n) (hi : i < n)
    (h : 0 < i → ν (T.cell i (i - 1)) = 0) :
    wp (trevcSkip how sel T i) ν (fun b ν' => b = (!trAct how sel i) ∧ ν = ν') := by
  unfold trevcSkip trAct
  by_cases c : how = .Select ∧ sel i = false
  · rw [if_pos c]; exact ⟨by simp [c.1, c.2], rfl⟩
  · rw [if_neg c]
    have e : (!(decide (how ≠ .Select) || sel i)) = false := by
      by_cases c1 : how = .Select
      · have : sel i ≠ false := fun h => c ⟨c1, h⟩
        simp [Bool.eq_true_of_not_eq_false this]
      · simp [c1]
    rw [e]
    by_cases c0 : 0 < i
    · rw [if_pos c0]
      simp only [wp_bind, wp_get, wp_pure]
      exact ⟨⟨by omega, by omega⟩, by simp [h c0], trivial⟩
    · rw [if_neg c0]; exact ⟨rfl, rfl⟩

theorem wp_trevcStore {V : MatV L} {v : VecV L} (hV : V.Inj) (hd : V.DisjV v) {c : Nat} (hm : V.m = n) (hv : v.n = n) (hc : c < V.n) {μ ν : Store L ℂ} {work : VecV L} {G}
    (h : TrSt V work μ G ν) :
    wp (trevcStore V v n c) ν (fun _ ν' => TrSt V work μ (fun r j => if j = c then ν (v.cell r) else G r j) ν') := by
  have dv : ∀ i, i < n → ¬ V.Owns (v.cell i) := fun i hi ⟨a, b, ha, hb, e⟩ => hd a b ha hb ⟨i, by omega, e.symm⟩
  unfold trevcStore
  refine wp_forUp_ (fun k ν' => MState V ν (fun r j => if j = c ∧ r < k then ν (v.cell r) else G r j) ν') (Nat.zero_le n) ?_ ?_ ?_
  · exact ⟨fun i j hi hj => by rw [if_neg (by omega)]; exact h.val i j hi hj, fun _ _ => rfl⟩
  · rintro k ν' _ hk h'
    simp only [wp_bind, wp_vget, wp_set]
    refine ⟨by omega, ⟨by omega, hc⟩, h'.upd hV (by omega) hc fun i j hi hj => ?_⟩
    rw [h'.frame _ (dv k hk)]
    by_cases q : i = k ∧ j = c
    · rw [if_pos q, if_pos (by omega), q.1]
    · rw [if_neg q]
      by_cases q2 : j = c ∧ i < k
      · rw [if_pos q2, if_pos (by omega)]
      · rw [if_neg q2, if_neg (by omega)]
  · intro ν' h'
    refine ⟨fun i j hi hj => ?_, fun l h1 h2 => by rw [h'.frame l h1, h.frame l h1 h2]⟩
    rw [h'.val i j hi hj]
    by_cases q : j = c
    · rw [if_pos ⟨q, by omega⟩, if_pos q]
    · rw [if_neg (by omega), if_neg q]

/-- What a column of the result holds: the eigenvector `z`, or the product of the matrix given on entry and `z`. -/
noncomputable def trCol (how : HowMny) (q : Nat → Nat → ℂ) (n : Nat) (z : Nat → ℂ) (r : Nat) : ℂ :=
  if how = .Back then ∑ s ∈ range n, q r s * z s else z r

set_option maxHeartbeats 1000000 in
/-- Storing an eigenvector `z` held in `v1` whose nonzero part is in `[a, b)`. -/
theorem wp_trevcPut {how : HowMny} {T V : MatV L} {work : VecV L} (ok : TrArg n T V work) {μ ν : Store L ℂ} {G} {z : Nat → ℂ} (h : TrSt V work μ G ν)
    (hz : ∀ s, s < n → ν ((work.sub 0 n).cell s) = z s) {a b i c : Nat} (hab : a < b) (hb : b ≤ n) (hz0 : ∀ s, s < n → ¬ (a ≤ s ∧ s < b) → z s = 0)
    (hq : how = .Back → ∀ r s, r < n → a ≤ s → s < b → G r s = entry μ V r s) (hbn : how = .Back → n ≤ V.n) (hc : how = .Back → c = i) (hcn : c < V.n) {g : M L ℂ Unit}
    (hg : how ≠ .Back → g = trevcStore V (work.sub 0 n) n c) :
    wp (if how = .Back then do
      let Q ← V.slice 0 n a b
      let x ← (work.sub 0 n).slice a b
      gemv .NoTrans 1 Q x .strongZero (work.sub n (2 * n))
      trevcStore V (work.sub n (2 * n)) n i
    else g : M L ℂ Unit) ν (fun _ ν' => TrSt V work μ (fun r j => if j = c then trCol how (entry μ V) n z r else G r j) ν') := by
  obtain ⟨tm, tn, vm, vi, wi, wn, tv, tw, vw⟩ := id ok
  have st : ∀ {ν'} {G' : Nat → Nat → ℂ}, TrSt V work μ (fun r j => if j = c then G' r j else G r j) ν' → (∀ r, r < n → G' r c = trCol how (entry μ V) n z r) →
      TrSt V work μ (fun r j => if j = c then trCol how (entry μ V) n z r else G r j) ν' := by
    intro ν' G' h1 h2
    refine ⟨fun r j hr hj => ?_, h1.frame⟩
    rw [h1.val r j hr hj]
    by_cases q : j = c
    · rw [if_pos q, if_pos q, q, h2 r (by omega)]
    · rw [if_neg q, if_neg q]
  by_cases hB : how = .Back
  · rw [if_pos hB]
    have hbn := hbn hB
    have hci := hc hB
    subst hci
    simp only [wp_bind]
    refine wp_slice (Nat.zero_le _) (by omega) hab.le (by omega) (wp_vslice hab.le (by show b ≤ n - 0; omega) ?_)
    have gok : GemvOK .NoTrans (V.sub 0 n a b) ((work.sub 0 n).sub a b) (work.sub n (2 * n)) n (b - a) := by
      refine ⟨?_, ?_, rfl, ?_, wi.sub (by omega), ?_, ?_⟩
      · rw [if_pos (Or.inl rfl)]; exact Nat.sub_zero n
      · rw [if_pos (Or.inl rfl)]; rfl
      · show 2 * n - n = n; omega
      · rintro r s hr hs ⟨k, hk, e⟩
        have hr' : r < n - 0 := hr
        have hs' : s < b - a := hs
        have hk' : k < 2 * n - n := hk
        exact vw _ _ (show 0 + r < V.m by omega) (show a + s < V.n by omega) ⟨n + k, by omega, e⟩
      · rintro s hs ⟨k, hk, e⟩
        have hs' : s < b - a := hs
        have hk' : k < 2 * n - n := hk
        have := wi (n + k) (0 + (a + s)) (by omega) (by omega) e
        omega
    refine wp_conseq (wp_gemv_e gok (Or.inl (by omega))) ?_
    rintro _ ν1 ⟨f1, v1⟩
    have h1 : TrSt V work μ G ν1 := by
      refine ⟨fun r s hr hs => ?_, fun l hl hw => ?_⟩
      · rw [f1 _ (ok.disj vw (by omega) r s hr hs)]; exact h.val r s hr hs
      · rw [f1 _ (fun ho => hw (VecV.Owns.sub (by omega) ho))]; exact h.frame l hl hw
    refine wp_conseq (wp_trevcStore (n := n) vi (ok.disj vw (by omega)) vm (by show 2 * n - n = n; omega) hcn h1) ?_
    rintro _ ν2 h2
    refine st (G' := fun r _ => ν1 ((work.sub n (2 * n)).cell r)) h2 fun r hr => ?_
    have e := v1 r (by show r < 2 * n - n; omega)
    unfold ventry at e
    rw [e]
    unfold trCol
    rw [if_pos hB]
    simp only [opF, entry, Coef.toVal, one_mul, zero_mul, add_zero]
    have e2 : ∀ s ∈ range (b - a), ν ((V.sub 0 n a b).cell r s) * ν (((work.sub 0 n).sub a b).cell s) = μ (V.cell r (a + s)) * z (a + s) := by
      intro s hs
      have hs := mem_range.1 hs
      have e3 : ν ((V.sub 0 n a b).cell r s) = G r (a + s) := by
        show ν (V.cell (0 + r) (a + s)) = _
        rw [Nat.zero_add]; exact h.val _ _ (by omega) (by omega)
      have e4 : ν (((work.sub 0 n).sub a b).cell s) = z (a + s) := hz (a + s) (by omega)
      rw [e3, e4, hq hB r (a + s) hr (by omega) (by omega)]; rfl
    rw [sum_congr rfl e2]
    have e5 : ∑ s ∈ range n, μ (V.cell r s) * z s = ∑ s ∈ Ico a b, μ (V.cell r s) * z s := by
      symm
      refine sum_subset (fun s hs => mem_range.2 (by have := mem_Ico.1 hs; omega)) fun s hs hn => ?_
      rw [hz0 s (mem_range.1 hs) (fun q => hn (mem_Ico.2 q)), mul_zero]
    rw [e5, sum_Ico_eq_sum_range]
  · rw [if_neg hB, hg hB]
    refine wp_conseq (wp_trevcStore (n := n) vi (ok.disj vw (by omega)) vm (Nat.sub_zero n) hcn h) ?_
    rintro _ ν2 h2
    refine st (G' := fun r _ => ν ((work.sub 0 n).cell r)) h2 fun r hr => ?_
    rw [hz r hr]
    unfold trCol
    rw [if_neg hB]

theorem selRank_succ (sel : Nat → Bool) (i : Nat) : selRank sel (i + 1) = selRank sel i + (if sel i = true then 1 else 0) := by
  unfold selRank
  rw [range_add_one, filter_insert]
  split_ifs
  · rw [card_insert_of_notMem (by simp)]
  · simp

theorem selRank_mono (sel : Nat → Bool) {i j : Nat} (h : i ≤ j) : selRank sel i ≤ selRank sel j := by
  unfold selRank
  exact card_le_card (filter_subset_filter _ (range_subset_range.2 h))

theorem selRank_lt {sel : Nat → Bool} {i j : Nat} (h : i < j) (hs : sel i = true) : selRank sel i < selRank sel j := by
  have := selRank_succ sel i
  rw [if_pos hs] at this
  have := selRank_mono sel (show i + 1 ≤ j from h)
  omega

theorem selRank_all {sel : Nat → Bool} {i : Nat} (h : ∀ j, j < i → sel j = true) : selRank sel i = i := by
  unfold selRank
  rw [filter_true_of_mem (fun j hj => h j (mem_range.1 hj)), card_range]

theorem trAct_ne {how : HowMny} (h : how ≠ .Select) (sel : Nat → Bool) (i : Nat) : trAct how sel i = true := by simp [trAct, h]

theorem selRank_ne {how : HowMny} (h : how ≠ .Select) (sel : Nat → Bool) (i : Nat) : selRank (trAct how sel) i = i := selRank_all fun j _ => trAct_ne h sel j

/-- Invariant of the loop of the right eigenvectors: those from `i` on are stored; the first `selRank i` columns and those from the last on are as on entry. -/
structure RightInv (how : HowMny) (sel : Nat → Bool) (n : Nat) (t q : Nat → Nat → ℂ) (i : Nat) (G : Nat → Nat → ℂ) : Prop where
  done : ∀ k, i ≤ k → k < n → trAct how sel k = true → ∃ z, IsRightEv n t k z ∧ ∀ r, r < n → G r (selRank (trAct how sel) k) = trCol how q n z r
  todo : ∀ r j, r < n → j < selRank (trAct how sel) i ∨ selRank (trAct how sel) n ≤ j → G r j = q r j

set_option maxHeartbeats 1000000 in
/-- A step up to the substitution. -/
theorem wp_trevcRightPre {how : HowMny} {sel : Nat → Bool} {T V : MatV L} {work : VecV L} (ok : TrArg n T V work) {colN : RArr} {μ ν : Store L ℂ}
    (hsub : ∀ j, j + 1 < n → entry μ T (j + 1) j = 0) {i c : Nat} (hin : i < n) {G} (h : TrSt V work μ G ν) (hact : trAct how sel i = true) {Q E}
    (hb : wp (trevcBack (hetOps isReal isinf smin smax) pr sfmin sfmax T (work.sub 0 n) i colN) ν (fun _ ν1 => wp (if how = .Back then do
      let Q ← V.slice 0 n 0 (i + 1)
      let x ← (work.sub 0 n).slice 0 (i + 1)
      gemv .NoTrans 1 Q x .strongZero (work.sub n (2 * n))
      trevcStore V (work.sub n (2 * n)) n i
    else if c = 0 then M.fail .ub
    else trevcStore V (work.sub 0 n) n (c - 1) : M L ℂ Unit) ν1 (fun _ ν2 => Q (c - 1) ν2) E) E) :
    wp (trevcRightStep (hetOps isReal isinf smin smax) pr sfmin sfmax how sel T V (work.sub 0 n) (work.sub n (2 * n)) colN i c) ν Q E := by
  obtain ⟨tm, tn, vm, vi, wi, wn, tv, tw, vw⟩ := id ok
  unfold trevcRightStep
  simp only [tm, wp_bind]
  refine wp_mono (wp_trevcSkip (n := n) tm tn hin (fun h0 => ?_)) ?_ (fun _ _ h => h.elim)
  · rw [ok.read h (by omega) (by omega)]
    have := hsub (i - 1) (by omega)
    rwa [show i - 1 + 1 = i by omega] at this
  rintro b ν' ⟨hb', rfl⟩
  subst hb'
  rw [hact, if_neg (by simp)]
  simp only [wp_bind]
  refine wp_mono (wp_trevcPair (n := n) tm tn (fun hj => ?_)) ?_ (fun _ _ h => h.elim)
  · rw [ok.read h (by omega) (by omega)]; exact hsub i hj
  rintro b ν' ⟨rfl, rfl⟩
  rw [if_neg (by simp)]
  simp only [wp_bind, wp_pure]
  exact hb

set_option maxHeartbeats 1000000 in
theorem wp_trevcRightStep (hu : pr.u ≠ 0) (hsf : 0 < sfmax) {how : HowMny} {sel : Nat → Bool} {T V : MatV L} {work : VecV L} (ok : TrArg n T V work) {colN : RArr} (cn : colN.n = n)
    {μ ν : Store L ℂ} (hsub : ∀ j, j + 1 < n → entry μ T (j + 1) j = 0) (hV : selRank (trAct how sel) n ≤ V.n) {i c : Nat} (hin : i < n)
    (hne : trAct how sel i = true → ∀ a, a < i → entry μ T a a ≠ entry μ T i i) {G} (hc : c = selRank (trAct how sel) (i + 1)) (h : TrSt V work μ G ν)
    (hI : RightInv how sel n (entry μ T) (entry μ V) (i + 1) G) :
    wp (trevcRightStep (hetOps isReal isinf smin smax) pr sfmin sfmax how sel T V (work.sub 0 n) (work.sub n (2 * n)) colN i c) ν
      (fun c' ν' => c' = selRank (trAct how sel) i ∧ ∃ G', TrSt V work μ G' ν' ∧ RightInv how sel n (entry μ T) (entry μ V) i G') := by
  obtain ⟨tm, tn, vm, vi, wi, wn, tv, tw, vw⟩ := id ok
  rcases hact : trAct how sel i with _ | _
  · unfold trevcRightStep
    simp only [tm, wp_bind]
    refine wp_conseq (wp_trevcSkip (n := n) tm tn hin (fun h0 => ?_)) ?_
    · rw [ok.read h (by omega) (by omega)]
      have := hsub (i - 1) (by omega)
      rwa [show i - 1 + 1 = i by omega] at this
    rintro b ν' ⟨hb, rfl⟩
    subst hb
    rw [hact, if_pos (by rfl)]
    have e : selRank (trAct how sel) (i + 1) = selRank (trAct how sel) i := by rw [selRank_succ, hact]; simp
    refine ⟨by rw [hc, e], G, h, fun k h1 h2 h3 => ?_, fun r j hr hj => hI.todo r j hr (by rw [e]; exact hj)⟩
    have : k ≠ i := fun q => by rw [q, hact] at h3; exact absurd h3 (by simp)
    exact hI.done k (by omega) h2 h3
  · have e : selRank (trAct how sel) (i + 1) = selRank (trAct how sel) i + 1 := by rw [selRank_succ, hact]; simp
    have ebk : how = .Back → selRank (trAct how sel) i = i := fun hB => selRank_ne (by rw [hB]; decide) sel i
    have ebkn : how = .Back → selRank (trAct how sel) n = n := fun hB => selRank_ne (by rw [hB]; decide) sel n
    refine wp_trevcRightPre ok hsub hin h hact ?_
    have ht : ∀ a b, a < n → b < n → entry ν T a b = entry μ T a b := fun a b ha hb => ok.read h ha hb
    have sok : SubstOK n T (work.sub 0 n) colN := ⟨wi.sub (by omega), ok.disj tw (by omega), tm, tn, Nat.sub_zero n, cn⟩
    refine wp_conseq (wp_trevcBack hu hsf sok hin (μ := ν) fun a ha => ?_) ?_
    · rw [ht a a (by omega) (by omega), ht i i hin hin]; exact hne hact a ha
    rintro _ ν1 ⟨z, h1, hz⟩
    have hz' : IsRightEv n (entry μ T) i z := hz.congr hin ht
    have h1' : TrSt V work μ G ν1 := by
      refine ⟨fun r s hr hs => ?_, fun l hl hw => ?_⟩
      · rw [h1.frame _ (ok.disj vw (by omega) r s hr hs)]; exact h.val r s hr hs
      · rw [h1.frame _ (fun ho => hw (VecV.Owns.sub (by omega) ho))]; exact h.frame l hl hw
    have hlt := selRank_lt (j := n) hin hact
    refine wp_conseq (wp_trevcPut (how := how) (a := 0) (b := i + 1) (i := i) (c := selRank (trAct how sel) i) ok h1' (fun s hs => h1.val s (by show s < n - 0; omega)) (by omega) (by omega)
      (fun s hs hn => hz'.2.1 s (by omega) hs) (fun hB r s hr _ hs => hI.todo r s hr (Or.inl (by rw [e, ebk hB]; exact hs))) (fun hB => by have := ebkn hB; omega) ebk (by omega) (fun hB => ?_)) ?_
    · rw [if_neg (by omega), hc, e, Nat.add_sub_cancel]
    rintro _ ν2 h2
    refine ⟨by rw [hc, e, Nat.add_sub_cancel], _, h2, fun k k1 k2 k3 => ?_, fun r j hr hj => ?_⟩
    · by_cases q : k = i
      · subst q
        exact ⟨z, hz', fun r hr => by beta_reduce; rw [if_pos rfl]⟩
      · obtain ⟨z', a1, a2⟩ := hI.done k (by omega) k2 k3
        refine ⟨z', a1, fun r hr => ?_⟩
        have := selRank_lt (show i < k by omega) hact
        beta_reduce
        rw [if_neg (by omega), a2 r hr]
    · rw [if_neg (by omega)]
      exact hI.todo r j hr (by omega)

set_option maxHeartbeats 1000000 in
theorem wp_trevcRight (hu : pr.u ≠ 0) (hsf : 0 < sfmax) {how : HowMny} {sel : Nat → Bool} {T V : MatV L} {work : VecV L} (ok : TrArg n T V work) {colN : RArr} (cn : colN.n = n)
    {μ : Store L ℂ} (hsub : ∀ j, j + 1 < n → entry μ T (j + 1) j = 0) (hV : selRank (trAct how sel) n ≤ V.n)
    (hne : ∀ i k, i < k → k < n → trAct how sel k = true → entry μ T i i ≠ entry μ T k k) :
    wp (trevcRight (hetOps isReal isinf smin smax) pr sfmin sfmax how sel T V (work.sub 0 n) (work.sub n (2 * n)) colN (selRank (trAct how sel) n)) μ
      (fun _ ν => ∃ G, TrSt V work μ G ν ∧ RightInv how sel n (entry μ T) (entry μ V) 0 G) := by
  obtain ⟨tm, tn, vm, vi, wi, wn, tv, tw, vw⟩ := id ok
  unfold trevcRight
  simp only [tm]
  refine wp_forUp (fun ii c ν => c = selRank (trAct how sel) (n - ii) ∧ ∃ G, TrSt V work μ G ν ∧ RightInv how sel n (entry μ T) (entry μ V) (n - ii) G) (Nat.zero_le n) ?_ ?_ ?_
  · exact ⟨rfl, entry μ V, ⟨fun _ _ _ _ => rfl, fun _ _ _ => rfl⟩, fun k h1 h2 => by omega, fun r j _ _ => rfl⟩
  · rintro ii c ν _ hii ⟨hc, G, h, hI⟩
    obtain ⟨i, hi⟩ : ∃ i, i = n - 1 - ii := ⟨_, rfl⟩
    rw [show n - ii = i + 1 by omega] at hc hI
    rw [← hi, show n - (ii + 1) = i by omega]
    exact wp_trevcRightStep hu hsf ok cn hsub hV (by omega) (fun ha a h2 => hne a i h2 (by omega) ha) hc h hI
  · rintro c ν ⟨_, G, h, hI⟩
    rw [Nat.sub_self] at hI
    exact ⟨G, h, hI⟩

/-- Invariant of the loop of the left eigenvectors: those before `i` are stored; the columns from `selRank i` on are as on entry. -/
structure LeftInv (how : HowMny) (sel : Nat → Bool) (n : Nat) (t q : Nat → Nat → ℂ) (i : Nat) (G : Nat → Nat → ℂ) : Prop where
  done : ∀ k, k < i → trAct how sel k = true → ∃ z, IsLeftEv n t k z ∧ ∀ r, r < n → G r (selRank (trAct how sel) k) = trCol how q n z r
  todo : ∀ r j, r < n → selRank (trAct how sel) i ≤ j → G r j = q r j

set_option maxHeartbeats 1000000 in
/-- A step up to the substitution. -/
theorem wp_trevcLeftPre {how : HowMny} {sel : Nat → Bool} {T V : MatV L} {work : VecV L} (ok : TrArg n T V work) {colN : RArr} {μ ν : Store L ℂ}
    (hsub : ∀ j, j + 1 < n → entry μ T (j + 1) j = 0) {i c : Nat} (hin : i < n) {G} (h : TrSt V work μ G ν) (hact : trAct how sel i = true) {Q E}
    (hb : wp (trevcFwd (hetOps isReal isinf smin smax) pr sfmin sfmax T (work.sub 0 n) i colN) ν (fun _ ν1 => wp (if how = .Back then do
      let Q ← V.slice 0 n i n
      let x ← (work.sub 0 n).slice i n
      gemv .NoTrans 1 Q x .strongZero (work.sub n (2 * n))
      trevcStore V (work.sub n (2 * n)) n i
    else trevcStore V (work.sub 0 n) n c : M L ℂ Unit) ν1 (fun _ ν2 => Q (c + 1) ν2) E) E) :
    wp (trevcLeftStep (hetOps isReal isinf smin smax) pr sfmin sfmax how sel T V (work.sub 0 n) (work.sub n (2 * n)) colN i c) ν Q E := by
  obtain ⟨tm, tn, vm, vi, wi, wn, tv, tw, vw⟩ := id ok
  unfold trevcLeftStep
  simp only [tm, wp_bind]
  refine wp_mono (wp_trevcSkip (n := n) tm tn hin (fun h0 => ?_)) ?_ (fun _ _ h => h.elim)
  · rw [ok.read h (by omega) (by omega)]
    have := hsub (i - 1) (by omega)
    rwa [show i - 1 + 1 = i by omega] at this
  rintro b ν' ⟨hb', rfl⟩
  subst hb'
  rw [hact, if_neg (by simp)]
  simp only [wp_bind]
  refine wp_mono (wp_trevcPair (n := n) tm tn (fun hj => ?_)) ?_ (fun _ _ h => h.elim)
  · rw [ok.read h (by omega) (by omega)]; exact hsub i hj
  rintro b ν' ⟨rfl, rfl⟩
  rw [if_neg (by simp)]
  simp only [wp_bind, wp_pure]
  exact hb

set_option maxHeartbeats 1000000 in
theorem wp_trevcLeftStep (hu : pr.u ≠ 0) (hsf : 0 < sfmax) {how : HowMny} {sel : Nat → Bool} {T V : MatV L} {work : VecV L} (ok : TrArg n T V work) {colN : RArr} (cn : colN.n = n)
    {μ ν : Store L ℂ} (hsub : ∀ j, j + 1 < n → entry μ T (j + 1) j = 0) (hV : selRank (trAct how sel) n ≤ V.n) {i c : Nat} (hin : i < n)
    (hne : trAct how sel i = true → ∀ a, i < a → a < n → entry μ T a a ≠ entry μ T i i) {G} (hc : c = selRank (trAct how sel) i) (h : TrSt V work μ G ν)
    (hI : LeftInv how sel n (entry μ T) (entry μ V) i G) :
    wp (trevcLeftStep (hetOps isReal isinf smin smax) pr sfmin sfmax how sel T V (work.sub 0 n) (work.sub n (2 * n)) colN i c) ν
      (fun c' ν' => c' = selRank (trAct how sel) (i + 1) ∧ ∃ G', TrSt V work μ G' ν' ∧ LeftInv how sel n (entry μ T) (entry μ V) (i + 1) G') := by
  obtain ⟨tm, tn, vm, vi, wi, wn, tv, tw, vw⟩ := id ok
  rcases hact : trAct how sel i with _ | _
  · unfold trevcLeftStep
    simp only [tm, wp_bind]
    refine wp_conseq (wp_trevcSkip (n := n) tm tn hin (fun h0 => ?_)) ?_
    · rw [ok.read h (by omega) (by omega)]
      have := hsub (i - 1) (by omega)
      rwa [show i - 1 + 1 = i by omega] at this
    rintro b ν' ⟨hb, rfl⟩
    subst hb
    rw [hact, if_pos (by rfl)]
    have e : selRank (trAct how sel) (i + 1) = selRank (trAct how sel) i := by rw [selRank_succ, hact]; simp
    refine ⟨by rw [hc, e], G, h, fun k h1 h3 => ?_, fun r j hr hj => hI.todo r j hr (by rw [← e]; exact hj)⟩
    have : k ≠ i := fun q => by rw [q, hact] at h3; exact absurd h3 (by simp)
    exact hI.done k (by omega) h3
  · have e : selRank (trAct how sel) (i + 1) = selRank (trAct how sel) i + 1 := by rw [selRank_succ, hact]; simp
    have ebk : how = .Back → selRank (trAct how sel) i = i := fun hB => selRank_ne (by rw [hB]; decide) sel i
    have ebkn : how = .Back → selRank (trAct how sel) n = n := fun hB => selRank_ne (by rw [hB]; decide) sel n
    refine wp_trevcLeftPre ok hsub hin h hact ?_
    have ht : ∀ a b, a < n → b < n → entry ν T a b = entry μ T a b := fun a b ha hb => ok.read h ha hb
    have sok : SubstOK n T (work.sub 0 n) colN := ⟨wi.sub (by omega), ok.disj tw (by omega), tm, tn, Nat.sub_zero n, cn⟩
    refine wp_conseq (wp_trevcFwd hu hsf sok hin (μ := ν) fun a ha ha2 => ?_) ?_
    · rw [ht a a (by omega) (by omega), ht i i hin hin]; exact hne hact a ha ha2
    rintro _ ν1 ⟨z, h1, hz⟩
    have hz' : IsLeftEv n (entry μ T) i z := hz.congr hin ht
    have h1' : TrSt V work μ G ν1 := by
      refine ⟨fun r s hr hs => ?_, fun l hl hw => ?_⟩
      · rw [h1.frame _ (ok.disj vw (by omega) r s hr hs)]; exact h.val r s hr hs
      · rw [h1.frame _ (fun ho => hw (VecV.Owns.sub (by omega) ho))]; exact h.frame l hl hw
    have hlt := selRank_lt (j := n) hin hact
    refine wp_conseq (wp_trevcPut (how := how) (a := i) (b := n) (i := i) (c := selRank (trAct how sel) i) ok h1' (fun s hs => h1.val s (by show s < n - 0; omega)) hin le_rfl
      (fun s hs hn => hz'.2.1 s (by omega)) (fun hB r s hr hs _ => hI.todo r s hr (by rw [ebk hB]; exact hs)) (fun hB => by have := ebkn hB; omega) ebk (by omega) (fun hB => ?_)) ?_
    · rw [hc]
    rintro _ ν2 h2
    refine ⟨by rw [hc, e], _, h2, fun k k1 k3 => ?_, fun r j hr hj => ?_⟩
    · by_cases q : k = i
      · subst q
        exact ⟨z, hz', fun r hr => by beta_reduce; rw [if_pos rfl]⟩
      · obtain ⟨z', a1, a2⟩ := hI.done k (by omega) k3
        refine ⟨z', a1, fun r hr => ?_⟩
        have := selRank_lt (show k < i by omega) k3
        beta_reduce
        rw [if_neg (by omega), a2 r hr]
    · rw [if_neg (by omega)]
      exact hI.todo r j hr (by omega)

set_option maxHeartbeats 1000000 in
theorem wp_trevcLeft (hu : pr.u ≠ 0) (hsf : 0 < sfmax) {how : HowMny} {sel : Nat → Bool} {T V : MatV L} {work : VecV L} (ok : TrArg n T V work) {colN : RArr} (cn : colN.n = n)
    {μ : Store L ℂ} (hsub : ∀ j, j + 1 < n → entry μ T (j + 1) j = 0) (hV : selRank (trAct how sel) n ≤ V.n)
    (hne : ∀ k i, k < i → i < n → trAct how sel k = true → entry μ T i i ≠ entry μ T k k) :
    wp (trevcLeft (hetOps isReal isinf smin smax) pr sfmin sfmax how sel T V (work.sub 0 n) (work.sub n (2 * n)) colN) μ
      (fun _ ν => ∃ G, TrSt V work μ G ν ∧ LeftInv how sel n (entry μ T) (entry μ V) n G) := by
  obtain ⟨tm, tn, vm, vi, wi, wn, tv, tw, vw⟩ := id ok
  unfold trevcLeft
  simp only [tm]
  refine wp_forUp (fun i c ν => c = selRank (trAct how sel) i ∧ ∃ G, TrSt V work μ G ν ∧ LeftInv how sel n (entry μ T) (entry μ V) i G) (Nat.zero_le n) ?_ ?_ ?_
  · exact ⟨by simp [selRank], entry μ V, ⟨fun _ _ _ _ => rfl, fun _ _ _ => rfl⟩, fun k h1 => by omega, fun r j _ _ => rfl⟩
  · rintro i c ν _ hin ⟨hc, G, h, hI⟩
    exact wp_trevcLeftStep hu hsf ok cn hsub hV hin (fun ha a h2 h3 => hne i a h2 h3 ha) hc h hI
  · rintro c ν ⟨_, G, h, hI⟩
    exact ⟨G, h, hI⟩

end TLA
