import Verif.Proofs.QrRoutines

/-! larf on part of a matrix; unmq_level2. -/

set_option linter.unusedSectionVars false
set_option linter.unusedTactic false
set_option linter.unreachableTactic false

namespace TLA
open Finset
variable {L 𝕜 : Type} [DecidableEq L] [RCLike 𝕜] [DecidableEq 𝕜] {p : HhPar}

/-- Separation for larf on the block `r0..r1 × c0..c1` of `C`. -/
structure SubOK (v : VecV L) (C : MatV L) (work : VecV L) (r0 r1 c0 c1 : Nat) : Prop where
  inj : C.Inj
  winj : work.Inj
  r : r1 ≤ C.m
  c : c1 ≤ C.n
  vC : v.DisjM (C.sub r0 r1 c0 c1)
  vw : v.Disj work
  Cw : C.DisjV work

theorem wp_larfSubL {dir : Direction} {store : StoreV} {v : VecV L} {C : MatV L} {work : VecV L} {t : 𝕜}
    {r0 r1 c0 c1 : Nat} {μ : Store L 𝕜} (h : SubOK v C work r0 r1 c0 c1) (hv : v.n = r1 - r0)
    (hw : larfWorksize .Left (r1 - r0) (c1 - c0) ≤ work.n) {u : Nat → 𝕜}
    (hu : ∀ i, i < r1 - r0 → u (r0 + i) = hvec dir store (r1 - r0) (ventry μ v) i)
    (hu0 : ∀ r, r < C.m → r < r0 ∨ r1 ≤ r → u r = 0) :
    wp (larf .Left dir store v t (C.sub r0 r1 c0 c1) work) μ (fun _ ν =>
      MW C work μ (fun r c => if c0 ≤ c ∧ c < c1 then applyL C.m t u (entry μ C) r c else entry μ C r c) ν) := by
  refine wp_conseq (wp_larf_left ⟨Or.inl rfl, by simpa [MatV.sub] using hv, h.inj.sub h.r h.c, h.winj,
    h.vC, h.vw, ?_, hw⟩) ?_
  · intro i j hi hj ho
    simp only [MatV.sub] at hi hj ho
    exact h.Cw _ _ (by have := h.r; omega) (by have := h.c; omega) ho
  intro _ ν h3
  have hr1 := h.r
  have hc1 := h.c
  have hout : ∀ r c, r < C.m → c < C.n → ¬ ((r0 ≤ r ∧ r < r1) ∧ (c0 ≤ c ∧ c < c1)) → entry ν C r c = entry μ C r c := by
    intro r c hr hc hn
    refine h3.frame _ ?_ (h.Cw r c hr hc)
    rintro ⟨i', j', hi', hj', e⟩
    simp only [MatV.sub] at hi' hj' e
    have := h.inj _ _ _ _ (by omega) (by omega) hr hc e
    omega
  refine ⟨fun r c hr hc => ?_, fun l hl hW => h3.frame l (fun ho => hl (ho.sub h.r h.c)) hW⟩
  by_cases hcc : c0 ≤ c ∧ c < c1
  · rw [if_pos hcc]
    unfold applyL
    rw [sum_embed hr1 _ (fun s hs hs' => by rw [hu0 s hs hs', star_zero, zero_mul])]
    by_cases hrr : r0 ≤ r ∧ r < r1
    · obtain ⟨i, rfl⟩ : ∃ i, r = r0 + i := ⟨r - r0, by omega⟩
      obtain ⟨j, rfl⟩ : ∃ j, c = c0 + j := ⟨c - c0, by omega⟩
      have := h3.val i j (show i < r1 - r0 by omega) (show j < c1 - c0 by omega)
      unfold applyL at this
      rw [MatV.sub_m] at this
      rw [show entry ν C (r0 + i) (c0 + j) = entry ν (C.sub r0 r1 c0 c1) i j from rfl, this, ← hu i (by omega)]
      refine congrArg₂ _ rfl (congrArg₂ _ rfl (Finset.sum_congr rfl fun s hs => ?_))
      rw [hu s (mem_range.1 hs)]; rfl
    · rw [hu0 r hr (by omega), mul_zero, zero_mul, sub_zero]
      exact hout r c hr hc (by tauto)
  · rw [if_neg hcc]
    exact hout r c hr hc (by tauto)

theorem wp_larfSubR {dir : Direction} {store : StoreV} {v : VecV L} {C : MatV L} {work : VecV L} {t : 𝕜}
    {r0 r1 c0 c1 : Nat} {μ : Store L 𝕜} (h : SubOK v C work r0 r1 c0 c1) (hv : v.n = c1 - c0)
    (hw : larfWorksize .Right (r1 - r0) (c1 - c0) ≤ work.n) {u : Nat → 𝕜}
    (hu : ∀ i, i < c1 - c0 → u (c0 + i) = hvec dir store (c1 - c0) (ventry μ v) i)
    (hu0 : ∀ r, r < C.n → r < c0 ∨ c1 ≤ r → u r = 0) :
    wp (larf .Right dir store v t (C.sub r0 r1 c0 c1) work) μ (fun _ ν =>
      MW C work μ (fun r c => if r0 ≤ r ∧ r < r1 then applyR C.n t u (entry μ C) r c else entry μ C r c) ν) := by
  refine wp_conseq (wp_larf_right ⟨Or.inr rfl, by simpa [MatV.sub] using hv, h.inj.sub h.r h.c, h.winj,
    h.vC, h.vw, ?_, hw⟩) ?_
  · intro i j hi hj ho
    simp only [MatV.sub] at hi hj ho
    exact h.Cw _ _ (by have := h.r; omega) (by have := h.c; omega) ho
  intro _ ν h3
  have hr1 := h.r
  have hc1 := h.c
  have hout : ∀ r c, r < C.m → c < C.n → ¬ ((r0 ≤ r ∧ r < r1) ∧ (c0 ≤ c ∧ c < c1)) → entry ν C r c = entry μ C r c := by
    intro r c hr hc hn
    refine h3.frame _ ?_ (h.Cw r c hr hc)
    rintro ⟨i', j', hi', hj', e⟩
    simp only [MatV.sub] at hi' hj' e
    have := h.inj _ _ _ _ (by omega) (by omega) hr hc e
    omega
  refine ⟨fun r c hr hc => ?_, fun l hl hW => h3.frame l (fun ho => hl (ho.sub h.r h.c)) hW⟩
  by_cases hrr : r0 ≤ r ∧ r < r1
  · rw [if_pos hrr]
    unfold applyR
    rw [sum_embed hc1 _ (fun s hs hs' => by rw [hu0 s hs hs', mul_zero])]
    by_cases hcc : c0 ≤ c ∧ c < c1
    · obtain ⟨i, rfl⟩ : ∃ i, r = r0 + i := ⟨r - r0, by omega⟩
      obtain ⟨j, rfl⟩ : ∃ j, c = c0 + j := ⟨c - c0, by omega⟩
      have := h3.val i j (show i < r1 - r0 by omega) (show j < c1 - c0 by omega)
      unfold applyR at this
      rw [MatV.sub_n] at this
      rw [show entry ν C (r0 + i) (c0 + j) = entry ν (C.sub r0 r1 c0 c1) i j from rfl, this, ← hu j (by omega)]
      refine congrArg₂ _ rfl (congrArg₂ _ (congrArg₂ _ rfl (Finset.sum_congr rfl fun s hs => ?_)) rfl)
      rw [hu s (mem_range.1 hs)]; rfl
    · rw [hu0 c hc (by omega), star_zero, mul_zero, sub_zero]
      exact hout r c hr hc (by tauto)
  · rw [if_neg hrr]
    exact hout r c hr hc (by tauto)

/-! ### unmq_level2 -/

/-- The factor of the reflector applied in a step. -/
def unmqTau (trans : Op) (store : StoreV) (t : 𝕜) : 𝕜 :=
  if store = .Columnwise then (if trans = .ConjTrans then star t else t)
    else (if trans = .NoTrans then star t else t)

theorem wp_unmqVec {store : StoreV} {V : MatV L} {i r0 r1 : Nat} {μ : Store L 𝕜}
    (h : if store = .Columnwise then r1 ≤ V.m ∧ i < V.n else r1 ≤ V.n ∧ i < V.m) (hr : r0 < r1)
    {Q : VecV L → Store L 𝕜 → Prop}
    (hQ : Q (if store = .Columnwise then V.colv r0 r1 i else V.rowv i r0 r1) μ) :
    wp (unmqVec store V i r0 r1) μ Q := by
  unfold unmqVec
  by_cases e : store = .Columnwise
  · rw [if_pos e] at h hQ ⊢
    exact wp_sliceCol (by omega) (by omega) (by omega) hQ
  · rw [if_neg e] at h hQ ⊢
    exact wp_sliceRow (by omega) (by omega) (by omega) hQ

theorem wp_unmqStep {side : Side} {trans : Op} {dir : Direction} {store : StoreV} {V : MatV L} {tau : VecV L}
    {C : MatV L} {work : VecV L} (ok : UnmqOK side store V tau C work) {i : Nat} (hi : i < tau.n)
    {μ0 μ : Store L 𝕜} {G : Nat → Nat → 𝕜} (hμ : MW C work μ0 G μ) :
    wp (unmqStep side trans dir store V tau C work i) μ (fun _ ν =>
      MW C work μ0 (if side = .Left then applyL C.m (unmqTau trans store (ventry μ0 tau i))
          (houseVec dir store C.m tau.n (entry μ0 V) i) G
        else applyR C.n (unmqTau trans store (ventry μ0 tau i))
          (houseVec dir store C.n tau.n (entry μ0 V) i) G) ν) := by
  have hq := ok.kq
  have htau : ventry μ tau i = ventry μ0 tau i := hμ.frame _ (ok.tC i hi) (ok.tw i hi)
  have hVe : ∀ r c, r < V.m → c < V.n → entry μ V r c = entry μ0 V r c := fun r c hr hc =>
    hμ.frame _ (ok.VC r c hr hc) (ok.Vw r c hr hc)
  unfold unmqStep
  simp only [wp_bind]
  obtain ⟨q, hqd⟩ : ∃ q, q = (if side = .Left then C.m else C.n) := ⟨_, rfl⟩
  have hvm := ok.vm
  simp only [← hqd] at hq hvm ⊢
  obtain ⟨r0, hr0⟩ : ∃ r0, r0 = (if dir = .Forward then i else 0) := ⟨_, rfl⟩
  obtain ⟨r1, hr1⟩ : ∃ r1, r1 = (if dir = .Forward then q else q - tau.n + i + 1) := ⟨_, rfl⟩
  simp only [← hr0, ← hr1]
  have hlt : r0 < r1 := by rw [hr0, hr1]; split <;> omega
  have hle : r1 ≤ q := by rw [hr1]; split <;> omega
  refine wp_unmqVec (by split <;> rename_i e <;> simp only [e, if_true, if_false] at hvm <;> omega) hlt ?_
  obtain ⟨v, hv⟩ : ∃ v, v = (if store = .Columnwise then V.colv r0 r1 i else V.rowv i r0 r1) := ⟨_, rfl⟩
  rw [← hv]
  have hvn : v.n = r1 - r0 := by rw [hv]; split <;> rfl
  -- cells of v are cells of V
  have hvo : ∀ l, v.Owns l → V.Owns l := by
    intro l ho
    rw [hv] at ho
    split at ho
    · rename_i e; rw [if_pos e] at hvm; exact ho.colv (by omega) (by omega)
    · rename_i e; rw [if_neg e] at hvm; exact ho.rowv (by omega) (by omega)
  -- the reflector vector
  have hu : ∀ j, j < r1 - r0 → houseVec dir store q tau.n (entry μ0 V) i (r0 + j) =
      hvec dir store (r1 - r0) (ventry μ v) j := by
    intro j hj
    unfold houseVec hvec
    have hpv : (r0 + j = hpiv dir q tau.n i) ↔ j = pidx dir (r1 - r0) := by
      rw [hr0, hr1] at *
      unfold hpiv pidx
      cases dir <;> simp at hj ⊢ <;> omega
    by_cases e : j = pidx dir (r1 - r0)
    · rw [if_pos (hpv.2 e), if_pos e]
    · rw [if_neg (fun h => e (hpv.1 h)), if_neg e, if_neg]
      · have hvj : ventry μ v j = if store = .Columnwise then entry μ V (r0 + j) i else entry μ V i (r0 + j) := by
          rw [hv]; split <;> rfl
        rw [hvj]
        cases store with
        | Columnwise =>
          simp only [if_true] at hvm ⊢
          rw [hVe _ _ (by omega) (by omega)]
        | Rowwise =>
          simp only [reduceCtorEq, if_false] at hvm ⊢
          rw [hVe _ _ (by omega) (by omega)]
      · rw [hr0, hr1] at *
        unfold hpiv
        cases dir <;> simp at hj ⊢ <;> omega
  have hu0 : ∀ r, r < q → r < r0 ∨ r1 ≤ r → houseVec dir store q tau.n (entry μ0 V) i r = 0 := by
    intro r hr h
    unfold houseVec
    rw [if_neg, if_pos]
    · rw [hr0, hr1] at h
      unfold hpiv
      cases dir <;> simp at h ⊢ <;> omega
    · rw [hr0, hr1] at h
      unfold hpiv
      cases dir <;> simp at h ⊢ <;> omega
  have vw : v.Disj work := by
    intro j hj ho
    obtain ⟨a, b, ha, hb, e⟩ := hvo (v.cell j) ⟨j, hj, rfl⟩
    exact ok.Vw a b ha hb (e ▸ ho)
  have vC : ∀ a b c d, b ≤ C.m → d ≤ C.n → v.DisjM (C.sub a b c d) := by
    intro a b c d h1 h2 j hj ho
    obtain ⟨a', b', ha, hb, e⟩ := hvo (v.cell j) ⟨j, hj, rfl⟩
    exact ok.VC a' b' ha hb (e ▸ ho.sub h1 h2)
  have hfin : ∀ F : Nat → Nat → 𝕜, (∀ r c, r < C.m → c < C.n → entry μ C r c = G r c) →
      ∀ ν, MW C work μ F ν → MW C work μ0 F ν := by
    intro F _ ν h
    exact ⟨h.val, fun l h1 h2 => (h.frame l h1 h2).trans (hμ.frame l h1 h2)⟩
  have hGe : ∀ r c, r < C.m → c < C.n → entry μ C r c = G r c := hμ.val
  have hws := ok.wn
  unfold unmqWorksize at hws
  rcases ok.hside with rfl | rfl
  · simp only [if_true] at hqd ⊢
    subst hqd
    unfold unmqPart
    rw [if_pos rfl]
    refine wp_slice (by omega) (by omega) (by omega) (by omega) ?_
    refine wp_vgetE hi ?_
    rw [show μ (tau.cell i) = ventry μ0 tau i from htau]
    refine wp_conseq (wp_larfSubL (u := houseVec dir store C.m tau.n (entry μ0 V) i)
      ⟨ok.inj, ok.winj, hle, le_refl _, vC _ _ _ _ hle (le_refl _), vw, ok.Cw⟩ hvn
      (le_trans (larfWorksize_left (by omega) (by omega)) hws) hu hu0) ?_
    intro _ ν h3
    refine (hfin _ hGe ν h3).congr (fun r c hr hc => ?_)
    rw [if_pos ⟨Nat.zero_le _, hc⟩]
    unfold applyL
    rw [hGe r c hr hc]
    refine congrArg₂ _ rfl (congrArg₂ _ rfl (Finset.sum_congr rfl fun s hs => ?_))
    rw [hGe s c (mem_range.1 hs) hc]
  · simp only [reduceCtorEq, if_false] at hqd ⊢
    subst hqd
    unfold unmqPart
    rw [if_neg (by simp)]
    refine wp_slice (by omega) (by omega) (by omega) (by omega) ?_
    refine wp_vgetE hi ?_
    rw [show μ (tau.cell i) = ventry μ0 tau i from htau]
    refine wp_conseq (wp_larfSubR (u := houseVec dir store C.n tau.n (entry μ0 V) i)
      ⟨ok.inj, ok.winj, le_refl _, hle, vC _ _ _ _ (le_refl _) hle, vw, ok.Cw⟩ hvn
      (le_trans (larfWorksize_right (by omega) (by omega)) hws) hu hu0) ?_
    intro _ ν h3
    refine (hfin _ hGe ν h3).congr (fun r c hr hc => ?_)
    rw [if_pos ⟨Nat.zero_le _, hr⟩]
    unfold applyR
    rw [hGe r c hr hc]
    refine congrArg₂ _ rfl (congrArg₂ _ (congrArg₂ _ rfl (Finset.sum_congr rfl fun s hs => ?_)) rfl)
    rw [hGe r s hr (mem_range.1 hs)]

/-- The reflector applied by a step of unmq. -/
def unmqH (trans : Op) (dir : Direction) (store : StoreV) (q k : Nat) (V : Nat → Nat → 𝕜) (t : Nat → 𝕜) (i : Nat) :
    Matrix (Fin q) (Fin q) 𝕜 :=
  mat q q (reflF (unmqTau trans store (t i)) (houseVec dir store q k V i))

theorem opQ_eq {isReal : Bool} {trans : Op} (dir : Direction) (store : StoreV) (q k : Nat) (V : Nat → Nat → 𝕜) (t : Nat → 𝕜)
    (ht : trans = .NoTrans ∨ trans = .ConjTrans ∨ (trans = .Trans ∧ isReal = true))
    (hreal : isReal = true → ∀ z : 𝕜, star z = z) :
    opQ trans (houseQ dir store q k V t) = if unmqInc .Left trans dir store then
      ((List.range k).reverse.map (unmqH trans dir store q k V t)).prod
      else ((List.range k).map (unmqH trans dir store q k V t)).prod := by
  have hH : ∀ i, (houseH dir store q k V t i).conjTranspose =
      mat q q (reflF (star (t i)) (houseVec dir store q k V i)) := fun i => refl_conjTranspose _ _ _
  have hT : trans = .Trans → ∀ M : Matrix (Fin q) (Fin q) 𝕜, M.transpose = M.conjTranspose := by
    intro e M
    have hr : isReal = true := by rcases ht with h | h | h <;> simp_all
    ext i j
    simp [Matrix.conjTranspose_apply, hreal hr]
  have hs : trans = .Trans → ∀ z : 𝕜, star z = z := by
    intro e
    exact hreal (by rcases ht with h | h | h <;> simp_all)
  have hc : ∀ l : List Nat, ((l.map (houseH dir store q k V t)).prod).conjTranspose =
      (l.reverse.map fun i => (houseH dir store q k V t i).conjTranspose).prod := by
    intro l
    rw [Matrix.conjTranspose_list_prod, List.map_map, ← List.map_reverse]
    rfl
  have hc' : ∀ l : List Nat, ((l.map fun i => (houseH dir store q k V t i).conjTranspose).prod).conjTranspose =
      (l.reverse.map (houseH dir store q k V t)).prod := by
    intro l
    rw [Matrix.conjTranspose_list_prod, List.map_map, ← List.map_reverse]
    congr 1
    refine List.map_congr_left fun i _ => ?_
    simp
  have hN : store = .Columnwise → trans = .NoTrans → unmqH trans dir store q k V t = houseH dir store q k V t := by
    rintro rfl rfl; rfl
  have hNr : store = .Rowwise → trans = .NoTrans → unmqH trans dir store q k V t =
      fun i => (houseH dir store q k V t i).conjTranspose := by
    rintro rfl rfl; funext i; rw [hH]; rfl
  have hC : store = .Columnwise → trans ≠ .NoTrans → unmqH trans dir store q k V t =
      fun i => (houseH dir store q k V t i).conjTranspose := by
    rintro rfl h; funext i; rw [hH]
    unfold unmqH unmqTau
    rw [if_pos rfl]
    by_cases e : trans = .ConjTrans
    · rw [if_pos e]
    · rw [if_neg e, hs (by tauto)]
  have hCr : store = .Rowwise → trans ≠ .NoTrans → unmqH trans dir store q k V t = houseH dir store q k V t := by
    rintro rfl h; funext i
    unfold unmqH unmqTau houseH
    rw [if_neg (by simp), if_neg h]
  have hop : trans ≠ .NoTrans → ∀ M : Matrix (Fin q) (Fin q) 𝕜, opQ trans M = M.conjTranspose := by
    intro h M
    rcases ht with rfl | rfl | ⟨rfl, _⟩
    · exact absurd rfl h
    · rfl
    · exact hT rfl M
  by_cases e : trans = .NoTrans
  · subst e
    cases store <;> cases dir <;> simp only [opQ, houseQ, unmqInc]
    all_goals first
      | (rw [hN rfl rfl]; simp)
      | (rw [hNr rfl rfl]; simp)
  · rw [hop e]
    cases store <;> cases dir <;> simp only [houseQ, unmqInc, hc, hc', List.reverse_reverse]
    all_goals first
      | (rw [hC rfl e]; simp [e])
      | (rw [hCr rfl e]; simp [e])

theorem wp_unmq {isReal : Bool} {side : Side} {trans : Op} {dir : Direction} {store : StoreV} {V : MatV L} {tau : VecV L}
    {C : MatV L} {work : VecV L} (ok : UnmqOK side store V tau C work)
    (ht : trans = .NoTrans ∨ trans = .ConjTrans ∨ (trans = .Trans ∧ isReal = true))
    (hreal : isReal = true → ∀ z : 𝕜, star z = z) {μ : Store L 𝕜} :
    wp (unmq isReal side trans dir store V tau C work) μ (fun r ν => r = 0 ∧
      mat C.m C.n (entry ν C) = (if side = .Left then
        opQ trans (houseQ dir store C.m tau.n (entry μ V) (ventry μ tau)) * mat C.m C.n (entry μ C)
        else mat C.m C.n (entry μ C) * opQ trans (houseQ dir store C.n tau.n (entry μ V) (ventry μ tau))) ∧
      ∀ l, ¬ C.Owns l → ¬ work.Owns l → ν l = μ l) := by
  have hvm := ok.vm
  unfold unmq
  simp only [wp_bind, wp_check]
  rw [if_pos (by rcases ok.hside with h | h <;> simp [h]),
    if_pos (by rcases ht with h | h | h <;> simp [h]), if_pos (by
      cases store
      · simp only [if_true] at hvm; simp only [decide_eq_true_eq]; exact ⟨hvm.2, hvm.1⟩
      · simp only [reduceCtorEq, if_false] at hvm; simp only [decide_eq_true_eq]; exact ⟨hvm.2, hvm.1⟩)]
  rw [opQ_eq (isReal := isReal) dir store C.m tau.n _ _ ht hreal, opQ_eq (isReal := isReal) dir store C.n tau.n _ _ ht hreal]
  by_cases h0 : C.m = 0 ∨ C.n = 0 ∨ tau.n = 0
  · rw [if_pos h0, wp_pure]
    refine ⟨rfl, ?_, fun _ _ _ => rfl⟩
    by_cases h1 : C.m = 0
    · funext i; exact absurd i.2 (by omega)
    by_cases h2 : C.n = 0
    · funext i j; exact absurd j.2 (by omega)
    · have h3 : tau.n = 0 := by omega
      rw [h3]
      simp
  rw [if_neg h0]
  rcases ok.hside with rfl | rfl
  · simp only [if_true]
    obtain ⟨H, hH⟩ : ∃ H, H = unmqH trans dir store C.m tau.n (entry μ V) (ventry μ tau) := ⟨_, rfl⟩
    rw [← hH]
    by_cases hinc : unmqInc .Left trans dir store = true
    · rw [if_pos hinc, if_pos hinc]
      simp only [wp_bind]
      refine wp_forUp_ (fun s ν => ∃ G, MW C work μ G ν ∧
        mat C.m C.n G = ((List.range s).reverse.map H).prod * mat C.m C.n (entry μ C)) (Nat.zero_le _)
        ⟨entry μ C, MW.init _ _ _, by simp⟩ ?_ ?_
      · rintro i ν _ hi ⟨G, hG, hp⟩
        refine wp_conseq (wp_unmqStep ok hi hG) ?_
        intro _ ν' h'
        simp only [if_true] at h'
        refine ⟨_, h', ?_⟩
        rw [mat_applyL, hp, List.range_succ, List.reverse_append, List.map_append, List.prod_append, hH,
          ← Matrix.mul_assoc]
        simp [unmqH]
      · rintro ν ⟨G, hG, hp⟩
        rw [wp_pure]
        exact ⟨rfl, by rw [← hp, mat_ext_iff]; exact hG.val, hG.frame⟩
    · rw [if_neg hinc, if_neg hinc]
      simp only [wp_bind]
      refine wp_forDown_ (fun s ν => s ≤ tau.n ∧ ∃ G, MW C work μ G ν ∧
        mat C.m C.n G = ((List.range' s (tau.n - s)).map H).prod * mat C.m C.n (entry μ C)) (Nat.zero_le _)
        ⟨le_refl _, entry μ C, MW.init _ _ _, by simp⟩ ?_ ?_
      · rintro i ν _ hi ⟨_, G, hG, hp⟩
        refine wp_conseq (wp_unmqStep ok hi hG) ?_
        intro _ ν' h'
        simp only [if_true] at h'
        refine ⟨by omega, _, h', ?_⟩
        rw [mat_applyL, hp, show tau.n - i = (tau.n - (i + 1)) + 1 by omega, List.range'_succ, List.map_cons, List.prod_cons,
          ← Matrix.mul_assoc, hH]
        rfl
      · rintro ν ⟨_, G, hG, hp⟩
        rw [wp_pure]
        refine ⟨rfl, by rw [List.range_eq_range', ← Nat.sub_zero tau.n, ← hp, mat_ext_iff]; exact hG.val, hG.frame⟩
  · simp only [reduceCtorEq, if_false]
    obtain ⟨H, hH⟩ : ∃ H, H = unmqH trans dir store C.n tau.n (entry μ V) (ventry μ tau) := ⟨_, rfl⟩
    rw [← hH]
    have hneg : unmqInc .Right trans dir store = !(unmqInc .Left trans dir store) := by
      simp [unmqInc]
    rw [hneg]
    by_cases hinc : unmqInc .Left trans dir store = true
    · rw [if_pos hinc, hinc]
      simp only [Bool.not_true, Bool.false_eq_true, if_false]
      simp only [wp_bind]
      refine wp_forDown_ (fun s ν => s ≤ tau.n ∧ ∃ G, MW C work μ G ν ∧
        mat C.m C.n G = mat C.m C.n (entry μ C) * ((List.range' s (tau.n - s)).reverse.map H).prod) (Nat.zero_le _)
        ⟨le_refl _, entry μ C, MW.init _ _ _, by simp⟩ ?_ ?_
      · rintro i ν _ hi ⟨_, G, hG, hp⟩
        refine wp_conseq (wp_unmqStep ok hi hG) ?_
        intro _ ν' h'
        simp only [reduceCtorEq, if_false] at h'
        refine ⟨by omega, _, h', ?_⟩
        rw [mat_applyR, hp, show tau.n - i = (tau.n - (i + 1)) + 1 by omega, List.range'_succ, List.reverse_cons,
          List.map_append, List.prod_append, ← Matrix.mul_assoc, hH]
        simp [unmqH]
      · rintro ν ⟨_, G, hG, hp⟩
        rw [wp_pure]
        refine ⟨rfl, by rw [List.range_eq_range', ← Nat.sub_zero tau.n, ← hp, mat_ext_iff]; exact hG.val, hG.frame⟩
    · rw [if_neg hinc, Bool.eq_false_iff.2 hinc]
      simp only [Bool.not_false, if_true]
      simp only [wp_bind]
      refine wp_forUp_ (fun s ν => ∃ G, MW C work μ G ν ∧
        mat C.m C.n G = mat C.m C.n (entry μ C) * ((List.range s).map H).prod) (Nat.zero_le _)
        ⟨entry μ C, MW.init _ _ _, by simp⟩ ?_ ?_
      · rintro i ν _ hi ⟨G, hG, hp⟩
        refine wp_conseq (wp_unmqStep ok hi hG) ?_
        intro _ ν' h'
        simp only [reduceCtorEq, if_false] at h'
        refine ⟨_, h', ?_⟩
        rw [mat_applyR, hp, List.range_succ, List.map_append, List.prod_append, hH, ← Matrix.mul_assoc]
        simp [unmqH]
      · rintro ν ⟨G, hG, hp⟩
        rw [wp_pure]
        exact ⟨rfl, by rw [← hp, mat_ext_iff]; exact hG.val, hG.frame⟩

end TLA
