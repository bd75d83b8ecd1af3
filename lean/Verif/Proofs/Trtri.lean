import Verif.Proofs.BlockMat
import Verif.Proofs.Raise

set_option linter.unusedTactic false
set_option linter.unreachableTactic false

/-! Triangular inversion. -/

namespace TLA
variable {L T : Type} [DecidableEq L]
open Finset

/-- The part of the triangle trtri may write: with unit diagonal the diagonal is excluded. -/
def wrTri (uplo : Uplo) (diag : Diag) : Uplo :=
  match diag with
  | .NonUnit => uplo
  | .Unit => if uplo = .Lower then .StrictLower else .StrictUpper

theorem wrTri_shift {u : Uplo} (hu : u = .Upper ∨ u = .Lower) (d : Diag) (p i j : Nat) :
    inTri (wrTri u d) (p + i) (p + j) ↔ inTri (wrTri u d) i j := by
  rcases hu with rfl | rfl <;> cases d <;> simp [wrTri, inTri]

theorem wrTri_strict {u : Uplo} (hu : u = .Upper ∨ u = .Lower) (d : Diag) {i j : Nat}
    (h : inTri u i j) (hij : i ≠ j) : inTri (wrTri u d) i j := by
  rcases hu with rfl | rfl <;> cases d <;> simp [wrTri, inTri] at * <;> omega

theorem wrTri_le {u : Uplo} (hu : u = .Upper ∨ u = .Lower) (d : Diag) {i j : Nat}
    (h : inTri (wrTri u d) i j) : inTri u i j := by
  rcases hu with rfl | rfl <;> cases d <;> simp [wrTri, inTri] at * <;> omega

theorem SameOff.subW {A : MatV L} {u : Uplo} {d : Diag} {μ ν : Store L T} {p q : Nat}
    (hu : u = .Upper ∨ u = .Lower) (h : SameOff (A.sub p q p q) (wrTri u d) μ ν) (hm : q ≤ A.m)
    (hn : q ≤ A.n) : SameOff A (wrTri u d) μ ν := by
  intro l hl
  refine h l (fun i j hi hj ht => ?_)
  simp only [MatV.sub] at hi hj ⊢
  exact hl _ _ (by omega) (by omega) ((wrTri_shift hu d p i j).2 ht)

/-- The two triangular solves of trtri. -/
theorem wp_trtriOff [Field T] [StarRing T] {uplo : Uplo} (hu : uplo = .Upper ∨ uplo = .Lower)
    {diag : Diag} {C : MatV L} {a b : Nat} (hC : C.Inj) (hm : C.m = a + b) (hn : C.n = a + b)
    {μ : Store L T} (hd : diag = .NonUnit → ∀ i, i < a + b → entry μ C i i ≠ 0) :
    wp (trtriOff uplo diag C a (a + b)) μ
      (fun _ ν => (if uplo = .Lower then Only (C.sub a (a + b) 0 a) μ ν
          else Only (C.sub 0 a a (a + b)) μ ν) ∧
        if uplo = .Lower then
          ∃ X, X * mat a a (triF .Lower diag (entry μ C)) = - mat b a (sh a 0 (entry μ C)) ∧
            mat b b (triF .Lower diag (sh a a (entry μ C))) * mat b a (sh a 0 (entry ν C)) = X
        else
          ∃ X, mat a a (triF .Upper diag (entry μ C)) * X = - mat a b (sh 0 a (entry μ C)) ∧
            mat a b (sh 0 a (entry ν C)) * mat b b (triF .Upper diag (sh a a (entry μ C))) = X) := by
  unfold trtriOff
  rcases hu with rfl | rfl
  · simp only [reduceCtorEq, if_false, wp_bind]
    refine wp_slice (by omega) (by omega) (by omega) (by omega) ?_
    refine wp_slice (by omega) (by omega) (by omega) (by omega) ?_
    refine wp_slice (by omega) (by omega) (by omega) (by omega) ?_
    refine wp_conseq (wp_trsmL_m (m := a) (n := b) (by simp [MatV.sub]) (by simp [MatV.sub])
      ⟨Or.inl rfl, Or.inl rfl, by decide, rfl, rfl, hC.sub (by omega) (by omega),
        hC.disj_sub (by omega) (by omega) (by omega) (by omega) (by omega)⟩
      (fun e i hi => by rw [sh_entry, sh_zero]; exact hd e i (by omega))) ?_
    rintro _ ν1 ⟨o1, e1⟩
    refine wp_conseq (wp_trsmR_m (m := a) (n := b) (by simp [MatV.sub]) (by simp [MatV.sub])
      ⟨Or.inr rfl, Or.inl rfl, by decide, rfl, rfl, hC.sub (by omega) (by omega),
        hC.disj_sub (by omega) (by omega) (by omega) (by omega) (by omega)⟩
      (fun e i hi => ?_)) ?_
    · have h1 : entry ν1 C (a + i) (a + i) = entry μ C (a + i) (a + i) :=
        o1.out hC (by omega) (by omega) (by omega) (by omega) (by omega)
      have h2 := hd e (a + i) (by omega)
      rw [← h1] at h2
      exact h2
    rintro _ ν2 ⟨o2, e2⟩
    refine ⟨o1.trans o2, mat a b (sh 0 a (entry ν1 C)), ?_, ?_⟩
    · have := e1
      simp only [sh_entry, sh_zero] at this
      rw [neg_one_smul] at this
      exact this
    · have := e2
      simp only [sh_entry] at this
      rw [one_smul] at this
      rw [← this]
      congr 1
      show _ = mat b b (triF .Upper diag (sh a a (entry ν1 C)))
      refine mat_triF_congr (fun _ i hi => ?_) (fun i j hi hj _ _ => ?_)
      · exact (o1.out hC (by omega) (by omega) (by omega) (by omega) (by omega)).symm
      · exact (o1.out hC (by omega) (by omega) (by omega) (by omega) (by omega)).symm
  · simp only [if_true, wp_bind]
    refine wp_slice (by omega) (by omega) (by omega) (by omega) ?_
    refine wp_slice (by omega) (by omega) (by omega) (by omega) ?_
    refine wp_slice (by omega) (by omega) (by omega) (by omega) ?_
    refine wp_conseq (wp_trsmR_m (m := b) (n := a) (by simp [MatV.sub]) (by simp [MatV.sub])
      ⟨Or.inr rfl, Or.inr rfl, by decide, rfl, rfl, hC.sub (by omega) (by omega),
        hC.disj_sub (by omega) (by omega) (by omega) (by omega) (by omega)⟩
      (fun e i hi => by rw [sh_entry, sh_zero]; exact hd e i (by omega))) ?_
    rintro _ ν1 ⟨o1, e1⟩
    refine wp_conseq (wp_trsmL_m (m := b) (n := a) (by simp [MatV.sub]) (by simp [MatV.sub])
      ⟨Or.inl rfl, Or.inr rfl, by decide, rfl, rfl, hC.sub (by omega) (by omega),
        hC.disj_sub (by omega) (by omega) (by omega) (by omega) (by omega)⟩
      (fun e i hi => ?_)) ?_
    · have h1 : entry ν1 C (a + i) (a + i) = entry μ C (a + i) (a + i) :=
        o1.out hC (by omega) (by omega) (by omega) (by omega) (by omega)
      have h2 := hd e (a + i) (by omega)
      rw [← h1] at h2
      exact h2
    rintro _ ν2 ⟨o2, e2⟩
    refine ⟨o1.trans o2, mat b a (sh a 0 (entry ν1 C)), ?_, ?_⟩
    · have := e1
      simp only [sh_entry, sh_zero] at this
      rw [neg_one_smul] at this
      exact this
    · have := e2
      simp only [sh_entry] at this
      rw [one_smul] at this
      rw [← this]
      congr 1
      show _ = mat b b (triF .Lower diag (sh a a (entry ν1 C)))
      refine mat_triF_congr (fun _ i hi => ?_) (fun i j hi hj _ _ => ?_)
      · exact (o1.out hC (by omega) (by omega) (by omega) (by omega) (by omega)).symm
      · exact (o1.out hC (by omega) (by omega) (by omega) (by omega) (by omega)).symm

/-- The same, on any matrix: only the off-diagonal block changes. -/
theorem wp_trtriOff_frame [Mul T] [Sub T] [Div T] [Star T] [One T] [Neg T] {uplo : Uplo}
    (hu : uplo = .Upper ∨ uplo = .Lower)
    {diag : Diag} {C : MatV L} {a b : Nat} (hC : C.Inj) (hm : C.m = a + b) (hn : C.n = a + b)
    {μ : Store L T} :
    wp (trtriOff uplo diag C a (a + b)) μ
      (fun _ ν => (if uplo = .Lower then Only (C.sub a (a + b) 0 a) μ ν
          else Only (C.sub 0 a a (a + b)) μ ν)) := by
  unfold trtriOff
  rcases hu with rfl | rfl
  · simp only [reduceCtorEq, if_false, wp_bind]
    refine wp_slice (by omega) (by omega) (by omega) (by omega) ?_
    refine wp_slice (by omega) (by omega) (by omega) (by omega) ?_
    refine wp_slice (by omega) (by omega) (by omega) (by omega) ?_
    refine wp_conseq (wp_trsm_frame
      ⟨Or.inl rfl, Or.inl rfl, by decide, rfl, rfl, hC.sub (by omega) (by omega),
        hC.disj_sub (by omega) (by omega) (by omega) (by omega) (by omega)⟩) ?_
    intro _ ν1 o1
    refine wp_conseq (wp_trsm_frame
      ⟨Or.inr rfl, Or.inl rfl, by decide, rfl, rfl, hC.sub (by omega) (by omega),
        hC.disj_sub (by omega) (by omega) (by omega) (by omega) (by omega)⟩) ?_
    exact fun _ ν2 o2 => o1.trans o2
  · simp only [if_true, wp_bind]
    refine wp_slice (by omega) (by omega) (by omega) (by omega) ?_
    refine wp_slice (by omega) (by omega) (by omega) (by omega) ?_
    refine wp_slice (by omega) (by omega) (by omega) (by omega) ?_
    refine wp_conseq (wp_trsm_frame
      ⟨Or.inr rfl, Or.inr rfl, by decide, rfl, rfl, hC.sub (by omega) (by omega),
        hC.disj_sub (by omega) (by omega) (by omega) (by omega) (by omega)⟩) ?_
    intro _ ν1 o1
    refine wp_conseq (wp_trsm_frame
      ⟨Or.inl rfl, Or.inr rfl, by decide, rfl, rfl, hC.sub (by omega) (by omega),
        hC.disj_sub (by omega) (by omega) (by omega) (by omega) (by omega)⟩) ?_
    exact fun _ ν2 o2 => o1.trans o2

theorem offBlock_sameOff {uplo : Uplo} (hu : uplo = .Upper ∨ uplo = .Lower) {diag : Diag}
    {C : MatV L} {a b : Nat} (hm : C.m = a + b) (hn : C.n = a + b) {μ ν : Store L T}
    (h : if uplo = .Lower then Only (C.sub a (a + b) 0 a) μ ν else Only (C.sub 0 a a (a + b)) μ ν) :
    SameOff C (wrTri uplo diag) μ ν := by
  rcases hu with rfl | rfl
  · rw [if_neg (by decide)] at h
    exact h.sameOff (by omega) (by omega) (fun i j _ _ _ _ =>
      wrTri_strict (Or.inl rfl) diag (show i ≤ j by omega) (by omega))
  · rw [if_pos rfl] at h
    exact h.sameOff (by omega) (by omega) (fun i j _ _ _ _ =>
      wrTri_strict (Or.inr rfl) diag (show j ≤ i by omega) (by omega))

theorem offBlock_out {uplo : Uplo} {C : MatV L} {a b : Nat} (hC : C.Inj) (hm : C.m = a + b)
    (hn : C.n = a + b) {μ ν : Store L T}
    (h : if uplo = .Lower then Only (C.sub a (a + b) 0 a) μ ν else Only (C.sub 0 a a (a + b)) μ ν)
    {i j : Nat} (hi : i < a + b) (hj : j < a + b) (hij : (i < a ∧ j < a) ∨ (a ≤ i ∧ a ≤ j)) :
    entry ν C i j = entry μ C i j := by
  by_cases e : uplo = .Lower
  · rw [if_pos e] at h
    exact h.out hC (by omega) (by omega) (by omega) (by omega) (by omega)
  · rw [if_neg e] at h
    exact h.out hC (by omega) (by omega) (by omega) (by omega) (by omega)

/-- trtri_recursive on a nonsingular (or unit) triangle. -/
theorem wp_trtri [Field T] [StarRing T] [DecidableEq T] {uplo : Uplo}
    (hu : uplo = .Upper ∨ uplo = .Lower) {diag : Diag} (s : Nat) :
    ∀ (thr : Bool) (C : MatV L) (μ : Store L T), C.m = s → C.n = s → C.Inj →
      (diag = .NonUnit → ∀ i, i < s → entry μ C i i ≠ 0) →
      wp (trtri thr uplo diag C) μ (fun r ν => r = 0 ∧ SameOff C (wrTri uplo diag) μ ν ∧
        mat s s (triF uplo diag (entry ν C)) * mat s s (triF uplo diag (entry μ C)) = 1) := by
  induction s using Nat.strong_induction_on with
  | _ s ih =>
    intro thr C μ hm hn hC hd
    rw [trtri]
    simp only [wp_bind]
    refine wp_squareTriChecks hu (by omega) ?_
    by_cases h0 : s = 0
    · subst h0
      rw [if_pos hm]
      exact ⟨rfl, SameOff.refl, by ext i; exact i.elim0⟩
    rw [if_neg (by omega)]
    by_cases h1 : s = 1
    · subst h1
      rw [dif_pos hm]
      have hone : ∀ g h : Nat → Nat → T, triF uplo diag g 0 0 * triF uplo diag h 0 0 = 1 →
          mat 1 1 (triF uplo diag g) * mat 1 1 (triF uplo diag h) = 1 := by
        intro g h e
        rw [mat_mul, ← mat_idF, mat_ext_iff]
        intro i j hi hj
        obtain rfl : i = 0 := by omega
        obtain rfl : j = 0 := by omega
        rw [Finset.sum_range_one, e]; rfl
      cases diag with
      | Unit =>
        rw [if_neg (by decide)]
        refine ⟨rfl, SameOff.refl, hone _ _ ?_⟩
        simp [triF]
      | NonUnit =>
        rw [if_pos rfl]
        simp only [wp_bind]
        refine wp_getE ⟨by omega, by omega⟩ ?_
        have hne := hd rfl 0 (by omega)
        rw [if_pos (show μ (C.cell 0 0) ≠ 0 from hne)]
        simp only [wp_bind]
        refine wp_conseq (wp_set.2 ⟨⟨by omega, by omega⟩, ?_⟩) (fun _ _ h => h)
        have ht : inTri uplo 0 0 := by rcases hu with rfl | rfl <;> exact le_refl 0
        refine ⟨rfl, upd_sameOff (by omega) (by omega) ht, hone _ _ ?_⟩
        unfold triF
        rw [if_pos rfl, if_pos rfl]
        show entry _ C 0 0 * entry μ C 0 0 = 1
        rw [upd_in]
        exact one_div_mul_cancel hne
    rw [dif_neg (by omega)]
    simp only [hm]
    obtain ⟨a, ha⟩ : ∃ a, s / 2 = a := ⟨_, rfl⟩
    obtain ⟨b, hb⟩ : ∃ b, s = a + b := ⟨s - a, by omega⟩
    rw [ha]
    have hab : 0 < a ∧ 0 < b := by omega
    clear ha h0 h1
    subst hb
    simp only [wp_bind]
    refine wp_conseq (wp_trtriOff hu hC hm hn hd) ?_
    rintro _ ν1 ⟨o1, e1⟩
    refine wp_conseq (ih a (by omega) thr (C.sub 0 a 0 a) ν1 (by simp [MatV.sub]) (by simp [MatV.sub])
      (hC.sub (by omega) (by omega)) (fun e i hi => ?_)) ?_
    · rw [sh_entry, sh_zero, offBlock_out hC hm hn o1 (by omega) (by omega) (by omega)]
      exact hd e i (by omega)
    rintro _ ν2 ⟨rfl, o2, e2⟩
    rw [if_neg (by decide)]
    simp only [wp_bind]
    have c2 : ∀ i j, i < a + b → j < a + b → (a ≤ i ∨ a ≤ j) → entry ν2 C i j = entry ν1 C i j :=
      fun i j hi hj ho => o2.only.out hC (by omega) (by omega) (by omega) (by omega) (by omega)
    refine wp_conseq (ih b (by omega) thr (C.sub a (a + b) a (a + b)) ν2 (by simp [MatV.sub])
      (by simp [MatV.sub]) (hC.sub (by omega) (by omega)) (fun e i hi => ?_)) ?_
    · have h3 : entry ν2 C (a + i) (a + i) = entry μ C (a + i) (a + i) := by
        rw [c2 _ _ (by omega) (by omega) (by omega),
          offBlock_out hC hm hn o1 (by omega) (by omega) (by omega)]
      have h4 := hd e (a + i) (by omega)
      rw [← h3] at h4
      exact h4
    rintro _ ν3 ⟨rfl, o3, e3⟩
    rw [if_pos rfl]
    have c3 : ∀ i j, i < a + b → j < a + b → (i < a ∨ j < a) → entry ν3 C i j = entry ν2 C i j :=
      fun i j hi hj ho => o3.only.out hC (by omega) (by omega) (by omega) (by omega) (by omega)
    refine ⟨rfl, ((offBlock_sameOff hu hm hn o1).trans (o2.subW hu (by omega) (by omega))).trans
      (o3.subW hu (by omega) (by omega)), ?_⟩
    -- the blocks of the result
    simp only [sh_entry, sh_zero] at e2
    simp only [sh_entry] at e3
    have t00 : mat a a (triF uplo diag (entry ν3 C)) = mat a a (triF uplo diag (entry ν2 C)) :=
      mat_triF_congr (fun _ i hi => c3 i i (by omega) (by omega) (by omega))
        (fun i j hi hj _ _ => c3 i j (by omega) (by omega) (by omega))
    have t00' : mat a a (triF uplo diag (entry ν1 C)) = mat a a (triF uplo diag (entry μ C)) :=
      mat_triF_congr (fun _ i hi => offBlock_out hC hm hn o1 (by omega) (by omega) (by omega))
        (fun i j hi hj _ _ => offBlock_out hC hm hn o1 (by omega) (by omega) (by omega))
    have t11' : mat b b (triF uplo diag (sh a a (entry ν2 C))) =
        mat b b (triF uplo diag (sh a a (entry μ C))) := by
      refine mat_triF_congr (fun _ i hi => ?_) (fun i j hi hj _ _ => ?_)
      · exact (c2 _ _ (by omega) (by omega) (by omega)).trans
          (offBlock_out hC hm hn o1 (by omega) (by omega) (by omega))
      · exact (c2 _ _ (by omega) (by omega) (by omega)).trans
          (offBlock_out hC hm hn o1 (by omega) (by omega) (by omega))
    rw [t00', ← t00] at e2
    rw [t11'] at e3
    rw [← mat_idF, mat_mulF]
    refine mat_ext4 ?_ ?_ ?_ ?_
    · rw [← mat_mulF, mat_mul_inner, mat_idF]
      rcases hu with rfl | rfl
      · rw [triU_10, Matrix.mul_zero, add_zero, e2]
      · rw [triL_01, Matrix.zero_mul, add_zero, e2]
    · rw [mat_mul_block, sh_zero, mat_mul_inner, sh_sh, Nat.zero_add, Nat.add_zero, mat_idF_01]
      rcases hu with rfl | rfl
      · rw [if_neg (by decide)] at e1
        obtain ⟨X, x1, x2⟩ := e1
        rw [triU_01, triU_01, triF_sh (Or.inl rfl)]
        have hY : mat a b (sh 0 a (entry ν3 C)) = mat a b (sh 0 a (entry ν1 C)) := by
          rw [mat_ext_iff]; intro i j hi hj
          exact (c3 _ _ (by omega) (by omega) (by omega)).trans
            (c2 _ _ (by omega) (by omega) (by omega))
        rw [hY, x2]
        have : mat a b (sh 0 a (entry μ C)) = - (mat a a (triF .Upper diag (entry μ C)) * X) := by
          rw [x1, neg_neg]
        rw [this, Matrix.mul_neg, ← Matrix.mul_assoc, e2, Matrix.one_mul, neg_add_cancel]
      · rw [triL_01, triL_01, Matrix.mul_zero, Matrix.zero_mul, add_zero]
    · rw [mat_mul_block, sh_zero, mat_mul_inner, sh_sh, Nat.zero_add, Nat.add_zero, mat_idF_10]
      rcases hu with rfl | rfl
      · rw [triU_10, triU_10, Matrix.mul_zero, Matrix.zero_mul, add_zero]
      · rw [if_pos rfl] at e1
        obtain ⟨X, x1, x2⟩ := e1
        rw [triL_10, triL_10, triF_sh (Or.inr rfl)]
        have hY : mat b a (sh a 0 (entry ν3 C)) = mat b a (sh a 0 (entry ν1 C)) := by
          rw [mat_ext_iff]; intro i j hi hj
          exact (c3 _ _ (by omega) (by omega) (by omega)).trans
            (c2 _ _ (by omega) (by omega) (by omega))
        rw [hY]
        have h10 : mat b a (sh a 0 (entry μ C)) = - (X * mat a a (triF .Lower diag (entry μ C))) := by
          rw [x1, neg_neg]
        rw [h10, Matrix.mul_neg, ← x2, ← Matrix.mul_assoc, ← Matrix.mul_assoc, e3, Matrix.one_mul,
          add_neg_cancel]
    · rw [mat_mul_block, mat_mul_inner, sh_sh, sh_sh, Nat.zero_add, Nat.add_zero, sh_idF, mat_idF]
      rcases hu with rfl | rfl
      · rw [triU_10, Matrix.zero_mul, zero_add, triF_sh (Or.inl rfl), triF_sh (Or.inl rfl), e3]
      · rw [triL_01, Matrix.mul_zero, zero_add, triF_sh (Or.inr rfl), triF_sh (Or.inr rfl), e3]

/-- trtri_recursive on a singular triangle; `k` is the first zero on the diagonal. -/
theorem wp_trtri_fail [Field T] [StarRing T] [DecidableEq T] {uplo : Uplo}
    (hu : uplo = .Upper ∨ uplo = .Lower) (s : Nat) :
    ∀ (thr : Bool) (C : MatV L) (μ : Store L T) (k : Nat), C.m = s → C.n = s → C.Inj → k < s →
      entry μ C k k = 0 → (∀ i, i < k → entry μ C i i ≠ 0) →
      wp (trtri thr uplo .NonUnit C) μ (fun r ν => thr = false ∧ r = k + 1 ∧ SameOff C uplo μ ν)
        (fun e ν => thr = true ∧ e = .runtime 1 ∧ SameOff C uplo μ ν) := by
  induction s using Nat.strong_induction_on with
  | _ s ih =>
    intro thr C μ k hm hn hC hks hk hlt
    rw [trtri]
    simp only [wp_bind]
    refine wp_squareTriChecks hu (by omega) ?_
    rw [if_neg (by omega)]
    by_cases h1 : s = 1
    · subst h1
      rw [dif_pos hm, if_pos trivial]
      simp only [wp_bind]
      refine wp_getE ⟨by omega, by omega⟩ ?_
      obtain rfl : k = 0 := by omega
      rw [if_neg (show ¬ μ (C.cell 0 0) ≠ 0 from fun h => h hk)]
      simp only [wp_bind, wp_raise]
      cases thr
      · rw [if_neg (by decide)]
        exact ⟨rfl, rfl, SameOff.refl⟩
      · rw [if_pos rfl]
        exact ⟨rfl, trivial, SameOff.refl⟩
    rw [dif_neg (by omega)]
    simp only [hm]
    obtain ⟨a, ha⟩ : ∃ a, s / 2 = a := ⟨_, rfl⟩
    obtain ⟨b, hb⟩ : ∃ b, s = a + b := ⟨s - a, by omega⟩
    rw [ha]
    have hab : 0 < a ∧ 0 < b := by omega
    clear ha h1
    subst hb
    simp only [wp_bind]
    refine wp_mono (wp_trtriOff_frame hu hC hm hn) ?_ (fun _ _ h => h.elim)
    intro _ ν1 o1
    have so1 : SameOff C uplo μ ν1 := offBlock_sameOff (diag := .NonUnit) hu hm hn o1
    have d1 : ∀ i, i < a + b → entry ν1 C i i = entry μ C i i := fun i hi =>
      offBlock_out hC hm hn o1 hi hi (by omega)
    by_cases hka : k < a
    · refine wp_mono (ih a (by omega) thr (C.sub 0 a 0 a) ν1 k (by simp [MatV.sub])
        (by simp [MatV.sub]) (hC.sub (by omega) (by omega)) hka
        (by rw [sh_entry, sh_zero, d1 k (by omega), hk])
        (fun i hi => by rw [sh_entry, sh_zero, d1 i (by omega)]; exact hlt i hi)) ?_ ?_
      · rintro _ ν2 ⟨rfl, rfl, o2⟩
        rw [if_pos (by omega)]
        simp only [wp_bind, wp_raise]
        rw [if_neg (by decide)]
        exact ⟨trivial, rfl, so1.trans (o2.sub hu (by omega) (by omega))⟩
      · rintro _ ν2 ⟨rfl, rfl, o2⟩
        exact ⟨rfl, rfl, so1.trans (o2.sub hu (by omega) (by omega))⟩
    · refine wp_mono (wp_trtri (diag := .NonUnit) hu a thr (C.sub 0 a 0 a) ν1 (by simp [MatV.sub])
        (by simp [MatV.sub]) (hC.sub (by omega) (by omega))
        (fun _ i hi => by rw [sh_entry, sh_zero, d1 i (by omega)]; exact hlt i (by omega))) ?_
        (fun _ _ h => h.elim)
      rintro _ ν2 ⟨rfl, o2, _⟩
      rw [if_neg (by decide)]
      simp only [wp_bind]
      have d2 : ∀ i, i < b → entry ν2 (C.sub a (a + b) a (a + b)) i i = entry μ C (a + i) (a + i) :=
        fun i hi => (o2.only.out hC (by omega) (by omega) (i := a + i) (j := a + i) (by omega)
          (by omega) (by omega)).trans (d1 (a + i) (by omega))
      have o2' : SameOff C uplo ν1 ν2 := SameOff.sub (u := uplo) hu o2 (by omega) (by omega)
      refine wp_mono (ih b (by omega) thr (C.sub a (a + b) a (a + b)) ν2 (k - a) (by simp [MatV.sub])
        (by simp [MatV.sub]) (hC.sub (by omega) (by omega)) (by omega)
        (by rw [d2 _ (by omega), show a + (k - a) = k by omega, hk])
        (fun i hi => by rw [d2 _ (by omega)]; exact hlt (a + i) (by omega))) ?_ ?_
      · rintro _ ν3 ⟨rfl, rfl, o3⟩
        rw [if_neg (by omega)]
        simp only [wp_bind, wp_raise]
        rw [if_neg (by decide)]
        exact ⟨trivial, by omega, (so1.trans o2').trans (o3.sub hu (by omega) (by omega))⟩
      · rintro _ ν3 ⟨rfl, rfl, o3⟩
        exact ⟨rfl, rfl, (so1.trans o2').trans (o3.sub hu (by omega) (by omega))⟩

end TLA
