import Verif.Proofs.LegacyGemv
import Verif.Props.Level1

/-!
# C85: the legacy level-1 and level-2 BLAS interface

`stMat layout m n p ld` and `stVec n p inc` (SpecLegacy.lean) say where BLAS stores the entries.
-/

set_option linter.unusedSimpArgs false
set_option linter.unusedVariables false
set_option linter.unusedSectionVars false

namespace TLA
variable {T : Type} [Field T] [StarRing T] [DecidableEq T] [ReIm T]

/-! ### Level 1 -/

/-- **C85, copy.** For every pair of nonzero increments, also negative ones. -/
theorem C85_copy {n x y : Nat} {incx incy : Int} (hx : incx ≠ 0) (hy : incy ≠ 0)
    (hd : (stVec n x incx).Disj (stVec n y incy)) (μ : Store Nat T) :
    ∃ ν, lgCopy n x incx y incy μ = (.ok (), ν) ∧
      vec n (ventry ν (stVec n y incy)) = vec n (ventry μ (stVec n x incx)) ∧
      ∀ l, ¬ (stVec n y incy).Owns l → ν l = μ l := by
  refine wp_ex ?_
  unfold lgCopy
  simp only [wp_bind, wp_check, hx, hy, decide_false, Bool.not_false, if_true]
  rw [wp_ite]
  split_ifs with h0
  · subst h0; rw [wp_pure]; exact ⟨funext fun i => i.elim0, fun _ _ => rfl⟩
  rw [lgVec_eq hx, lgVec_eq hy]
  refine wp_conseq (wp_copy (μ0 := μ) (g := ventry μ (stVec n y incy)) (stVec_inj hy) (le_refl _) hd
    (VState.init _ _ _ fun _ _ => rfl)) (fun _ ν hν => ⟨?_, hν.frame⟩)
  exact vec_ext_iff.2 (fun i hi => (hν.val i hi).trans (if_pos hi))

/-- **C85, swap.** -/
theorem C85_swap {n x y : Nat} {incx incy : Int} (hx : incx ≠ 0) (hy : incy ≠ 0)
    (hd : (stVec n x incx).Disj (stVec n y incy)) (μ : Store Nat T) :
    ∃ ν, lgSwap n x incx y incy μ = (.ok (), ν) ∧
      vec n (ventry ν (stVec n x incx)) = vec n (ventry μ (stVec n y incy)) ∧
      vec n (ventry ν (stVec n y incy)) = vec n (ventry μ (stVec n x incx)) ∧
      ∀ l, ¬ (stVec n x incx).Owns l → ¬ (stVec n y incy).Owns l → ν l = μ l := by
  refine wp_ex ?_
  unfold lgSwap
  simp only [wp_bind, wp_check, hx, hy, decide_false, Bool.not_false, if_true]
  rw [wp_ite]
  split_ifs with h0
  · subst h0; rw [wp_pure]
    exact ⟨funext fun i => i.elim0, funext fun i => i.elim0, fun _ _ _ => rfl⟩
  rw [lgVec_eq hx, lgVec_eq hy]
  refine wp_conseq (wp_swap (stVec_inj hx) (stVec_inj hy) rfl hd) (fun _ ν hν => ⟨?_, ?_, hν.2.2⟩)
  · exact vec_ext_iff.2 (fun i hi => hν.1 i hi)
  · exact vec_ext_iff.2 (fun i hi => hν.2.1 i hi)

/-- **C85, axpy.** `y := alpha x + y`. -/
theorem C85_axpy {n x y : Nat} {incx incy : Int} (alpha : T) (hx : incx ≠ 0) (hy : incy ≠ 0)
    (hd : (stVec n x incx).Disj (stVec n y incy)) (μ : Store Nat T) :
    ∃ ν, lgAxpy n alpha x incx y incy μ = (.ok (), ν) ∧
      vec n (ventry ν (stVec n y incy)) =
        alpha • vec n (ventry μ (stVec n x incx)) + vec n (ventry μ (stVec n y incy)) ∧
      ∀ l, ¬ (stVec n y incy).Owns l → ν l = μ l := by
  refine wp_ex ?_
  unfold lgAxpy
  simp only [wp_bind, wp_check, hx, hy, decide_false, Bool.not_false, if_true]
  rw [wp_ite]
  split_ifs with h0
  · rw [wp_pure]
    refine ⟨?_, fun _ _ => rfl⟩
    rcases h0 with h0 | h0
    · subst h0; exact funext fun i => i.elim0
    · rw [h0, zero_smul, zero_add]
  rw [lgVec_eq hx, lgVec_eq hy]
  refine wp_conseq (wp_axpy (μ0 := μ) (g := ventry μ (stVec n y incy)) (stVec_inj hy) (le_refl _) hd
    (VState.init _ _ _ fun _ _ => rfl)) (fun _ ν hν => ⟨?_, hν.frame⟩)
  rw [vec_smul, vec_add]
  exact vec_ext_iff.2 (fun i hi => ((hν.val i hi).trans (if_pos hi)).trans (add_comm _ _))

/-- **C85, scal** (positive increments only). -/
theorem C85_scal {n x : Nat} {incx : Int} (alpha : T) (hx : 0 < incx) (μ : Store Nat T) :
    ∃ ν, lgScal n alpha x incx μ = (.ok (), ν) ∧
      vec n (ventry ν (stVec n x incx)) = alpha • vec n (ventry μ (stVec n x incx)) ∧
      ∀ l, ¬ (stVec n x incx).Owns l → ν l = μ l := by
  refine wp_ex ?_
  unfold lgScal
  simp only [wp_bind, wp_check, show ¬ incx ≤ 0 by omega, decide_false, Bool.not_false, if_true]
  rw [wp_ite]
  split_ifs with h0
  · subst h0; rw [wp_pure]; exact ⟨funext fun i => i.elim0, fun _ _ => rfl⟩
  rw [lgVecPos_eq hx]
  refine wp_conseq (wp_scal (μ0 := μ) (g := ventry μ (stVec n x incx)) (stVec_inj (by omega))
    (VState.init _ _ _ fun _ _ => rfl)) (fun _ ν hν => ⟨?_, hν.frame⟩)
  rw [vec_smul]
  exact vec_ext_iff.2 (fun i hi => (hν.val i hi).trans (mul_comm _ _))

/-- **C85, dot** returns `xᴴ y` and changes nothing. -/
theorem C85_dot {n x y : Nat} {incx incy : Int} (hx : incx ≠ 0) (hy : incy ≠ 0) (μ : Store Nat T) :
    lgDot n x incx y incy μ = (.ok (dotProduct (star (vec n (ventry μ (stVec n x incx))))
      (vec n (ventry μ (stVec n y incy)))), μ) := by
  have key : wp (lgDot n x incx y incy) μ (fun r ν => r = dotProduct
      (star (vec n (ventry μ (stVec n x incx)))) (vec n (ventry μ (stVec n y incy))) ∧ μ = ν) := by
    unfold lgDot
    simp only [wp_bind, wp_check, hx, hy, decide_false, Bool.not_false, if_true]
    rw [wp_ite]
    split_ifs with h0
    · subst h0; rw [wp_pure]; exact ⟨by simp [dotProduct], rfl⟩
    rw [lgVec_eq hx, lgVec_eq hy]
    refine wp_conseq (wp_dot rfl) (fun r ν hν => ⟨?_, hν.2.symm⟩)
    rw [hν.1, foldUp0_add, zero_add, dotProduct, Finset.sum_range]
    rfl
  obtain ⟨r, ν, e, h1, h2⟩ := wp_iff.1 key
  rw [e, h1, h2]

/-- **C85, dotu** returns `xᵀ y`. -/
theorem C85_dotu {n x y : Nat} {incx incy : Int} (hx : incx ≠ 0) (hy : incy ≠ 0)
    (μ : Store Nat T) :
    lgDotu n x incx y incy μ = (.ok (dotProduct (vec n (ventry μ (stVec n x incx)))
      (vec n (ventry μ (stVec n y incy)))), μ) := by
  have key : wp (lgDotu n x incx y incy) μ (fun r ν => r = dotProduct
      (vec n (ventry μ (stVec n x incx))) (vec n (ventry μ (stVec n y incy))) ∧ μ = ν) := by
    unfold lgDotu
    simp only [wp_bind, wp_check, hx, hy, decide_false, Bool.not_false, if_true]
    rw [wp_ite]
    split_ifs with h0
    · subst h0; rw [wp_pure]; exact ⟨by simp [dotProduct], rfl⟩
    rw [lgVec_eq hx, lgVec_eq hy]
    refine wp_conseq (wp_dotu rfl) (fun r ν hν => ⟨?_, hν.2.symm⟩)
    rw [hν.1, foldUp0_add, zero_add, dotProduct, Finset.sum_range]
    rfl
  obtain ⟨r, ν, e, h1, h2⟩ := wp_iff.1 key
  rw [e, h1, h2]

/-- **C85, rot.** `x := c x + s y`, `y := c y - conj(s) x`. -/
theorem C85_rot {n x y : Nat} {incx incy : Int} (c s : T) (hx : incx ≠ 0) (hy : incy ≠ 0)
    (hd : (stVec n x incx).Disj (stVec n y incy)) (μ : Store Nat T) :
    ∃ ν, lgRot n x incx y incy c s μ = (.ok (), ν) ∧
      vec n (ventry ν (stVec n x incx)) =
        c • vec n (ventry μ (stVec n x incx)) + s • vec n (ventry μ (stVec n y incy)) ∧
      vec n (ventry ν (stVec n y incy)) =
        c • vec n (ventry μ (stVec n y incy)) - star s • vec n (ventry μ (stVec n x incx)) ∧
      ∀ l, ¬ (stVec n x incx).Owns l → ¬ (stVec n y incy).Owns l → ν l = μ l := by
  refine wp_ex ?_
  unfold lgRot
  simp only [wp_bind, wp_check, hx, hy, decide_false, Bool.not_false, if_true]
  rw [wp_ite]
  split_ifs with h0
  · subst h0; rw [wp_pure]
    exact ⟨funext fun i => i.elim0, funext fun i => i.elim0, fun _ _ _ => rfl⟩
  rw [lgVec_eq hx, lgVec_eq hy]
  refine wp_conseq (wp_rot (stVec_inj hx) (stVec_inj hy) rfl hd) (fun _ ν hν => ⟨?_, ?_, hν.2.2⟩)
  · funext i; exact hν.1 i i.2
  · funext i; exact hν.2.1 i i.2

/-- **C85, rotm, deviation.** The test `flag < -2 && flag > 1` (rotm.hpp:70) can never hold: a flag
outside -2..1 is not rejected, it is treated as 1. -/
theorem C85_rotm_flag_violated {n x y : Nat} {incx incy : Int} (h : Nat → T) (μ : Store Nat T) :
    lgRotm n x incx y incy 7 h μ = lgRotm n x incx y incy 1 h μ := rfl

/-! ### Level 2 -/

/-- **C85, gemv.** Both layouts, every op and increments of both signs: `y := alpha op(A) x + beta y`
where op(A) is `M × N`; nothing else is changed on return.  In the row-major, conjugate-transposed
case the code conjugates the const argument `x` in place and back, so there `A` must not overlap `x`. -/
theorem C85_gemv {layout : Layout} {trans : Op} {m n : Nat} (alpha beta : T) {A lda x y : Nat}
    {incx incy : Int} {M N : Nat}
    (ht : trans = .NoTrans ∨ trans = .Trans ∨ trans = .ConjTrans)
    (hM : M = if trans = .NoTrans then m else n) (hN : N = if trans = .NoTrans then n else m)
    (hm : 0 < m) (hn : 0 < n) (hld : minLd layout m n ≤ lda) (hx : incx ≠ 0) (hy : incy ≠ 0)
    (hAy : (stMat layout m n A lda).DisjV (stVec M y incy))
    (hxy : (stVec N x incx).Disj (stVec M y incy))
    (hAx : layout = .RowMajor → trans = .ConjTrans →
      (stMat layout m n A lda).DisjV (stVec N x incx)) (μ : Store Nat T) :
    ∃ ν, lgGemv layout trans m n alpha A lda x incx beta y incy μ = (.ok (), ν) ∧
      vec M (ventry ν (stVec M y incy)) =
        alpha • (mat M N (opF trans (entry μ (stMat layout m n A lda)))).mulVec
          (vec N (ventry μ (stVec N x incx))) + beta • vec M (ventry μ (stVec M y incy)) ∧
      ∀ l, ¬ (stVec M y incy).Owns l → ν l = μ l := by
  obtain ⟨ν, h1, h2⟩ := wp_unit (wp_lgGemv (alpha := alpha) (beta := beta) (μ := μ) ht hM hN hm hn
    hld hx hy hAy hxy hAx)
  refine ⟨ν, h1, ?_, h2.frame⟩
  rw [mat_mulVec, vec_smul, vec_smul, vec_add]
  exact vec_ext_iff.2 (fun i hi => h2.val i hi)

/-- A call with `m = 0` or `n = 0` changes nothing (also if `y` is not empty and `beta ≠ 1`). -/
theorem C85_gemv_empty {layout : Layout} {trans : Op} {m n : Nat} (alpha beta : T)
    {A lda x y : Nat} {incx incy : Int} (ht : trans = .NoTrans ∨ trans = .Trans ∨ trans = .ConjTrans)
    (h0 : m = 0 ∨ n = 0) (hld : minLd layout m n ≤ lda) (hx : incx ≠ 0) (hy : incy ≠ 0)
    (μ : Store Nat T) :
    lgGemv layout trans m n alpha A lda x incx beta y incy μ = (.ok (), μ) := by
  have key : wp (lgGemv layout trans m n alpha A lda x incx beta y incy) μ (fun _ ν => μ = ν) := by
    unfold lgGemv
    simp only [wp_bind, wp_check, lgBadOp_false ht, Bool.not_false, if_true, hx, hy, decide_false]
    rw [if_pos (by cases layout <;> (simp; exact hld))]
    rw [wp_ite, if_pos (by tauto), wp_pure]
  obtain ⟨r, ν, e, h1⟩ := wp_iff.1 key
  rw [e, h1]

/-- A call with a wrong option, a leading dimension that is too small or a zero increment is
rejected before anything is written. -/
theorem C85_gemv_rejects {layout : Layout} {trans : Op} {m n : Nat} (alpha beta : T)
    {A lda x y : Nat} {incx incy : Int}
    (h : ¬ (trans = .NoTrans ∨ trans = .Trans ∨ trans = .ConjTrans) ∨ lda < minLd layout m n ∨
      incx = 0 ∨ incy = 0) (μ : Store Nat T) :
    lgGemv layout trans m n alpha A lda x incx beta y incy μ = (.error .check, μ) := by
  have key : wp (lgGemv layout trans m n alpha A lda x incx beta y incy) μ (fun _ _ => False)
      (fun e ν => e = .check ∧ ν = μ) := by
    unfold lgGemv
    simp only [wp_bind, wp_check]
    by_cases h1 : lgBadOp trans = true
    · rw [if_neg (by simp [h1])]; exact ⟨trivial, trivial⟩
    rw [if_pos (by simpa using h1)]
    by_cases h2 : lda < minLd layout m n
    · rw [if_neg (by cases layout <;> (simp; exact h2))]; exact ⟨trivial, trivial⟩
    rw [if_pos (by cases layout <;> (simp; exact Nat.le_of_not_lt h2))]
    by_cases h3 : incx = 0
    · rw [if_neg (by simp [h3])]; exact ⟨trivial, trivial⟩
    rw [if_pos (by simpa using h3)]
    by_cases h4 : incy = 0
    · rw [if_neg (by simp [h4])]; exact ⟨trivial, trivial⟩
    rcases h with h | h | h | h
    · exfalso; apply h1; revert h; cases trans <;> simp [lgBadOp]
    · exact absurd h h2
    · exact absurd h h3
    · exact absurd h h4
  unfold wp at key
  rcases e : lgGemv layout trans m n alpha A lda x incx beta y incy μ with ⟨_ | _, ν⟩
  · rw [e] at key; rw [key.1, key.2]
  · rw [e] at key; exact key.elim

/-- **C85, trmv.** `x := op(A) x`. -/
theorem C85_trmv {layout : Layout} {uplo : Uplo} {trans : Op} {diag : Diag} {n A lda x : Nat}
    {incx : Int} (hu : uplo = .Upper ∨ uplo = .Lower)
    (ht : trans = .NoTrans ∨ trans = .Trans ∨ trans = .ConjTrans)
    (hld : n ≤ lda) (hx : incx ≠ 0)
    (hAx : (stMat layout n n A lda).DisjV (stVec n x incx)) (μ : Store Nat T) :
    ∃ ν, lgTrmv layout uplo trans diag n A lda x incx μ = (.ok (), ν) ∧
      vec n (ventry ν (stVec n x incx)) =
        (mat n n (opF trans (triF uplo diag (entry μ (stMat layout n n A lda))))).mulVec
          (vec n (ventry μ (stVec n x incx))) ∧
      ∀ l, ¬ (stVec n x incx).Owns l → ν l = μ l := by
  obtain ⟨ν, h1, h2⟩ := wp_unit (wp_lgTrmv (diag := diag) (μ := μ) hu ht hld hx hAx)
  refine ⟨ν, h1, ?_, h2.frame⟩
  rw [mat_mulVec]
  exact vec_ext_iff.2 (fun i hi => h2.val i hi)

/-- **C85, trsv.** `op(A) x_out = x_in` if the used diagonal has no zero. -/
theorem C85_trsv {layout : Layout} {uplo : Uplo} {trans : Op} {diag : Diag} {n A lda x : Nat}
    {incx : Int} (hu : uplo = .Upper ∨ uplo = .Lower)
    (ht : trans = .NoTrans ∨ trans = .Trans ∨ trans = .ConjTrans)
    (hld : n ≤ lda) (hx : incx ≠ 0)
    (hAx : (stMat layout n n A lda).DisjV (stVec n x incx)) (μ : Store Nat T)
    (hd : diag = .NonUnit → ∀ i, i < n → entry μ (stMat layout n n A lda) i i ≠ 0) :
    ∃ ν, lgTrsv layout uplo trans diag n A lda x incx μ = (.ok (), ν) ∧
      (mat n n (opF trans (triF uplo diag (entry μ (stMat layout n n A lda))))).mulVec
        (vec n (ventry ν (stVec n x incx))) = vec n (ventry μ (stVec n x incx)) ∧
      ∀ l, ¬ (stVec n x incx).Owns l → ν l = μ l := by
  obtain ⟨ν, h1, X, h2, h3⟩ := wp_unit (wp_lgTrsv (μ := μ) hu ht hld hx hAx hd)
  refine ⟨ν, h1, ?_, h2.frame⟩
  rw [mat_mulVec]
  refine vec_ext_iff.2 (fun i hi => ?_)
  rw [← h3 i hi]
  refine Finset.sum_congr rfl (fun l hl => ?_)
  rw [show ventry ν (stVec n x incx) l = X l from h2.val l (Finset.mem_range.1 hl)]

/-- **C85, hemv.** `y := alpha H x + beta y`, H Hermitian given by the triangle `uplo`. -/
theorem C85_hemv {layout : Layout} {uplo : Uplo} {n : Nat} (alpha beta : T) {A lda x y : Nat}
    {incx incy : Int} (hu : uplo = .Upper ∨ uplo = .Lower)
    (hld : n ≤ lda) (hx : incx ≠ 0) (hy : incy ≠ 0)
    (hAy : (stMat layout n n A lda).DisjV (stVec n y incy))
    (hxy : (stVec n x incx).Disj (stVec n y incy)) (μ : Store Nat T) :
    ∃ ν, lgHemv layout uplo n alpha A lda x incx beta y incy μ = (.ok (), ν) ∧
      vec n (ventry ν (stVec n y incy)) =
        alpha • (mat n n (hermF uplo (entry μ (stMat layout n n A lda)))).mulVec
          (vec n (ventry μ (stVec n x incx))) + beta • vec n (ventry μ (stVec n y incy)) ∧
      ∀ l, ¬ (stVec n y incy).Owns l → ν l = μ l := by
  refine wp_ex ?_
  unfold lgHemv
  simp only [wp_bind, wp_check, notTri_false hu, Bool.not_false, if_true, hx, hy, decide_false]
  rw [if_pos (by simpa using hld)]
  rw [wp_ite]
  by_cases hq : n = 0 ∨ (alpha = 0 ∧ beta = 1)
  · rw [if_pos hq, wp_pure]
    refine ⟨?_, fun _ _ => rfl⟩
    rcases hq with h | ⟨h, h'⟩
    · subst h; exact funext fun i => i.elim0
    · rw [h, h', zero_smul, zero_add, one_smul]
  rw [if_neg hq, lgVec_eq hx, lgVec_eq hy, wp_ite]
  by_cases ha : alpha = 0
  · rw [if_pos ha]
    refine wp_conseq (wp_lgScaleV (fun h => h) (stVec_inj hy)) (fun _ ν hν => ⟨?_, hν.frame⟩)
    rw [ha, zero_smul, zero_add, vec_smul]
    exact vec_ext_iff.2 (fun i hi => hν.val i hi)
  rw [if_neg ha, wp_ite]
  obtain ⟨ν, h1, h2, h3⟩ := C10_hemv alpha (lgCoef beta)
    ⟨hu, rfl, rfl, rfl, rfl, stVec_inj hy, hAy, hxy⟩ μ
  rw [lgCoef_val] at h2
  cases layout
  · rw [if_pos rfl, wp_bind]
    exact wp_lgCol hld (wp_of_eq h1 ⟨h2, h3⟩)
  · rw [if_neg (by decide), wp_bind]
    exact wp_lgRow hld (wp_of_eq h1 ⟨h2, h3⟩)

theorem symF_flip_tr {uplo : Uplo} (hu : uplo = .Upper ∨ uplo = .Lower) (A : MatV Nat)
    (μ : Store Nat T) (i j : Nat) :
    symF (lgFlip uplo) (entry μ A) i j = symF uplo (entry μ A.tr) j i := by
  unfold symF
  by_cases e : i = j
  · subst e; simp [entry, MatV.tr]
  · have e' : ¬ j = i := fun h => e h.symm
    simp only [e, e', inTri_flip hu, false_or]
    rfl

theorem hermF_flip_tr {uplo : Uplo} (hu : uplo = .Upper ∨ uplo = .Lower) (A : MatV Nat)
    (μ : Store Nat T) (i j : Nat) :
    hermF (lgFlip uplo) (entry μ A) i j = hermF uplo (entry μ A.tr) j i := by
  unfold hermF
  by_cases e : i = j
  · subst e; simp [entry, MatV.tr]
  · rw [if_neg e, if_neg (show ¬ j = i from fun h => e h.symm)]
    simp only [inTri_flip hu]
    rfl

theorem sameOff_flip_tr {uplo : Uplo} (hu : uplo = .Upper ∨ uplo = .Lower) {A : MatV Nat}
    {μ ν : Store Nat T} (h : SameOff A (lgFlip uplo) μ ν) : SameOff A.tr uplo μ ν :=
  fun l hl => h l (fun i j hi hj ht => hl j i hj hi ((inTri_flip hu i j).1 ht))

/-- **C85, symv.** `y := alpha S x + beta y`, S symmetric given by the triangle `uplo`. -/
theorem C85_symv {layout : Layout} {uplo : Uplo} {n : Nat} (alpha beta : T) {A lda x y : Nat}
    {incx incy : Int} (hu : uplo = .Upper ∨ uplo = .Lower)
    (hld : n ≤ lda) (hx : incx ≠ 0) (hy : incy ≠ 0)
    (hAy : (stMat layout n n A lda).DisjV (stVec n y incy))
    (hxy : (stVec n x incx).Disj (stVec n y incy)) (μ : Store Nat T) :
    ∃ ν, lgSymv layout uplo n alpha A lda x incx beta y incy μ = (.ok (), ν) ∧
      vec n (ventry ν (stVec n y incy)) =
        alpha • (mat n n (symF uplo (entry μ (stMat layout n n A lda)))).mulVec
          (vec n (ventry μ (stVec n x incx))) + beta • vec n (ventry μ (stVec n y incy)) ∧
      ∀ l, ¬ (stVec n y incy).Owns l → ν l = μ l := by
  refine wp_ex ?_
  unfold lgSymv
  simp only [wp_bind, wp_check, notTri_false hu, Bool.not_false, if_true, hx, hy, decide_false]
  rw [if_pos (by simpa using hld)]
  rw [wp_ite]
  by_cases hq : n = 0 ∨ (alpha = 0 ∧ beta = 1)
  · rw [if_pos hq, wp_pure]
    refine ⟨?_, fun _ _ => rfl⟩
    rcases hq with h | ⟨h, h'⟩
    · subst h; exact funext fun i => i.elim0
    · rw [h, h', zero_smul, zero_add, one_smul]
  rw [if_neg hq, lgVec_eq hx, lgVec_eq hy, wp_bind]
  refine wp_lgCol hld ?_
  rw [wp_ite]
  by_cases ha : alpha = 0
  · rw [if_pos ha]
    refine wp_conseq (wp_lgScaleV (fun h => h) (stVec_inj hy)) (fun _ ν hν => ⟨?_, hν.frame⟩)
    rw [ha, zero_smul, zero_add, vec_smul]
    exact vec_ext_iff.2 (fun i hi => hν.val i hi)
  rw [if_neg ha]
  cases layout
  · obtain ⟨ν, h1, h2, h3⟩ := C10_symv alpha (lgCoef beta)
      ⟨hu, rfl, rfl, rfl, rfl, stVec_inj hy, hAy, hxy⟩ μ
    rw [lgCoef_val] at h2
    exact wp_of_eq h1 ⟨h2, h3⟩
  · rw [stMat_row] at hAy ⊢
    obtain ⟨ν, h1, h2, h3⟩ := C10_symv alpha (lgCoef beta)
      ⟨lgFlip_tri hu, rfl, rfl, rfl, rfl, stVec_inj hy, disjV_tr hAy, hxy⟩ μ
    rw [lgCoef_val] at h2
    refine wp_of_eq h1 ⟨?_, h3⟩
    rw [show mat n n (symF uplo (entry μ (stMat .ColMajor n n A lda).tr)) =
      mat n n (symF (lgFlip uplo) (entry μ (stMat .ColMajor n n A lda))) from ?_]
    · exact h2
    · funext i j
      show symF uplo _ i j = symF (lgFlip uplo) _ i j
      rw [symF_flip_tr hu]
      exact symF_comm hu _ _ _

theorem disjM_tr {A : MatV Nat} {x : VecV Nat} (h : x.DisjM A.tr) : x.DisjM A :=
  fun i hi ho => h i hi (MatV.tr_owns.2 ho)

/-- **C85, ger.** `A := A + alpha x yᴴ`. -/
theorem C85_ger {layout : Layout} {m n : Nat} (alpha : T) {A lda x y : Nat} {incx incy : Int}
    (hld : minLd layout m n ≤ lda) (hx : incx ≠ 0) (hy : incy ≠ 0)
    (hxA : (stVec m x incx).DisjM (stMat layout m n A lda))
    (hyA : (stVec n y incy).DisjM (stMat layout m n A lda)) (μ : Store Nat T) :
    ∃ ν, lgGer layout m n alpha x incx y incy A lda μ = (.ok (), ν) ∧
      mat m n (entry ν (stMat layout m n A lda)) = mat m n (entry μ (stMat layout m n A lda))
        + alpha • Matrix.vecMulVec (vec m (ventry μ (stVec m x incx)))
            (star (vec n (ventry μ (stVec n y incy)))) ∧
      ∀ l, ¬ (stMat layout m n A lda).Owns l → ν l = μ l := by
  refine wp_ex ?_
  unfold lgGer
  simp only [wp_bind, wp_check, Bool.not_false, if_true, hx, hy, decide_false]
  rw [if_pos (by cases layout <;> (simp; exact hld))]
  rw [wp_ite]
  by_cases hq : m = 0 ∨ n = 0 ∨ alpha = 0
  · rw [if_pos hq, wp_pure]
    refine ⟨?_, fun _ _ => rfl⟩
    rcases hq with h | h | h
    · subst h; exact funext fun i => i.elim0
    · subst h; exact funext fun i => funext fun j => j.elim0
    · rw [h, zero_smul, add_zero]
  rw [if_neg hq, lgVec_eq hx, lgVec_eq hy, wp_ite]
  obtain ⟨ν, h1, h2, h3⟩ := C09_ger alpha (stMat_inj hld) rfl rfl hxA hyA μ
  cases layout
  · rw [if_pos rfl, wp_bind]
    exact wp_lgCol hld (wp_of_eq h1 ⟨h2, h3⟩)
  · rw [if_neg (by decide), wp_bind]
    exact wp_lgRow hld (wp_of_eq h1 ⟨h2, h3⟩)

/-- **C85, geru.** `A := A + alpha x yᵀ`. -/
theorem C85_geru {layout : Layout} {m n : Nat} (alpha : T) {A lda x y : Nat} {incx incy : Int}
    (hld : minLd layout m n ≤ lda) (hx : incx ≠ 0) (hy : incy ≠ 0)
    (hxA : (stVec m x incx).DisjM (stMat layout m n A lda))
    (hyA : (stVec n y incy).DisjM (stMat layout m n A lda)) (μ : Store Nat T) :
    ∃ ν, lgGeru layout m n alpha x incx y incy A lda μ = (.ok (), ν) ∧
      mat m n (entry ν (stMat layout m n A lda)) = mat m n (entry μ (stMat layout m n A lda))
        + alpha • Matrix.vecMulVec (vec m (ventry μ (stVec m x incx)))
            (vec n (ventry μ (stVec n y incy))) ∧
      ∀ l, ¬ (stMat layout m n A lda).Owns l → ν l = μ l := by
  refine wp_ex ?_
  unfold lgGeru
  simp only [wp_bind, wp_check, Bool.not_false, if_true, hx, hy, decide_false]
  rw [if_pos (by cases layout <;> (simp; exact hld))]
  rw [wp_ite]
  by_cases hq : m = 0 ∨ n = 0 ∨ alpha = 0
  · rw [if_pos hq, wp_pure]
    refine ⟨?_, fun _ _ => rfl⟩
    rcases hq with h | h | h
    · subst h; exact funext fun i => i.elim0
    · subst h; exact funext fun i => funext fun j => j.elim0
    · rw [h, zero_smul, add_zero]
  rw [if_neg hq, lgVec_eq hx, lgVec_eq hy, wp_ite]
  cases layout
  · obtain ⟨ν, h1, h2, h3⟩ := C09_geru alpha (stMat_inj hld) rfl rfl hxA hyA μ
    rw [if_pos rfl, wp_bind]
    exact wp_lgCol hld (wp_of_eq h1 ⟨h2, h3⟩)
  · rw [stMat_row] at hxA hyA ⊢
    obtain ⟨ν, h1, h2, h3⟩ := C09_geru alpha (stCol_inj (m := n) (n := m) (p := A) (ld := lda) hld)
      (x := stVec n y incy) (y := stVec m x incx) rfl rfl (disjM_tr hyA) (disjM_tr hxA) μ
    rw [if_neg (by decide), wp_bind]
    refine wp_lgCol hld (wp_of_eq h1 ⟨?_, fun l hl => h3 l (fun h => hl (MatV.tr_owns.2 h))⟩)
    funext i j
    have := congrFun (congrFun h2 j) i
    simp only [Matrix.add_apply, Matrix.smul_apply, Matrix.vecMulVec_apply] at this ⊢
    refine Eq.trans this ?_
    rw [mul_comm (vec m _ i)]
    rfl

/-- The update her makes: `x xᴴ` in column-major layout, but its conjugate in row-major layout. -/
def herUpd (layout : Layout) {n : Nat} (x y : Fin n → T) : Matrix (Fin n) (Fin n) T :=
  match layout with
  | .ColMajor => Matrix.vecMulVec x (star y)
  | .RowMajor => (Matrix.vecMulVec x (star y)).map star

/-- **C85, syr.** The symmetric matrix stored in the triangle becomes `A + alpha x xᵀ`; nothing
outside the triangle is written. -/
theorem C85_syr {layout : Layout} {uplo : Uplo} {n : Nat} (alpha : T) {A lda x : Nat} {incx : Int}
    (hu : uplo = .Upper ∨ uplo = .Lower) (hld : n ≤ lda) (hx : incx ≠ 0)
    (hxA : (stVec n x incx).DisjM (stMat layout n n A lda)) (μ : Store Nat T) :
    ∃ ν, lgSyr layout uplo n alpha x incx A lda μ = (.ok (), ν) ∧
      mat n n (symF uplo (entry ν (stMat layout n n A lda))) =
        mat n n (symF uplo (entry μ (stMat layout n n A lda)))
        + alpha • Matrix.vecMulVec (vec n (ventry μ (stVec n x incx)))
            (vec n (ventry μ (stVec n x incx))) ∧
      SameOff (stMat layout n n A lda) uplo μ ν := by
  refine wp_ex ?_
  unfold lgSyr
  simp only [wp_bind, wp_check, notTri_false hu, Bool.not_false, if_true, hx, decide_false]
  rw [if_pos (by simpa using hld)]
  rw [wp_ite]
  by_cases hq : n = 0 ∨ alpha = 0
  · rw [if_pos hq, wp_pure]
    refine ⟨?_, fun _ _ => rfl⟩
    rcases hq with h | h
    · subst h; exact funext fun i => i.elim0
    · rw [h, zero_smul, add_zero]
  rw [if_neg hq, lgVec_eq hx, wp_bind]
  refine wp_lgCol hld ?_
  cases layout
  · obtain ⟨ν, h1, h2, h3⟩ := C09_syr alpha hu (stCol_inj hld) rfl rfl hxA μ
    exact wp_of_eq h1 ⟨h2, h3⟩
  · rw [stMat_row] at hxA ⊢
    obtain ⟨ν, h1, h2, h3⟩ := C09_syr alpha (lgFlip_tri hu)
      (stCol_inj (m := n) (n := n) (p := A) (ld := lda) hld) rfl rfl (disjM_tr hxA) μ
    refine wp_of_eq h1 ⟨?_, sameOff_flip_tr hu h3⟩
    funext i j
    have this : symF (lgFlip uplo) (entry ν (stMat .ColMajor n n A lda)) j i =
      symF (lgFlip uplo) (entry μ (stMat .ColMajor n n A lda)) j i + alpha * (ventry μ (stVec n x incx) j * ventry μ (stVec n x incx) i) := congrFun (congrFun h2 j) i
    rw [symF_flip_tr hu, symF_flip_tr hu] at this
    simp only [Matrix.add_apply, Matrix.smul_apply, Matrix.vecMulVec_apply, mat, smul_eq_mul,
      vec, Pi.star_apply, herUpd, Matrix.map_apply, star_mul', star_star, reduceCtorEq, if_false]
    refine Eq.trans this ?_
    ring

/-- **C85, syr2.** -/
theorem C85_syr2 {layout : Layout} {uplo : Uplo} {n : Nat} (alpha : T) {A lda x y : Nat}
    {incx incy : Int} (hu : uplo = .Upper ∨ uplo = .Lower) (hld : n ≤ lda) (hx : incx ≠ 0)
    (hy : incy ≠ 0) (hxA : (stVec n x incx).DisjM (stMat layout n n A lda))
    (hyA : (stVec n y incy).DisjM (stMat layout n n A lda)) (μ : Store Nat T) :
    ∃ ν, lgSyr2 layout uplo n alpha x incx y incy A lda μ = (.ok (), ν) ∧
      mat n n (symF uplo (entry ν (stMat layout n n A lda))) =
        mat n n (symF uplo (entry μ (stMat layout n n A lda)))
        + alpha • Matrix.vecMulVec (vec n (ventry μ (stVec n x incx)))
            (vec n (ventry μ (stVec n y incy)))
        + alpha • Matrix.vecMulVec (vec n (ventry μ (stVec n y incy)))
            (vec n (ventry μ (stVec n x incx))) ∧
      SameOff (stMat layout n n A lda) uplo μ ν := by
  refine wp_ex ?_
  unfold lgSyr2
  simp only [wp_bind, wp_check, notTri_false hu, Bool.not_false, if_true, hx, hy, decide_false]
  rw [if_pos (by simpa using hld)]
  rw [wp_ite]
  by_cases hq : n = 0 ∨ alpha = 0
  · rw [if_pos hq, wp_pure]
    refine ⟨?_, fun _ _ => rfl⟩
    rcases hq with h | h
    · subst h; exact funext fun i => i.elim0
    · rw [h, zero_smul, zero_smul, add_zero, add_zero]
  rw [if_neg hq, lgVec_eq hx, lgVec_eq hy, wp_bind]
  refine wp_lgCol hld ?_
  cases layout
  · obtain ⟨ν, h1, h2, h3⟩ := C09_syr2 alpha hu (stCol_inj hld) rfl rfl rfl hxA hyA μ
    exact wp_of_eq h1 ⟨h2, h3⟩
  · rw [stMat_row] at hxA hyA ⊢
    obtain ⟨ν, h1, h2, h3⟩ := C09_syr2 alpha (lgFlip_tri hu)
      (stCol_inj (m := n) (n := n) (p := A) (ld := lda) hld) rfl rfl rfl (disjM_tr hxA)
      (disjM_tr hyA) μ
    refine wp_of_eq h1 ⟨?_, sameOff_flip_tr hu h3⟩
    funext i j
    have this : symF (lgFlip uplo) (entry ν (stMat .ColMajor n n A lda)) j i =
      symF (lgFlip uplo) (entry μ (stMat .ColMajor n n A lda)) j i + alpha * (ventry μ (stVec n x incx) j * ventry μ (stVec n y incy) i) + alpha * (ventry μ (stVec n y incy) j * ventry μ (stVec n x incx) i) := congrFun (congrFun h2 j) i
    rw [symF_flip_tr hu, symF_flip_tr hu] at this
    simp only [Matrix.add_apply, Matrix.smul_apply, Matrix.vecMulVec_apply, mat, smul_eq_mul,
      vec, Pi.star_apply, herUpd, Matrix.map_apply, star_mul', star_star, reduceCtorEq, if_false]
    refine Eq.trans this ?_
    ring

/-- **C85, her.** The Hermitian matrix stored in the triangle becomes `A + alpha x xᴴ` in
column-major layout and `A + alpha conj(x xᴴ)` in row-major layout (see `C85_her_rowmajor_violated`;
the two agree if `x` is real). -/
theorem C85_her [ExactScalar T] {layout : Layout} {uplo : Uplo} {n : Nat} {alpha : T}
    (ha : star alpha = alpha) {A lda x : Nat} {incx : Int}
    (hu : uplo = .Upper ∨ uplo = .Lower) (hld : n ≤ lda) (hx : incx ≠ 0)
    (hxA : (stVec n x incx).DisjM (stMat layout n n A lda)) (μ : Store Nat T) :
    ∃ ν, lgHer layout uplo n alpha x incx A lda μ = (.ok (), ν) ∧
      mat n n (hermF uplo (entry ν (stMat layout n n A lda))) =
        mat n n (hermF uplo (entry μ (stMat layout n n A lda)))
        + alpha • herUpd layout (vec n (ventry μ (stVec n x incx)))
            (vec n (ventry μ (stVec n x incx))) ∧
      SameOff (stMat layout n n A lda) uplo μ ν := by
  refine wp_ex ?_
  unfold lgHer
  simp only [wp_bind, wp_check, notTri_false hu, Bool.not_false, if_true, hx, decide_false]
  rw [if_pos (by simpa using hld)]
  rw [wp_ite]
  by_cases hq : n = 0 ∨ alpha = 0
  · rw [if_pos hq, wp_pure]
    refine ⟨?_, fun _ _ => rfl⟩
    rcases hq with h | h
    · subst h; exact funext fun i => i.elim0
    · rw [h, zero_smul, add_zero]
  rw [if_neg hq, lgVec_eq hx, wp_bind]
  refine wp_lgCol hld ?_
  cases layout
  · obtain ⟨ν, h1, h2, -, h3⟩ := C09_her ha hu (stCol_inj hld) rfl rfl hxA μ
    exact wp_of_eq h1 ⟨h2, h3⟩
  · rw [stMat_row] at hxA ⊢
    obtain ⟨ν, h1, h2, -, h3⟩ := C09_her ha (lgFlip_tri hu)
      (stCol_inj (m := n) (n := n) (p := A) (ld := lda) hld) rfl rfl (disjM_tr hxA) μ
    refine wp_of_eq h1 ⟨?_, sameOff_flip_tr hu h3⟩
    funext i j
    have this : hermF (lgFlip uplo) (entry ν (stMat .ColMajor n n A lda)) j i =
      hermF (lgFlip uplo) (entry μ (stMat .ColMajor n n A lda)) j i + alpha * (ventry μ (stVec n x incx) j * star (ventry μ (stVec n x incx) i)) := congrFun (congrFun h2 j) i
    rw [hermF_flip_tr hu, hermF_flip_tr hu] at this
    simp only [Matrix.add_apply, Matrix.smul_apply, Matrix.vecMulVec_apply, mat, smul_eq_mul,
      vec, Pi.star_apply, herUpd, Matrix.map_apply, star_mul', star_star, reduceCtorEq, if_false]
    refine Eq.trans this ?_
    ring

/-- **C85, her2.** The Hermitian matrix stored in the triangle becomes
`A + alpha x yᴴ + conj(alpha) y xᴴ` in column-major layout; in row-major layout the added matrix is
the conjugate of that. -/
theorem C85_her2 [ExactScalar T] {layout : Layout} {uplo : Uplo} {n : Nat} (alpha : T)
    {A lda x y : Nat} {incx incy : Int}
    (hu : uplo = .Upper ∨ uplo = .Lower) (hld : n ≤ lda) (hx : incx ≠ 0) (hy : incy ≠ 0)
    (hxA : (stVec n x incx).DisjM (stMat layout n n A lda))
    (hyA : (stVec n y incy).DisjM (stMat layout n n A lda)) (μ : Store Nat T) :
    ∃ ν, lgHer2 layout uplo n alpha x incx y incy A lda μ = (.ok (), ν) ∧
      mat n n (hermF uplo (entry ν (stMat layout n n A lda))) =
        mat n n (hermF uplo (entry μ (stMat layout n n A lda)))
        + (if layout = .ColMajor then alpha else star alpha) • herUpd layout
            (vec n (ventry μ (stVec n x incx))) (vec n (ventry μ (stVec n y incy)))
        + (if layout = .ColMajor then star alpha else alpha) • herUpd layout
            (vec n (ventry μ (stVec n y incy))) (vec n (ventry μ (stVec n x incx))) ∧
      SameOff (stMat layout n n A lda) uplo μ ν := by
  refine wp_ex ?_
  unfold lgHer2
  simp only [wp_bind, wp_check, notTri_false hu, Bool.not_false, if_true, hx, hy, decide_false]
  rw [if_pos (by simpa using hld)]
  rw [wp_ite]
  by_cases hq : n = 0 ∨ alpha = 0
  · rw [if_pos hq, wp_pure]
    refine ⟨?_, fun _ _ => rfl⟩
    rcases hq with h | h
    · subst h; exact funext fun i => i.elim0
    · rw [h, star_zero, ite_self, zero_smul, zero_smul, add_zero, add_zero]
  rw [if_neg hq, lgVec_eq hx, lgVec_eq hy, wp_bind]
  refine wp_lgCol hld ?_
  cases layout
  · obtain ⟨ν, h1, h2, -, h3⟩ := C09_her2 alpha hu (stCol_inj hld) rfl rfl rfl hxA hyA μ
    exact wp_of_eq h1 ⟨h2, h3⟩
  · rw [stMat_row] at hxA hyA ⊢
    obtain ⟨ν, h1, h2, -, h3⟩ := C09_her2 alpha (lgFlip_tri hu)
      (stCol_inj (m := n) (n := n) (p := A) (ld := lda) hld) rfl rfl rfl (disjM_tr hxA)
      (disjM_tr hyA) μ
    refine wp_of_eq h1 ⟨?_, sameOff_flip_tr hu h3⟩
    funext i j
    have this : hermF (lgFlip uplo) (entry ν (stMat .ColMajor n n A lda)) j i =
      hermF (lgFlip uplo) (entry μ (stMat .ColMajor n n A lda)) j i + alpha * (ventry μ (stVec n x incx) j * star (ventry μ (stVec n y incy) i)) + star alpha * (ventry μ (stVec n y incy) j * star (ventry μ (stVec n x incx) i)) := congrFun (congrFun h2 j) i
    rw [hermF_flip_tr hu, hermF_flip_tr hu] at this
    simp only [Matrix.add_apply, Matrix.smul_apply, Matrix.vecMulVec_apply, mat, smul_eq_mul,
      vec, Pi.star_apply, herUpd, Matrix.map_apply, star_mul', star_star, reduceCtorEq, if_false]
    refine Eq.trans this ?_
    ring

/-- For real element types (conjugation is the identity) her and her2 are right in both layouts. -/
theorem C85_her_real (hr : ∀ z : T, star z = z) (layout : Layout) {n : Nat} (x y : Fin n → T) :
    herUpd layout x y = Matrix.vecMulVec x y := by
  funext i j
  cases layout <;> simp [herUpd, Matrix.vecMulVec_apply, hr]

/-! ### Deviations and examples -/

/-- Memory with a zero matrix of order 2 at address 0 and `x = (1, i)` at address 4. -/
noncomputable def herMem : Store Nat ℂ :=
  fun l => if l = 4 then 1 else if l = 5 then Complex.I else 0

/-- The arguments of the two deviations are admissible, in both layouts. -/
theorem herMem_adm (layout : Layout) : (stVec 2 4 1).DisjM (stMat layout 2 2 0 2) := by
  rintro i hi ⟨a, b, ha, hb, e⟩
  simp only [stVec, stMat] at *
  cases layout <;> simp at e <;> omega

open Classical in
/-- **C85, her, deviation.** Row-major her on complex data: with `A = 0`, `x = (1, i)` and
`alpha = 1`, entry (0,1) of the result is `i`; that of `A + x xᴴ` is `1 · conj(i) = -i`. -/
theorem C85_her_rowmajor_violated : ∃ ν,
    lgHer .RowMajor .Upper 2 1 4 1 0 2 herMem = (.ok (), ν) ∧
      mat 2 2 (hermF .Upper (entry ν (stMat .RowMajor 2 2 0 2))) 0 1 = Complex.I ∧
      (mat 2 2 (hermF .Upper (entry herMem (stMat .RowMajor 2 2 0 2))) + (1 : ℂ) •
        Matrix.vecMulVec (vec 2 (ventry herMem (stVec 2 4 1)))
          (star (vec 2 (ventry herMem (stVec 2 4 1))))) 0 1 = -Complex.I := by
  obtain ⟨ν, h1, h2, -⟩ := C85_her (T := ℂ) (layout := .RowMajor) (uplo := .Upper) (n := 2)
    (alpha := 1) (A := 0) (lda := 2) (x := 4) (incx := 1) (by simp) (Or.inl rfl) (le_refl _)
    (by decide) (herMem_adm _) herMem
  have h1' : lgHer .RowMajor .Upper 2 1 4 1 0 2 herMem = (.ok (), ν) := by convert h1
  refine ⟨ν, h1', ?_, ?_⟩
  · rw [h2]
    simp [herUpd, Matrix.add_apply, Matrix.vecMulVec_apply, mat, vec, hermF, inTri, entry, ventry,
      stMat, stVec, herMem]
  · simp [Matrix.add_apply, Matrix.vecMulVec_apply, mat, vec, hermF, inTri, entry, ventry,
      stMat, stVec, herMem]

open Classical in
/-- **C85, her2, deviation.** The same with `y = x`: entry (0,1) is `2 i` instead of `-2 i`. -/
theorem C85_her2_rowmajor_violated : ∃ ν,
    lgHer2 .RowMajor .Upper 2 1 4 1 4 1 0 2 herMem = (.ok (), ν) ∧
      mat 2 2 (hermF .Upper (entry ν (stMat .RowMajor 2 2 0 2))) 0 1 = 2 * Complex.I := by
  obtain ⟨ν, h1, h2, -⟩ := C85_her2 (T := ℂ) (layout := .RowMajor) (uplo := .Upper) (n := 2)
    1 (A := 0) (lda := 2) (x := 4) (y := 4) (incx := 1) (incy := 1) (Or.inl rfl) (le_refl _)
    (by decide) (by decide) (herMem_adm _) (herMem_adm _) herMem
  have h1' : lgHer2 .RowMajor .Upper 2 1 4 1 4 1 0 2 herMem = (.ok (), ν) := by convert h1
  refine ⟨ν, h1', ?_⟩
  rw [h2]
  simp [herUpd, Matrix.add_apply, Matrix.vecMulVec_apply, mat, vec, hermF, inTri, entry, ventry,
    stMat, stVec, herMem]
  ring

/-- **C85, gemv, deviation.** The row-major, conjugate-transposed call writes its const argument
`x`: with `A` and `x` both the cell 0, holding `i` (`m = n = 1`), and `y` the cell 1, holding 0, the
result is `-1`, not `conj(i) · i = 1`. -/
theorem C85_gemv_alias_violated : ∃ ν, lgGemv .RowMajor .ConjTrans 1 1 1 0 1 0 1 0 1 1
      (fun l => if l = 0 then Complex.I else 0) = (.ok (), ν) ∧ ν 1 = -1 := by
  classical
  refine wp_ex ?_
  have hne : (1 : Int) ≠ 0 := by decide
  unfold lgGemv
  simp only [wp_bind, wp_check, lgBadOp_false (Or.inr (Or.inr rfl)), Bool.not_false, if_true, hne,
    decide_false]
  rw [if_pos (by decide), wp_ite, if_neg (by simp)]
  simp only [decide_true, Bool.and_true, lgFlipOp, if_false, if_true, Bool.false_eq_true, wp_bind,
    wp_pure, lgVec_eq hne, reduceCtorEq]
  have o0 : (stVec 1 0 1).Owns 0 := ⟨0, by decide, rfl⟩
  have o1 : (stVec 1 1 1).Owns 1 := ⟨0, by decide, rfl⟩
  have n1 : ¬ (stVec 1 0 1).Owns 1 := by
    rintro ⟨i, hi, e⟩; simp [stVec] at hi e; omega
  have n0 : ¬ (stVec 1 1 1).Owns 0 := by
    rintro ⟨i, hi, e⟩; simp [stVec] at hi e
  refine wp_conseq (wp_lgConj hne) (fun _ μ1 h1 => ?_)
  refine wp_conseq (wp_lgConj hne) (fun _ μ2 h2 => ?_)
  refine wp_lgCol (le_refl _) ?_
  rw [if_neg (by norm_num : ¬ (1 : ℂ) = 0)]
  refine wp_conseq (wp_gemv_exact (m := 1) (n := 1) ⟨by simp [stMat], by simp [stMat], rfl, rfl,
    stVec_inj hne, ?_, ?_⟩ (by decide)) (fun _ μ3 h3 => ?_)
  · rintro i j hi hj ⟨k, hk, e⟩
    simp [stMat, stVec] at hi hj hk e; omega
  · rintro i hi ⟨k, hk, e⟩
    simp [stVec] at hi hk e; omega
  refine wp_conseq (wp_lgConj hne) (fun _ μ4 h4 => ?_)
  refine wp_conseq (wp_lgConj hne) (fun _ μ5 h5 => ?_)
  have e3 := h3.val 0 (by decide)
  subst h1 h2 h4 h5
  rw [conjOn_owns o1, conjOn_not n1]
  have c1 : (stVec 1 1 1).cell 0 = 1 := rfl
  rw [c1] at e3
  rw [e3]
  simp only [Finset.sum_range_one, opF, entry, ventry, show (stMat .ColMajor 1 1 0 1).cell 0 0 = 0
    from rfl, show (stVec 1 0 1).cell 0 = 0 from rfl, c1, conjOn_not n0, conjOn_owns o0,
    conjOn_owns o1, conjOn_not n1, Coef.toVal]
  simp

/-- The hypotheses are met: a row-major 3 × 2 matrix with leading dimension 4 at address 0, vectors
at 20 and 40 with increments -2 and 3. -/
example : (stMat .RowMajor 3 2 0 4).DisjV (stVec 2 20 (-2)) ∧
    (stMat .RowMajor 3 2 0 4).DisjV (stVec 3 40 3) ∧ (stVec 3 40 3).Disj (stVec 2 20 (-2)) ∧
    minLd .RowMajor 3 2 ≤ 4 := by
  refine ⟨?_, ?_, ?_, by decide⟩
  · rintro i j hi hj ⟨k, hk, e⟩
    simp [stMat, stVec] at *; omega
  · rintro i j hi hj ⟨k, hk, e⟩
    simp [stMat, stVec] at *; omega
  · rintro i hi ⟨k, hk, e⟩
    simp [stMat, stVec] at *; omega

example : (stVec 3 20 (-2)).DisjM (stMat .RowMajor 3 3 0 4) := by
  rintro i hi ⟨a, b, ha, hb, e⟩
  simp [stMat, stVec] at *; omega

end TLA
