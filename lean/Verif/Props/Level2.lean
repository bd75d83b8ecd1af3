import Verif.Proofs.Rank
import Verif.Proofs.RankExact
import Verif.Proofs.Tri2
import Verif.Props.Examples

/-! # C08-C12: level-2 BLAS in exact arithmetic -/

namespace TLA
variable {L T : Type} [DecidableEq L]

/-- **C08.** gemv overwrites `y` by `alpha op(A) x + beta y` when op(A) has a column (or `y` is
empty), and changes nothing else. -/
theorem C08_gemv [Field T] [StarRing T] {trans : Op} (alpha : T) {A : MatV L} {x y : VecV L}
    (beta : Coef T) {m n : Nat} (h : GemvOK trans A x y m n) (hn : 0 < n) (μ : Store L T) :
    ∃ ν, gemv trans alpha A x beta y μ = (.ok (), ν) ∧
      vec m (ventry ν y) = alpha • (mat m n (opF trans (entry μ A))).mulVec (vec n (ventry μ x))
        + beta.toVal • vec m (ventry μ y) ∧
      ∀ l, ¬ y.Owns l → ν l = μ l := by
  obtain ⟨ν, h1, h2⟩ := wp_unit (wp_gemv_exact (alpha := alpha) (beta := beta) (μ := μ) h hn)
  refine ⟨ν, h1, ?_, h2.frame⟩
  rw [mat_mulVec, vec_smul, vec_smul, vec_add]
  exact vec_ext_iff.2 (fun i hi => h2.val i (by rw [h.yn]; exact hi))

example : GemvOK .ConjTrans (mkM 0 3 2) (mkV 1 3) (mkV 2 2) 2 3 := by constructor <;> adm

/-- **C08, deviation.** If op(A) has no columns the code returns at once (gemv.hpp:82) and `y` is
NOT multiplied by `beta`, although `alpha op(A) x + beta y` is `beta y`. -/
theorem C08_gemv_empty [Zero T] [Add T] [Mul T] [Star T] {trans : Op} (alpha : T) {A : MatV L}
    {x y : VecV L} (beta : Coef T) {m : Nat} (h : GemvOK trans A x y m 0) (μ : Store L T) :
    gemv trans alpha A x beta y μ = (.ok (), μ) := by
  obtain ⟨ν, h1, h2⟩ := wp_unit (wp_gemv (alpha := alpha) (beta := beta) (μ := μ) h)
  rw [if_pos (Or.inr rfl)] at h2
  rw [h1, h2]

/-- The documented result fails on such a call: `y = 1`, `beta = 2`, op(A) of size `1 × 0`. -/
theorem C08_gemv_doc_violated :
    ∃ (A : MatV (Nat × Nat × Nat)) (x y : VecV (Nat × Nat × Nat)) (μ : Store (Nat × Nat × Nat) ℚ),
      GemvOK .NoTrans A x y 1 0 ∧
      ¬ ∃ ν, gemv .NoTrans (1 : ℚ) A x (.val 2) y μ = (.ok (), ν) ∧
        vec 1 (ventry ν y) = (1 : ℚ) • (mat 1 0 (opF .NoTrans (entry μ A))).mulVec (vec 0 (ventry μ x))
          + (2 : ℚ) • vec 1 (ventry μ y) := by
  have hok : GemvOK .NoTrans (mkM 0 1 0) (mkV 1 0) (mkV 2 1) 1 0 := by constructor <;> adm
  refine ⟨mkM 0 1 0, mkV 1 0, mkV 2 1, fun _ => 1, hok, ?_⟩
  rintro ⟨ν, h1, h2⟩
  rw [C08_gemv_empty 1 (.val 2) hok] at h1
  have h3 := congrFun h2 0
  simp only [Prod.mk.injEq, true_and] at h1
  rw [← h1] at h3
  simp [vec, ventry, Matrix.mulVec, dotProduct] at h3

/-- **C09, ger.** `A := A + alpha x yᴴ`. -/
theorem C09_ger [Field T] [StarRing T] (alpha : T) {x y : VecV L} {A : MatV L}
    (hA : A.Inj) (hxn : x.n = A.m) (hyn : y.n = A.n) (hx : x.DisjM A) (hy : y.DisjM A)
    (μ : Store L T) :
    ∃ ν, ger alpha x y A μ = (.ok (), ν) ∧
      mat A.m A.n (entry ν A) = mat A.m A.n (entry μ A)
        + alpha • Matrix.vecMulVec (vec A.m (ventry μ x)) (star (vec A.n (ventry μ y))) ∧
      ∀ l, ¬ A.Owns l → ν l = μ l := by
  obtain ⟨ν, h1, h2⟩ := wp_unit (wp_ger (alpha := alpha) (μ := μ) hA hxn hyn hx hy)
  refine ⟨ν, h1, ?_, h2.frame⟩
  funext i j
  refine (h2.val i j i.2 j.2).trans ?_
  simp only [Matrix.add_apply, Matrix.smul_apply, Matrix.vecMulVec_apply, mat, vec, smul_eq_mul,
    Pi.star_apply]
  ring

/-- **C09, geru.** `A := A + alpha x yᵀ`. -/
theorem C09_geru [Field T] (alpha : T) {x y : VecV L} {A : MatV L}
    (hA : A.Inj) (hxn : x.n = A.m) (hyn : y.n = A.n) (hx : x.DisjM A) (hy : y.DisjM A)
    (μ : Store L T) :
    ∃ ν, geru alpha x y A μ = (.ok (), ν) ∧
      mat A.m A.n (entry ν A) = mat A.m A.n (entry μ A)
        + alpha • Matrix.vecMulVec (vec A.m (ventry μ x)) (vec A.n (ventry μ y)) ∧
      ∀ l, ¬ A.Owns l → ν l = μ l := by
  obtain ⟨ν, h1, h2⟩ := wp_unit (wp_geru (alpha := alpha) (μ := μ) hA hxn hyn hx hy)
  refine ⟨ν, h1, ?_, h2.frame⟩
  funext i j
  refine (h2.val i j i.2 j.2).trans ?_
  simp only [Matrix.add_apply, Matrix.smul_apply, Matrix.vecMulVec_apply, mat, vec, smul_eq_mul]
  ring

example : (mkM 2 3 4).Inj ∧ (mkV 0 3).n = (mkM 2 3 4).m ∧ (mkV 1 4).n = (mkM 2 3 4).n ∧
    (mkV 0 3).DisjM (mkM 2 3 4) ∧ (mkV 1 4).DisjM (mkM 2 3 4) := by
  refine ⟨?_, ?_, ?_, ?_, ?_⟩ <;> adm

theorem hermF_congr [Star T] [ReIm T] {uplo : Uplo} {n : Nat} {a b : Nat → Nat → T}
    (hu : uplo = .Upper ∨ uplo = .Lower)
    (h : ∀ i j, i < n → j < n → inTri uplo i j → a i j = b i j) {i j : Nat} (hi : i < n)
    (hj : j < n) : hermF uplo a i j = hermF uplo b i j := by
  unfold hermF
  have hd : inTri uplo i i := by rcases hu with rfl | rfl <;> exact le_refl i
  by_cases e : i = j
  · subst e; simp only [if_true]; rw [h i i hi hi hd]
  · simp only [e, if_false]
    by_cases ht : inTri uplo i j
    · simp only [ht, if_true]; exact h i j hi hj ht
    · have ht' : inTri uplo j i := by
        rcases hu with rfl | rfl <;> simp only [inTri] at ht ⊢ <;> omega
      simp only [ht, if_false]; rw [h j i hj hi ht']

theorem symF_congr {uplo : Uplo} {n : Nat} {a b : Nat → Nat → T}
    (hu : uplo = .Upper ∨ uplo = .Lower)
    (h : ∀ i j, i < n → j < n → inTri uplo i j → a i j = b i j) {i j : Nat} (hi : i < n)
    (hj : j < n) : symF uplo a i j = symF uplo b i j := by
  unfold symF
  have hd : inTri uplo i i := by rcases hu with rfl | rfl <;> exact le_refl i
  by_cases e : i = j
  · subst e; simp only [true_or, if_true]; rw [h i i hi hi hd]
  · simp only [e, false_or]
    by_cases ht : inTri uplo i j
    · simp only [ht, if_true]; exact h i j hi hj ht
    · have ht' : inTri uplo j i := by
        rcases hu with rfl | rfl <;> simp only [inTri] at ht ⊢ <;> omega
      simp only [ht, if_false]; rw [h j i hj hi ht']

open ExactScalar

/-- A matrix function that is Hermitian, with the given triangle. -/
theorem hermF_eq_of [Field T] [StarRing T] [ReIm T] [ExactScalar T] {uplo : Uplo}
    (hu : uplo = .Upper ∨ uplo = .Lower) {n : Nat} {a H : Nat → Nat → T}
    (hH : ∀ i j, star (H j i) = H i j) (h : ∀ i j, i < n → j < n → inTri uplo i j → a i j = H i j)
    {i j : Nat} (hi : i < n) (hj : j < n) : hermF uplo a i j = H i j := by
  rw [hermF_congr hu h hi hj]
  unfold hermF
  split
  · rename_i e; subst e; exact re_of_star _ (hH i i)
  · split
    · rfl
    · exact hH i j

theorem hermF_star [Field T] [StarRing T] [ReIm T] [ExactScalar T] {uplo : Uplo}
    (hu : uplo = .Upper ∨ uplo = .Lower) (a : Nat → Nat → T) (i j : Nat) :
    star (hermF uplo a j i) = hermF uplo a i j := by
  unfold hermF
  by_cases e : i = j
  · subst e; simp [star_re]
  · have e' : ¬ j = i := fun h => e h.symm
    simp only [e, e', if_false]
    rcases hu with rfl | rfl
    · simp only [ite_upper]
      by_cases h : i ≤ j
      · rw [if_neg (by omega), if_pos h, star_star]
      · rw [if_pos (by omega), if_neg h]
    · simp only [ite_lower]
      by_cases h : j ≤ i
      · rw [if_neg (by omega), if_pos h, star_star]
      · rw [if_pos (by omega), if_neg h]

/-- **C09, her.** With real `alpha`, the Hermitian matrix stored in the selected triangle becomes
`A + alpha x xᴴ`, its diagonal is real, nothing outside the selected triangle is written. -/
theorem C09_her [Field T] [StarRing T] [ReIm T] [ExactScalar T] {uplo : Uplo} {alpha : T}
    (ha : star alpha = alpha) {x : VecV L} {A : MatV L} (hu : uplo = .Upper ∨ uplo = .Lower)
    (hA : A.Inj) (hn : A.n = A.m) (hxn : x.n = A.m) (hx : x.DisjM A) (μ : Store L T) :
    ∃ ν, her uplo alpha x A μ = (.ok (), ν) ∧
      mat A.m A.m (hermF uplo (entry ν A)) = mat A.m A.m (hermF uplo (entry μ A))
        + alpha • Matrix.vecMulVec (vec A.m (ventry μ x)) (star (vec A.m (ventry μ x))) ∧
      (∀ i, i < A.m → star (entry ν A i i) = entry ν A i i) ∧ SameOff A uplo μ ν := by
  obtain ⟨ν, h1, h2⟩ := wp_unit (wp_her (alpha := alpha) (μ := μ) hu hA hn hxn hx)
  have hdiag : ∀ a xj : T, herDiag alpha a xj = re a + alpha * (xj * star xj) := by
    intro a xj
    have hs : star (xj * (alpha * star xj)) = xj * (alpha * star xj) := by simp [ha]; ring
    have := re_mul xj (alpha * star xj)
    rw [re_of_star _ hs] at this
    unfold herDiag
    rw [add_sub_assoc, ← this]; ring
  refine ⟨ν, h1, ?_, ?_, ?_⟩
  · funext i j
    simp only [Matrix.add_apply, Matrix.smul_apply, Matrix.vecMulVec_apply, mat, vec, smul_eq_mul,
      Pi.star_apply]
    refine hermF_eq_of (H := fun i j => hermF uplo (entry μ A) i j + alpha * (ventry μ x i * star (ventry μ x j)))
      hu ?_ ?_ i.2 j.2
    · intro i j
      simp only [star_add, star_mul', star_star, hermF_star hu, ha]; ring
    · intro i j hi hj ht
      refine (h2.val i j hi (by omega)).trans ?_
      by_cases e : i = j
      · subst e; simp [hdiag, hermF]
      · simp only [e, ht, if_true, if_false, hermF]; ring
  · intro i hi
    have : entry ν A i i = _ := (h2.val i i hi (by omega)).trans (if_pos rfl)
    rw [this, hdiag]
    simp only [star_add, star_mul', star_star, star_re, ha]; ring
  · refine h2.sameOff (fun i j _ _ ht => ?_)
    have e : i ≠ j := by rintro rfl; rcases hu with rfl | rfl <;> exact ht (le_refl i)
    simp [e, ht, entry]

example : (mkM 2 3 3).Inj ∧ (mkM 2 3 3).n = (mkM 2 3 3).m ∧ (mkV 0 3).n = (mkM 2 3 3).m ∧
    (mkV 0 3).DisjM (mkM 2 3 3) ∧ star (2 : ℂ) = 2 := by
  refine ⟨?_, ?_, ?_, ?_, by simp⟩ <;> adm

/-- **C09, her2.** The Hermitian matrix in the selected triangle becomes
`A + alpha x yᴴ + conj(alpha) y xᴴ`, with a real diagonal. -/
theorem C09_her2 [Field T] [StarRing T] [ReIm T] [ExactScalar T] {uplo : Uplo} (alpha : T)
    {x y : VecV L} {A : MatV L} (hu : uplo = .Upper ∨ uplo = .Lower)
    (hA : A.Inj) (hn : A.n = A.m) (hxn : x.n = A.m) (hyn : y.n = A.m) (hx : x.DisjM A)
    (hy : y.DisjM A) (μ : Store L T) :
    ∃ ν, her2 uplo alpha x y A μ = (.ok (), ν) ∧
      mat A.m A.m (hermF uplo (entry ν A)) = mat A.m A.m (hermF uplo (entry μ A))
        + alpha • Matrix.vecMulVec (vec A.m (ventry μ x)) (star (vec A.m (ventry μ y)))
        + star alpha • Matrix.vecMulVec (vec A.m (ventry μ y)) (star (vec A.m (ventry μ x))) ∧
      (∀ i, i < A.m → star (entry ν A i i) = entry ν A i i) ∧ SameOff A uplo μ ν := by
  obtain ⟨ν, h1, h2⟩ := wp_unit (wp_her2 (alpha := alpha) (μ := μ) hu hA hn hxn hyn hx hy)
  have hdiag : ∀ a xj yj : T, her2Diag alpha a xj yj =
      re a + alpha * (xj * star yj) + star alpha * (yj * star xj) := by
    intro a xj yj
    have e1 := re_mul xj (alpha * star yj)
    have e2 := re_mul yj (star (alpha * xj))
    have e3 : yj * star (alpha * xj) = star (xj * (alpha * star yj)) := by simp; ring
    have e4 := add_star (xj * (alpha * star yj))
    have e5 : re (yj * star (alpha * xj)) = re (xj * (alpha * star yj)) := by rw [e3, re_star]
    unfold her2Diag
    have e6 : re a + re xj * re (alpha * star yj) - im xj * im (alpha * star yj) +
        re yj * re (star (alpha * xj)) - im yj * im (star (alpha * xj)) =
        re a + (re (xj * (alpha * star yj)) + re (yj * star (alpha * xj))) := by
      rw [e1, e2]; ring
    rw [e6, e5, ← e4]
    simp; ring
  refine ⟨ν, h1, ?_, ?_, ?_⟩
  · funext i j
    simp only [Matrix.add_apply, Matrix.smul_apply, Matrix.vecMulVec_apply, mat, vec, smul_eq_mul,
      Pi.star_apply]
    refine hermF_eq_of (H := fun i j => hermF uplo (entry μ A) i j
      + alpha * (ventry μ x i * star (ventry μ y j)) + star alpha * (ventry μ y i * star (ventry μ x j)))
      hu ?_ ?_ i.2 j.2
    · intro i j
      simp [hermF_star hu]; ring
    · intro i j hi hj ht
      refine (h2.val i j hi (by omega)).trans ?_
      by_cases e : i = j
      · subst e; simp [hdiag, hermF]
      · simp only [e, ht, if_true, if_false, hermF]; simp; ring
  · intro i hi
    have : entry ν A i i = _ := (h2.val i i hi (by omega)).trans (if_pos rfl)
    rw [this, hdiag]
    simp [star_re]; ring
  · refine h2.sameOff (fun i j _ _ ht => ?_)
    have e : i ≠ j := by rintro rfl; rcases hu with rfl | rfl <;> exact ht (le_refl i)
    simp [e, ht, entry]

theorem symF_eq_of {uplo : Uplo} (hu : uplo = .Upper ∨ uplo = .Lower) {n : Nat}
    {a H : Nat → Nat → T} (hH : ∀ i j, H j i = H i j)
    (h : ∀ i j, i < n → j < n → inTri uplo i j → a i j = H i j)
    {i j : Nat} (hi : i < n) (hj : j < n) : symF uplo a i j = H i j := by
  rw [symF_congr hu h hi hj]
  unfold symF
  split
  · rfl
  · exact hH i j

theorem symF_comm {uplo : Uplo} (hu : uplo = .Upper ∨ uplo = .Lower) (a : Nat → Nat → T)
    (i j : Nat) : symF uplo a j i = symF uplo a i j := by
  unfold symF
  by_cases e : i = j
  · subst e; simp
  · have e' : ¬ j = i := fun h => e h.symm
    simp only [e, e', false_or]
    rcases hu with rfl | rfl
    · simp only [ite_upper]; ifs
    · simp only [ite_lower]; ifs

theorem symF_tri {uplo : Uplo} {a : Nat → Nat → T} {i j : Nat} (h : inTri uplo i j) :
    symF uplo a i j = a i j := by unfold symF; rw [if_pos (Or.inr h)]

/-- **C09, syr.** `A := A + alpha x xᵀ` on the selected triangle of a symmetric matrix. -/
theorem C09_syr [Field T] {uplo : Uplo} (alpha : T) {x : VecV L} {A : MatV L}
    (hu : uplo = .Upper ∨ uplo = .Lower)
    (hA : A.Inj) (hn : A.n = A.m) (hxn : x.n = A.m) (hx : x.DisjM A) (μ : Store L T) :
    ∃ ν, syr uplo alpha x A μ = (.ok (), ν) ∧
      mat A.m A.m (symF uplo (entry ν A)) = mat A.m A.m (symF uplo (entry μ A))
        + alpha • Matrix.vecMulVec (vec A.m (ventry μ x)) (vec A.m (ventry μ x)) ∧
      SameOff A uplo μ ν := by
  obtain ⟨ν, h1, h2⟩ := wp_unit (wp_syr (alpha := alpha) (μ := μ) hu hA hn hxn hx)
  refine ⟨ν, h1, ?_, h2.sameOff (fun i j _ _ ht => by simp [ht, entry])⟩
  funext i j
  simp only [Matrix.add_apply, Matrix.smul_apply, Matrix.vecMulVec_apply, mat, vec, smul_eq_mul]
  refine symF_eq_of (H := fun i j => symF uplo (entry μ A) i j + alpha * (ventry μ x i * ventry μ x j))
    hu (fun i j => by simp only [symF_comm hu _ i j]; ring) ?_ i.2 j.2
  intro i j hi hj ht
  refine (h2.val i j hi (by omega)).trans ?_
  simp only [ht, if_true, symF_tri]; ring

/-- **C09, syr2.** `A := A + alpha x yᵀ + alpha y xᵀ` on the selected triangle. -/
theorem C09_syr2 [Field T] {uplo : Uplo} (alpha : T) {x y : VecV L} {A : MatV L}
    (hu : uplo = .Upper ∨ uplo = .Lower) (hA : A.Inj) (hn : A.n = A.m) (hxn : x.n = A.m)
    (hyn : y.n = A.m) (hx : x.DisjM A) (hy : y.DisjM A) (μ : Store L T) :
    ∃ ν, syr2 uplo alpha x y A μ = (.ok (), ν) ∧
      mat A.m A.m (symF uplo (entry ν A)) = mat A.m A.m (symF uplo (entry μ A))
        + alpha • Matrix.vecMulVec (vec A.m (ventry μ x)) (vec A.m (ventry μ y))
        + alpha • Matrix.vecMulVec (vec A.m (ventry μ y)) (vec A.m (ventry μ x)) ∧
      SameOff A uplo μ ν := by
  obtain ⟨ν, h1, h2⟩ := wp_unit (wp_syr2 (alpha := alpha) (μ := μ) hu hA hn hxn hyn hx hy)
  refine ⟨ν, h1, ?_, h2.sameOff (fun i j _ _ ht => by simp [ht, entry])⟩
  funext i j
  simp only [Matrix.add_apply, Matrix.smul_apply, Matrix.vecMulVec_apply, mat, vec, smul_eq_mul]
  refine symF_eq_of (H := fun i j => symF uplo (entry μ A) i j
    + alpha * (ventry μ x i * ventry μ y j) + alpha * (ventry μ y i * ventry μ x j))
    hu (fun i j => by simp only [symF_comm hu _ i j]; ring) ?_ i.2 j.2
  intro i j hi hj ht
  refine (h2.val i j hi (by omega)).trans ?_
  simp only [ht, if_true, symF_tri]; ring

example : (mkM 2 3 3).Inj ∧ (mkM 2 3 3).n = (mkM 2 3 3).m ∧ (mkV 0 3).n = (mkM 2 3 3).m ∧
    (mkV 1 3).n = (mkM 2 3 3).m ∧ (mkV 0 3).DisjM (mkM 2 3 3) ∧ (mkV 1 3).DisjM (mkM 2 3 3) := by
  refine ⟨?_, ?_, ?_, ?_, ?_, ?_⟩ <;> adm

theorem mulAssign_exact [Field T] (beta : Coef T) (v : T) :
    beta.mulAssign v = beta.toVal * v := by
  cases beta <;> simp [Coef.mulAssign, Coef.toVal, mul_comm]

theorem foldedF_sym (uplo : Uplo) (a : Nat → Nat → T) : foldedF id id uplo a = symF uplo a := by
  funext i j
  unfold foldedF symF
  by_cases e : i = j
  · subst e; simp
  · simp [e]

/-- **C10, hemv.** `y := alpha H x + beta y`, H the Hermitian matrix stored in the selected
triangle of `A` (only that triangle occurs in the result). -/
theorem C10_hemv [Field T] [StarRing T] [ReIm T] {uplo : Uplo} (alpha : T) {A : MatV L}
    {x y : VecV L} (beta : Coef T) {n : Nat} (h : HemvOK uplo A x y n) (μ : Store L T) :
    ∃ ν, hemv uplo alpha A x beta y μ = (.ok (), ν) ∧
      vec n (ventry ν y) = alpha • (mat n n (hermF uplo (entry μ A))).mulVec (vec n (ventry μ x))
        + beta.toVal • vec n (ventry μ y) ∧
      ∀ l, ¬ y.Owns l → ν l = μ l := by
  obtain ⟨ν, h1, h2⟩ := wp_unit (wp_hemv (alpha := alpha) (beta := beta) (μ := μ) h)
  refine ⟨ν, h1, ?_, h2.frame⟩
  rw [mat_mulVec, vec_smul, vec_smul, vec_add]
  refine vec_ext_iff.2 (fun i hi => (h2.val i (by rw [h.yn]; exact hi)).trans ?_)
  rw [hemvVal_exact _ _ _ _ _ _ h.tri hi, mulAssign_exact]
  rfl

/-- **C10, symv.** The same for a symmetric matrix. -/
theorem C10_symv [Field T] {uplo : Uplo} (alpha : T) {A : MatV L}
    {x y : VecV L} (beta : Coef T) {n : Nat} (h : HemvOK uplo A x y n) (μ : Store L T) :
    ∃ ν, symv uplo alpha A x beta y μ = (.ok (), ν) ∧
      vec n (ventry ν y) = alpha • (mat n n (symF uplo (entry μ A))).mulVec (vec n (ventry μ x))
        + beta.toVal • vec n (ventry μ y) ∧
      ∀ l, ¬ y.Owns l → ν l = μ l := by
  obtain ⟨ν, h1, h2⟩ := wp_unit (wp_symv (alpha := alpha) (beta := beta) (μ := μ) h)
  refine ⟨ν, h1, ?_, h2.frame⟩
  rw [mat_mulVec, vec_smul, vec_smul, vec_add]
  refine vec_ext_iff.2 (fun i hi => (h2.val i (by rw [h.yn]; exact hi)).trans ?_)
  rw [hemvVal_exact _ _ _ _ _ _ h.tri hi, mulAssign_exact, foldedF_sym]

example : HemvOK .Lower (mkM 0 3 3) (mkV 1 3) (mkV 2 3) 3 := by constructor <;> adm

/-- **C11.** trmv overwrites `x` by `op(A) x`, A the selected (unit) triangle. -/
theorem C11_trmv [Field T] [StarRing T] {uplo : Uplo} {trans : Op} {diag : Diag} {A : MatV L}
    {x : VecV L} {n : Nat} (h : TrvOK uplo A x n) (μ : Store L T) :
    ∃ ν, trmv uplo trans diag A x μ = (.ok (), ν) ∧
      vec n (ventry ν x) =
        (mat n n (opF trans (triF uplo diag (entry μ A)))).mulVec (vec n (ventry μ x)) ∧
      ∀ l, ¬ x.Owns l → ν l = μ l := by
  obtain ⟨ν, h1, h2⟩ := wp_unit (wp_trmv_exact (trans := trans) (diag := diag) (μ := μ) h)
  refine ⟨ν, h1, ?_, h2.frame⟩
  rw [mat_mulVec]
  exact vec_ext_iff.2 (fun i hi => h2.val i (by rw [h.xn]; exact hi))

/-- **C12.** trsv: on exit `op(A) x_out = x_in` if the used diagonal is nonzero. -/
theorem C12_trsv [Field T] [StarRing T] {uplo : Uplo} {trans : Op} {diag : Diag} {A : MatV L}
    {x : VecV L} {n : Nat} (h : TrvOK uplo A x n) (μ : Store L T)
    (hd : diag = .NonUnit → ∀ i, i < n → entry μ A i i ≠ 0) :
    ∃ ν, trsv uplo trans diag A x μ = (.ok (), ν) ∧
      (mat n n (opF trans (triF uplo diag (entry μ A)))).mulVec (vec n (ventry ν x))
        = vec n (ventry μ x) ∧
      ∀ l, ¬ x.Owns l → ν l = μ l := by
  obtain ⟨ν, h1, X, h2, h3⟩ := wp_unit (wp_trsv_exact (trans := trans) (diag := diag) (μ := μ) h hd)
  refine ⟨ν, h1, ?_, h2.frame⟩
  rw [mat_mulVec]
  refine vec_ext_iff.2 (fun i hi => ?_)
  rw [← h3 i hi]
  refine Finset.sum_congr rfl (fun l hl => ?_)
  have hl' : l < x.n := by rw [h.xn]; exact Finset.mem_range.1 hl
  rw [show ventry ν x l = X l from h2.val l hl']

example : TrvOK .Upper (mkM 0 3 3) (mkV 1 3) 3 := by constructor <;> adm
example : ∀ i, i < 3 → entry (fun _ => (2 : ℚ)) (mkM 0 3 3) i i ≠ 0 := by
  intro i _; simp [entry]

end TLA
