import Verif.Proofs.Gemm
import Verif.Proofs.Trmm
import Verif.Props.Level2

/-! # C13-C17: level-3 BLAS in exact arithmetic -/

namespace TLA
variable {L T : Type} [DecidableEq L]

/-- **C13.** gemm overwrites `C` by `alpha op(A) op(B) + beta C` and writes nothing else. -/
theorem C13_gemm [Field T] [StarRing T] {transA transB : Op} (alpha : T) {A B C : MatV L}
    (beta : Coef T) {m n k : Nat} (h : GemmOK transA transB A B C m n k) (μ : Store L T) :
    ∃ ν, gemm transA transB alpha A B beta C μ = (.ok (), ν) ∧
      mat m n (entry ν C) =
        alpha • (mat m k (opF transA (entry μ A)) * mat k n (opF transB (entry μ B)))
          + beta.toVal • mat m n (entry μ C) ∧
      ∀ l, ¬ C.Owns l → ν l = μ l := by
  obtain ⟨ν, h1, h2⟩ := wp_unit (wp_gemm_exact (alpha := alpha) (beta := beta) (μ := μ) h)
  refine ⟨ν, h1, ?_, h2.frame⟩
  rw [mat_mul, mat_smul, mat_smul, mat_add]
  exact mat_ext_iff.2 (fun i j hi hj => h2.val i j (by rw [h.Cm]; exact hi) (by rw [h.Cn]; exact hj))

example : GemmOK .ConjTrans .Trans (mkM 0 3 2) (mkM 1 4 3) (mkM 2 2 4) 2 4 3 := by
  constructor <;> adm

/-- The triangle hemm, symm and the rank-k routines read for each `uplo`
(with `General` they use the upper one). -/
def readTri (uplo : Uplo) : Uplo := if uplo = .Lower then .Lower else .Upper

theorem readTri_cases (uplo : Uplo) : readTri uplo = .Upper ∨ readTri uplo = .Lower := by
  unfold readTri; split <;> simp

/-- **C14, hemm from the left.** `C := alpha H B + beta C`. -/
theorem C14_hemm_left [Field T] [StarRing T] [ReIm T] {uplo : Uplo} (alpha : T) {A B C : MatV L}
    (beta : Coef T) (h : HemmOK .Left uplo A B C) (μ : Store L T) :
    ∃ ν, hemm .Left uplo alpha A B beta C μ = (.ok (), ν) ∧
      mat B.m B.n (entry ν C) =
        alpha • (mat B.m B.m (hermF (readTri uplo) (entry μ A)) * mat B.m B.n (entry μ B))
          + beta.toVal • mat B.m B.n (entry μ C) ∧
      ∀ l, ¬ C.Owns l → ν l = μ l := by
  obtain ⟨ν, h1, h2⟩ := wp_unit (wp_hemm (alpha := alpha) (beta := beta) (μ := μ) h)
  refine ⟨ν, h1, ?_, h2.frame⟩
  rw [mat_mul, mat_smul, mat_smul, mat_add]
  refine mat_ext_iff.2 (fun i j hi hj =>
    (h2.val i j (by rw [h.Cm]; exact hi) (by rw [h.Cn]; exact hj)).trans ?_)
  have e : A.m = B.m := h.AB
  rw [e, hemmVal_exact _ _ _ _ _ _ _ h.hside hi]
  rfl

/-- **C14, hemm from the right.** `C := alpha B H + beta C`. -/
theorem C14_hemm_right [Field T] [StarRing T] [ReIm T] {uplo : Uplo} (alpha : T) {A B C : MatV L}
    (beta : Coef T) (h : HemmOK .Right uplo A B C) (μ : Store L T) :
    ∃ ν, hemm .Right uplo alpha A B beta C μ = (.ok (), ν) ∧
      mat B.m B.n (entry ν C) =
        alpha • (mat B.m B.n (entry μ B) * mat B.n B.n (hermF (readTri uplo) (entry μ A)))
          + beta.toVal • mat B.m B.n (entry μ C) ∧
      ∀ l, ¬ C.Owns l → ν l = μ l := by
  obtain ⟨ν, h1, h2⟩ := wp_unit (wp_hemm (alpha := alpha) (beta := beta) (μ := μ) h)
  refine ⟨ν, h1, ?_, h2.frame⟩
  rw [mat_mul, mat_smul, mat_smul, mat_add]
  refine mat_ext_iff.2 (fun i j hi hj =>
    (h2.val i j (by rw [h.Cm]; exact hi) (by rw [h.Cn]; exact hj)).trans ?_)
  have e : A.m = B.n := h.AB
  rw [e, hemmVal_exact _ _ _ _ _ _ _ h.hside hj]
  rfl

/-- **C14, symm from the left.** -/
theorem C14_symm_left [Field T] {uplo : Uplo} (alpha : T) {A B C : MatV L}
    (beta : Coef T) (h : HemmOK .Left uplo A B C) (μ : Store L T) :
    ∃ ν, symm .Left uplo alpha A B beta C μ = (.ok (), ν) ∧
      mat B.m B.n (entry ν C) =
        alpha • (mat B.m B.m (symF (readTri uplo) (entry μ A)) * mat B.m B.n (entry μ B))
          + beta.toVal • mat B.m B.n (entry μ C) ∧
      ∀ l, ¬ C.Owns l → ν l = μ l := by
  obtain ⟨ν, h1, h2⟩ := wp_unit (wp_symm (alpha := alpha) (beta := beta) (μ := μ) h)
  refine ⟨ν, h1, ?_, h2.frame⟩
  rw [mat_mul, mat_smul, mat_smul, mat_add]
  refine mat_ext_iff.2 (fun i j hi hj =>
    (h2.val i j (by rw [h.Cm]; exact hi) (by rw [h.Cn]; exact hj)).trans ?_)
  have e : A.m = B.m := h.AB
  rw [e, hemmVal_exact _ _ _ _ _ _ _ h.hside hi]
  simp only [foldedF_sym]
  rfl

/-- **C14, symm from the right.** -/
theorem C14_symm_right [Field T] {uplo : Uplo} (alpha : T) {A B C : MatV L}
    (beta : Coef T) (h : HemmOK .Right uplo A B C) (μ : Store L T) :
    ∃ ν, symm .Right uplo alpha A B beta C μ = (.ok (), ν) ∧
      mat B.m B.n (entry ν C) =
        alpha • (mat B.m B.n (entry μ B) * mat B.n B.n (symF (readTri uplo) (entry μ A)))
          + beta.toVal • mat B.m B.n (entry μ C) ∧
      ∀ l, ¬ C.Owns l → ν l = μ l := by
  obtain ⟨ν, h1, h2⟩ := wp_unit (wp_symm (alpha := alpha) (beta := beta) (μ := μ) h)
  refine ⟨ν, h1, ?_, h2.frame⟩
  rw [mat_mul, mat_smul, mat_smul, mat_add]
  refine mat_ext_iff.2 (fun i j hi hj =>
    (h2.val i j (by rw [h.Cm]; exact hi) (by rw [h.Cn]; exact hj)).trans ?_)
  have e : A.m = B.n := h.AB
  rw [e, hemmVal_exact _ _ _ _ _ _ _ h.hside hj]
  simp only [foldedF_sym]
  rfl

example : HemmOK .Left .Lower (mkM 0 2 2) (mkM 1 2 5) (mkM 2 2 5) := by constructor <;> adm
example : HemmOK .Right .Upper (mkM 0 5 5) (mkM 1 2 5) (mkM 2 2 5) := by constructor <;> adm

/-! ### C15 -/

section rank
open ExactScalar
variable [Field T]

omit [DecidableEq L] in
theorem rankRes_tri {f : T → T} {uplo : Uplo} {F c : Nat → Nat → T} {i j : Nat}
    (hu : uplo = .Upper ∨ uplo = .Lower ∨ uplo = .General) (h : inTri (readTri uplo) i j) :
    rankRes f uplo F c i j = F i j := by
  unfold rankRes
  rcases hu with rfl | rfl | rfl
  · simp only [reduceCtorEq, if_false]; exact if_pos h
  · simp only [reduceCtorEq, if_false]; exact if_pos h
  · simp only [if_true]; exact if_pos h

omit [DecidableEq L] in
theorem rankRes_off {f : T → T} {uplo : Uplo} {F c : Nat → Nat → T} {i j : Nat}
    (h : ¬ inTri uplo i j) : rankRes f uplo F c i j = c i j := by
  unfold rankRes
  by_cases e : uplo = .General
  · subst e; exact absurd trivial h
  · simp only [e, if_false, h]

/-- **C15, herk.** With real `alpha`, `beta` and `C` Hermitian given by its triangle, the triangle
holds afterwards `alpha op(A) op(A)ᴴ + beta C`; the diagonal is real; cells outside the selected
triangle are unchanged; with `General` the whole of `C` is that Hermitian matrix. -/
theorem C15_herk [StarRing T] [ReIm T] [ExactScalar T] {uplo : Uplo} {trans : Op} {alpha : T}
    {A C : MatV L} {beta : Coef T} {n k : Nat} (h : RankOK .ConjTrans uplo trans A A C n k)
    (ha : star alpha = alpha) (hb : star beta.toVal = beta.toVal) (μ : Store L T) :
    ∃ ν, herk uplo trans alpha A beta C μ = (.ok (), ν) ∧
      mat n n (hermF (readTri uplo) (entry ν C)) =
        alpha • (mat n k (opF trans (entry μ A)) * (mat n k (opF trans (entry μ A))).conjTranspose)
          + beta.toVal • mat n n (hermF (readTri uplo) (entry μ C)) ∧
      (∀ i, i < n → star (entry ν C i i) = entry ν C i i) ∧
      (uplo = .General → mat n n (entry ν C) = mat n n (hermF .Upper (entry ν C))) ∧
      SameOff C uplo μ ν := by
  obtain ⟨ν, h1, h2⟩ := wp_unit (wp_herk (alpha := alpha) (beta := beta) (μ := μ) h)
  have hv : ∀ i j, i < n → j < n → entry ν C i j = _ := fun i j hi hj =>
    h2.val i j (by rw [h.Cm]; exact hi) (by rw [h.Cn]; exact hj)
  have hd : ∀ i, inTri (readTri uplo) i i := fun i => by
    rcases readTri_cases uplo with e | e <;> rw [e] <;> exact le_refl i
  have htri : ∀ i j, i < n → j < n → inTri (readTri uplo) i j → entry ν C i j =
      alpha * (∑ l ∈ Finset.range k, opF trans (entry μ A) i l * star (opF trans (entry μ A) j l)) +
        beta.toVal * hermF (readTri uplo) (entry μ C) i j := by
    intro i j hi hj ht
    rw [hv i j hi hj, rankRes_tri h.tri ht, herkVal_exact _ _ _ _ _ _ h.hop ha]
    congr 2
    unfold hermF
    by_cases e : i = j
    · simp [e]
    · simp [e, ht]
  have hdiag : ∀ i, i < n → star (entry ν C i i) = entry ν C i i := by
    intro i hi
    rw [htri i i hi hi (hd i)]
    have : hermF (readTri uplo) (entry μ C) i i = re (entry μ C i i) := by simp [hermF]
    simp only [star_add, star_mul', star_sum, star_star, this, star_re, ha, hb]
    congr 2
    exact Finset.sum_congr rfl (fun l _ => mul_comm _ _)
  refine ⟨ν, h1, ?_, hdiag, ?_, ?_⟩
  · rw [mat_conjTranspose, mat_mul, mat_smul, mat_smul, mat_add]
    refine mat_ext_iff.2 (fun i j hi hj => ?_)
    refine hermF_eq_of (H := fun i j => alpha * (∑ l ∈ Finset.range k,
        opF trans (entry μ A) i l * star (opF trans (entry μ A) j l)) +
        beta.toVal * hermF (readTri uplo) (entry μ C) i j) (readTri_cases uplo) ?_ htri hi hj
    intro i j
    simp only [star_add, star_mul', star_sum, star_star, ha, hb, hermF_star (readTri_cases uplo)]
    congr 2
    exact Finset.sum_congr rfl (fun l _ => mul_comm _ _)
  · rintro rfl
    refine mat_ext_iff.2 (fun i j hi hj => ?_)
    unfold hermF
    by_cases e : i = j
    · subst e; simp only [if_true]; exact (re_of_star _ (hdiag i hi)).symm
    · simp only [e, if_false, ite_upper]
      split
      · rfl
      · rename_i hij
        rw [hv i j hi hj, hv j i hj hi]
        simp only [rankRes, if_true]
        rw [if_neg hij, if_pos (by omega)]
  · exact h2.sameOff (fun i j _ _ ht => rankRes_off ht)

example : RankOK .ConjTrans .Lower .ConjTrans (mkM 0 4 3) (mkM 0 4 3) (mkM 2 3 3) 3 4 := by
  constructor <;> adm

/-- **C15, her2k.** The triangle holds `alpha op(A) op(B)ᴴ + conj(alpha) op(B) op(A)ᴴ + beta C`. -/
theorem C15_her2k [StarRing T] [ReIm T] [ExactScalar T] {uplo : Uplo} {trans : Op} (alpha : T)
    {A B C : MatV L} {beta : Coef T} {n k : Nat} (h : RankOK .ConjTrans uplo trans A B C n k)
    (hb : star beta.toVal = beta.toVal) (μ : Store L T) :
    ∃ ν, her2k uplo trans alpha A B beta C μ = (.ok (), ν) ∧
      mat n n (hermF (readTri uplo) (entry ν C)) =
        alpha • (mat n k (opF trans (entry μ A)) * (mat n k (opF trans (entry μ B))).conjTranspose)
        + star alpha •
          (mat n k (opF trans (entry μ B)) * (mat n k (opF trans (entry μ A))).conjTranspose)
        + beta.toVal • mat n n (hermF (readTri uplo) (entry μ C)) ∧
      (∀ i, i < n → star (entry ν C i i) = entry ν C i i) ∧
      (uplo = .General → mat n n (entry ν C) = mat n n (hermF .Upper (entry ν C))) ∧
      SameOff C uplo μ ν := by
  obtain ⟨ν, h1, h2⟩ := wp_unit (wp_her2k (alpha := alpha) (beta := beta) (μ := μ) h)
  have hv : ∀ i j, i < n → j < n → entry ν C i j = _ := fun i j hi hj =>
    h2.val i j (by rw [h.Cm]; exact hi) (by rw [h.Cn]; exact hj)
  have hd : ∀ i, inTri (readTri uplo) i i := fun i => by
    rcases readTri_cases uplo with e | e <;> rw [e] <;> exact le_refl i
  have htri : ∀ i j, i < n → j < n → inTri (readTri uplo) i j → entry ν C i j =
      alpha * (∑ l ∈ Finset.range k, opF trans (entry μ A) i l * star (opF trans (entry μ B) j l)) +
      star alpha * (∑ l ∈ Finset.range k, opF trans (entry μ B) i l * star (opF trans (entry μ A) j l)) +
        beta.toVal * hermF (readTri uplo) (entry μ C) i j := by
    intro i j hi hj ht
    rw [hv i j hi hj, rankRes_tri h.tri ht, her2kVal_exact _ _ _ _ _ _ _ h.hop]
    congr 2
    unfold hermF
    by_cases e : i = j
    · simp [e]
    · simp [e, ht]
  have hdiag : ∀ i, i < n → star (entry ν C i i) = entry ν C i i := by
    intro i hi
    rw [htri i i hi hi (hd i)]
    have : hermF (readTri uplo) (entry μ C) i i = re (entry μ C i i) := by simp [hermF]
    simp only [star_add, star_mul', star_sum, star_star, this, star_re, hb]
    rw [add_comm (star alpha * _)]
    congr 2 <;> congr 1 <;> exact Finset.sum_congr rfl (fun l _ => mul_comm _ _)
  refine ⟨ν, h1, ?_, hdiag, ?_, ?_⟩
  · rw [mat_conjTranspose, mat_mul, mat_conjTranspose, mat_mul, mat_smul, mat_smul, mat_smul,
      mat_add, mat_add]
    refine mat_ext_iff.2 (fun i j hi hj => ?_)
    refine hermF_eq_of (H := fun i j => alpha * (∑ l ∈ Finset.range k,
        opF trans (entry μ A) i l * star (opF trans (entry μ B) j l)) +
        star alpha * (∑ l ∈ Finset.range k,
        opF trans (entry μ B) i l * star (opF trans (entry μ A) j l)) +
        beta.toVal * hermF (readTri uplo) (entry μ C) i j) (readTri_cases uplo) ?_ htri hi hj
    intro i j
    simp only [star_add, star_mul', star_sum, star_star, hb, hermF_star (readTri_cases uplo)]
    rw [add_comm (star alpha * _)]
    congr 2 <;> congr 1 <;> exact Finset.sum_congr rfl (fun l _ => mul_comm _ _)
  · rintro rfl
    refine mat_ext_iff.2 (fun i j hi hj => ?_)
    unfold hermF
    by_cases e : i = j
    · subst e; simp only [if_true]; exact (re_of_star _ (hdiag i hi)).symm
    · simp only [e, if_false, ite_upper]
      split
      · rfl
      · rename_i hij
        rw [hv i j hi hj, hv j i hj hi]
        simp only [rankRes, if_true]
        rw [if_neg hij, if_pos (by omega)]
  · exact h2.sameOff (fun i j _ _ ht => rankRes_off ht)

example : RankOK .ConjTrans .Upper .NoTrans (mkM 0 3 4) (mkM 1 3 4) (mkM 2 3 3) 3 4 := by
  constructor <;> adm

/-- **C15, syrk.** The triangle holds `alpha op(A) op(A)ᵀ + beta C`, C symmetric. -/
theorem C15_syrk [StarRing T] {uplo : Uplo} {trans : Op} (alpha : T)
    {A C : MatV L} (beta : Coef T) {n k : Nat} (h : RankOK .Trans uplo trans A A C n k)
    (μ : Store L T) :
    ∃ ν, syrk uplo trans alpha A beta C μ = (.ok (), ν) ∧
      mat n n (symF (readTri uplo) (entry ν C)) =
        alpha • (mat n k (opF trans (entry μ A)) * (mat n k (opF trans (entry μ A))).transpose)
          + beta.toVal • mat n n (symF (readTri uplo) (entry μ C)) ∧
      (uplo = .General → mat n n (entry ν C) = mat n n (symF .Upper (entry ν C))) ∧
      SameOff C uplo μ ν := by
  obtain ⟨ν, h1, h2⟩ := wp_unit (wp_syrk (alpha := alpha) (beta := beta) (μ := μ) h)
  have hv : ∀ i j, i < n → j < n → entry ν C i j = _ := fun i j hi hj =>
    h2.val i j (by rw [h.Cm]; exact hi) (by rw [h.Cn]; exact hj)
  have htri : ∀ i j, i < n → j < n → inTri (readTri uplo) i j → entry ν C i j =
      alpha * (∑ l ∈ Finset.range k, opF trans (entry μ A) i l * opF trans (entry μ A) j l) +
        beta.toVal * symF (readTri uplo) (entry μ C) i j := by
    intro i j hi hj ht
    rw [hv i j hi hj, rankRes_tri h.tri ht, syrkVal_exact _ _ _ _ _ _ h.hop, symF_tri ht]
  refine ⟨ν, h1, ?_, ?_, ?_⟩
  · rw [mat_transpose, mat_mul, mat_smul, mat_smul, mat_add]
    refine mat_ext_iff.2 (fun i j hi hj => ?_)
    refine symF_eq_of (H := fun i j => alpha * (∑ l ∈ Finset.range k,
        opF trans (entry μ A) i l * opF trans (entry μ A) j l) +
        beta.toVal * symF (readTri uplo) (entry μ C) i j) (readTri_cases uplo) ?_ htri hi hj
    intro i j
    simp only [symF_comm (readTri_cases uplo) _ i j]
    congr 2
    exact Finset.sum_congr rfl (fun l _ => mul_comm _ _)
  · rintro rfl
    refine mat_ext_iff.2 (fun i j hi hj => ?_)
    unfold symF
    split
    · rfl
    · rename_i hij
      have hij : ¬ (i = j ∨ i ≤ j) := hij
      rw [hv i j hi hj, hv j i hj hi]
      simp only [rankRes, if_true, id]
      rw [if_neg (by omega), if_pos (by omega)]
  · exact h2.sameOff (fun i j _ _ ht => rankRes_off ht)

/-- **C15, syr2k.** The triangle holds `alpha op(A) op(B)ᵀ + alpha op(B) op(A)ᵀ + beta C`. -/
theorem C15_syr2k [StarRing T] {uplo : Uplo} {trans : Op} (alpha : T)
    {A B C : MatV L} (beta : Coef T) {n k : Nat} (h : RankOK .Trans uplo trans A B C n k)
    (μ : Store L T) :
    ∃ ν, syr2k uplo trans alpha A B beta C μ = (.ok (), ν) ∧
      mat n n (symF (readTri uplo) (entry ν C)) =
        alpha • (mat n k (opF trans (entry μ A)) * (mat n k (opF trans (entry μ B))).transpose)
        + alpha • (mat n k (opF trans (entry μ B)) * (mat n k (opF trans (entry μ A))).transpose)
        + beta.toVal • mat n n (symF (readTri uplo) (entry μ C)) ∧
      (uplo = .General → mat n n (entry ν C) = mat n n (symF .Upper (entry ν C))) ∧
      SameOff C uplo μ ν := by
  obtain ⟨ν, h1, h2⟩ := wp_unit (wp_syr2k (alpha := alpha) (beta := beta) (μ := μ) h)
  have hv : ∀ i j, i < n → j < n → entry ν C i j = _ := fun i j hi hj =>
    h2.val i j (by rw [h.Cm]; exact hi) (by rw [h.Cn]; exact hj)
  have htri : ∀ i j, i < n → j < n → inTri (readTri uplo) i j → entry ν C i j =
      alpha * (∑ l ∈ Finset.range k, opF trans (entry μ A) i l * opF trans (entry μ B) j l) +
      alpha * (∑ l ∈ Finset.range k, opF trans (entry μ B) i l * opF trans (entry μ A) j l) +
        beta.toVal * symF (readTri uplo) (entry μ C) i j := by
    intro i j hi hj ht
    rw [hv i j hi hj, rankRes_tri h.tri ht, syr2kVal_exact _ _ _ _ _ _ _ h.hop, symF_tri ht]
  refine ⟨ν, h1, ?_, ?_, ?_⟩
  · rw [mat_transpose, mat_mul, mat_transpose, mat_mul, mat_smul, mat_smul, mat_smul, mat_add, mat_add]
    refine mat_ext_iff.2 (fun i j hi hj => ?_)
    refine symF_eq_of (H := fun i j => alpha * (∑ l ∈ Finset.range k,
        opF trans (entry μ A) i l * opF trans (entry μ B) j l) +
        alpha * (∑ l ∈ Finset.range k, opF trans (entry μ B) i l * opF trans (entry μ A) j l) +
        beta.toVal * symF (readTri uplo) (entry μ C) i j) (readTri_cases uplo) ?_ htri hi hj
    intro i j
    simp only [symF_comm (readTri_cases uplo) _ i j]
    rw [add_comm (alpha * _) (alpha * _)]
    congr 2 <;> congr 1 <;> exact Finset.sum_congr rfl (fun l _ => mul_comm _ _)
  · rintro rfl
    refine mat_ext_iff.2 (fun i j hi hj => ?_)
    unfold symF
    split
    · rfl
    · rename_i hij
      have hij : ¬ (i = j ∨ i ≤ j) := hij
      rw [hv i j hi hj, hv j i hj hi]
      simp only [rankRes, if_true, id]
      rw [if_neg (by omega), if_pos (by omega)]
  · exact h2.sameOff (fun i j _ _ ht => rankRes_off ht)

example : RankOK .Trans .General .Trans (mkM 0 4 3) (mkM 1 4 3) (mkM 2 3 3) 3 4 := by
  constructor <;> adm

end rank

/-! ### C16, C17 -/

/-- **C16, from the left.** trmm: `B := alpha op(A) B`. -/
theorem C16_trmm_left [Field T] [StarRing T] {uplo : Uplo} {trans : Op} {diag : Diag} (alpha : T)
    {A B : MatV L} (h : TrmOK .Left uplo trans A B) (μ : Store L T) :
    ∃ ν, trmm .Left uplo trans diag alpha A B μ = (.ok (), ν) ∧
      mat B.m B.n (entry ν B) =
        alpha • (mat B.m B.m (opF trans (triF uplo diag (entry μ A))) * mat B.m B.n (entry μ B)) ∧
      ∀ l, ¬ B.Owns l → ν l = μ l := by
  obtain ⟨ν, h1, h2⟩ := wp_unit (wp_trmm_exact (diag := diag) (alpha := alpha) (μ := μ) h)
  refine ⟨ν, h1, ?_, h2.frame⟩
  have e : A.m = B.m := h.AB
  rw [mat_mul, mat_smul, ← e]
  exact mat_ext_iff.2 (fun i j hi hj => h2.val i j (by omega) hj)

/-- **C16, from the right.** trmm: `B := alpha B op(A)`. -/
theorem C16_trmm_right [Field T] [StarRing T] {uplo : Uplo} {trans : Op} {diag : Diag} (alpha : T)
    {A B : MatV L} (h : TrmOK .Right uplo trans A B) (μ : Store L T) :
    ∃ ν, trmm .Right uplo trans diag alpha A B μ = (.ok (), ν) ∧
      mat B.m B.n (entry ν B) =
        alpha • (mat B.m B.n (entry μ B) * mat B.n B.n (opF trans (triF uplo diag (entry μ A)))) ∧
      ∀ l, ¬ B.Owns l → ν l = μ l := by
  obtain ⟨ν, h1, h2⟩ := wp_unit (wp_trmm_exact (diag := diag) (alpha := alpha) (μ := μ) h)
  refine ⟨ν, h1, ?_, h2.frame⟩
  have e : A.m = B.n := h.AB
  rw [mat_mul, mat_smul, ← e]
  exact mat_ext_iff.2 (fun i j hi hj => h2.val i j hi (by omega))

/-- **C17, from the left.** trsm: `op(A) X = alpha B`, X what `B` holds on exit. -/
theorem C17_trsm_left [Field T] [StarRing T] {uplo : Uplo} {trans : Op} {diag : Diag} (alpha : T)
    {A B : MatV L} (h : TrmOK .Left uplo trans A B) (μ : Store L T)
    (hd : diag = .NonUnit → ∀ i, i < A.m → entry μ A i i ≠ 0) :
    ∃ ν, trsm .Left uplo trans diag alpha A B μ = (.ok (), ν) ∧
      mat B.m B.m (opF trans (triF uplo diag (entry μ A))) * mat B.m B.n (entry ν B) =
        alpha • mat B.m B.n (entry μ B) ∧
      ∀ l, ¬ B.Owns l → ν l = μ l := by
  obtain ⟨ν, h1, X, h2, h3⟩ := wp_unit (wp_trsm_exact (alpha := alpha) h hd)
  refine ⟨ν, h1, ?_, h2.frame⟩
  have e : A.m = B.m := h.AB
  rw [mat_mul, mat_smul]
  refine mat_ext_iff.2 (fun i j hi hj => ?_)
  rw [← h3 i j hi hj, e]
  refine Finset.sum_congr rfl (fun l hl => ?_)
  rw [show entry ν B l j = X l j from h2.val l j (Finset.mem_range.1 hl) hj]

/-- **C17, from the right.** trsm: `X op(A) = alpha B`. -/
theorem C17_trsm_right [Field T] [StarRing T] {uplo : Uplo} {trans : Op} {diag : Diag} (alpha : T)
    {A B : MatV L} (h : TrmOK .Right uplo trans A B) (μ : Store L T)
    (hd : diag = .NonUnit → ∀ i, i < A.m → entry μ A i i ≠ 0) :
    ∃ ν, trsm .Right uplo trans diag alpha A B μ = (.ok (), ν) ∧
      mat B.m B.n (entry ν B) * mat B.n B.n (opF trans (triF uplo diag (entry μ A))) =
        alpha • mat B.m B.n (entry μ B) ∧
      ∀ l, ¬ B.Owns l → ν l = μ l := by
  obtain ⟨ν, h1, X, h2, h3⟩ := wp_unit (wp_trsm_exact (alpha := alpha) h hd)
  refine ⟨ν, h1, ?_, h2.frame⟩
  have e : A.m = B.n := h.AB
  rw [mat_mul, mat_smul]
  refine mat_ext_iff.2 (fun i j hi hj => ?_)
  rw [← h3 i j hi hj, e]
  refine Finset.sum_congr rfl (fun l hl => ?_)
  rw [show entry ν B i l = X i l from h2.val i l hi (Finset.mem_range.1 hl)]

example : TrmOK .Left .Lower .ConjTrans (mkM 0 3 3) (mkM 1 3 5) := by constructor <;> adm
example : TrmOK .Right .Upper .Trans (mkM 0 5 5) (mkM 1 3 5) := by constructor <;> adm

end TLA
