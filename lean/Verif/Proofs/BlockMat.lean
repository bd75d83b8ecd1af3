import Verif.Proofs.Block
import Mathlib.Algebra.Star.BigOperators

/-! Block partitions of `mat`, and the level-3 calls as matrix equations. -/

namespace TLA
variable {L T : Type}
open Finset

/-- The entries starting at `(r, c)`. -/
def sh (r c : Nat) (g : Nat → Nat → T) : Nat → Nat → T := fun i j => g (r + i) (c + j)

theorem sh_entry (μ : Store L T) (A : MatV L) (r r' c c' : Nat) :
    entry μ (A.sub r r' c c') = sh r c (entry μ A) := rfl

theorem sh_zero (g : Nat → Nat → T) : sh 0 0 g = g := by
  funext i j; simp [sh]

/-- Equality by the four blocks. -/
theorem mat_ext4 {a b c d : Nat} {g h : Nat → Nat → T} (h00 : mat a c g = mat a c h)
    (h01 : mat a d (sh 0 c g) = mat a d (sh 0 c h)) (h10 : mat b c (sh a 0 g) = mat b c (sh a 0 h))
    (h11 : mat b d (sh a c g) = mat b d (sh a c h)) : mat (a + b) (c + d) g = mat (a + b) (c + d) h := by
  rw [mat_ext_iff] at *
  intro i j hi hj
  by_cases h1 : i < a <;> by_cases h2 : j < c
  · exact h00 i j h1 h2
  · have := h01 i (j - c) h1 (by omega)
    simpa [sh, show c + (j - c) = j by omega] using this
  · have := h10 (i - a) j (by omega) h2
    simpa [sh, show a + (i - a) = i by omega] using this
  · have := h11 (i - a) (j - c) (by omega) (by omega)
    simpa [sh, show c + (j - c) = j by omega, show a + (i - a) = i by omega] using this

/-- Equality by two block rows. -/
theorem mat_ext_rows {a b n : Nat} {g h : Nat → Nat → T} (h0 : mat a n g = mat a n h)
    (h1 : mat b n (sh a 0 g) = mat b n (sh a 0 h)) : mat (a + b) n g = mat (a + b) n h := by
  rw [mat_ext_iff] at *
  intro i j hi hj
  by_cases hc : i < a
  · exact h0 i j hc hj
  · have := h1 (i - a) j (by omega) hj
    simpa [sh, show a + (i - a) = i by omega] using this

/-- Equality by two block columns. -/
theorem mat_ext_cols {a b m : Nat} {g h : Nat → Nat → T} (h0 : mat m a g = mat m a h)
    (h1 : mat m b (sh 0 a g) = mat m b (sh 0 a h)) : mat m (a + b) g = mat m (a + b) h := by
  rw [mat_ext_iff] at *
  intro i j hi hj
  by_cases hc : j < a
  · exact h0 i j hi hc
  · have := h1 i (j - a) hi (by omega)
    simpa [sh, show a + (j - a) = j by omega] using this

/-- The entries of a product. -/
def mulF [NonUnitalNonAssocSemiring T] (k : Nat) (g h : Nat → Nat → T) : Nat → Nat → T :=
  fun i j => ∑ l ∈ range k, g i l * h l j

theorem mat_mulF [NonUnitalNonAssocSemiring T] (m k n : Nat) (g h : Nat → Nat → T) :
    mat m k g * mat k n h = mat m n (mulF k g h) := mat_mul m k n g h

theorem sh_mulF [NonUnitalNonAssocSemiring T] (k r c : Nat) (g h : Nat → Nat → T) :
    sh r c (mulF k g h) = mulF k (sh r 0 g) (sh 0 c h) := by
  funext i j; simp [sh, mulF]

/-- Splitting the inner dimension. -/
theorem mat_mul_inner [NonUnitalNonAssocSemiring T] (m a b n : Nat) (g h : Nat → Nat → T) :
    mat m (a + b) g * mat (a + b) n h =
      mat m a g * mat a n h + mat m b (sh 0 a g) * mat b n (sh a 0 h) := by
  rw [mat_mul, mat_mul, mat_mul, mat_add, mat_ext_iff]
  intro i j _ _
  rw [Finset.sum_range_add]
  simp [sh]

/-- Block `(r, c)` of a product. -/
theorem mat_mul_block [NonUnitalNonAssocSemiring T] (m k n r c : Nat) (g h : Nat → Nat → T) :
    mat m n (sh r c (mulF k g h)) = mat m k (sh r 0 g) * mat k n (sh 0 c h) := by
  rw [sh_mulF, mat_mulF]

theorem sh_sh (r c r' c' : Nat) (g : Nat → Nat → T) : sh r c (sh r' c' g) = sh (r' + r) (c' + c) g := by
  funext i j; simp [sh, Nat.add_assoc]

/-- The identity. -/
def idF [Zero T] [One T] : Nat → Nat → T := fun i j => if i = j then 1 else 0

theorem mat_idF [Zero T] [One T] (n : Nat) : mat n n (idF : Nat → Nat → T) = 1 := by
  funext i j
  unfold mat idF
  by_cases h : i = j
  · subst h; simp
  · rw [if_neg (fun e => h (Fin.ext e)), Matrix.one_apply_ne h]

theorem sh_idF [Zero T] [One T] (p : Nat) : sh p p (idF : Nat → Nat → T) = idF := by
  funext i j; simp [sh, idF]

theorem mat_idF_01 [Zero T] [One T] (a b : Nat) : mat a b (sh 0 a (idF : Nat → Nat → T)) = 0 := by
  funext i j
  exact if_neg (by have := i.2; omega)

theorem mat_idF_10 [Zero T] [One T] (a b : Nat) : mat b a (sh a 0 (idF : Nat → Nat → T)) = 0 := by
  funext i j
  exact if_neg (by have := j.2; omega)

/-! ### triangles -/

theorem triF_sh [Zero T] [One T] {u : Uplo} (hu : u = .Upper ∨ u = .Lower) (d : Diag) (p : Nat)
    (g : Nat → Nat → T) : sh p p (triF u d g) = triF u d (sh p p g) := by
  funext i j
  unfold sh triF
  by_cases h : i = j
  · rw [if_pos h, if_pos (by omega)]
  · rw [if_neg h, if_neg (show ¬ p + i = p + j by omega)]
    exact if_congr (inTri_shift hu p i j) rfl rfl

theorem triU_10 [Zero T] [One T] (d : Diag) (a b : Nat) (g : Nat → Nat → T) :
    mat b a (sh a 0 (triF .Upper d g)) = 0 := by
  funext i j
  have := j.2
  show (if a + (i : Nat) = 0 + j then _ else _) = _
  rw [if_neg (by omega)]
  exact if_neg (show ¬ (a + (i : Nat) ≤ 0 + j) by omega)

theorem triU_01 [Zero T] [One T] (d : Diag) (a b : Nat) (g : Nat → Nat → T) :
    mat a b (sh 0 a (triF .Upper d g)) = mat a b (sh 0 a g) := by
  funext i j
  have := i.2
  show (if 0 + (i : Nat) = a + j then _ else _) = _
  rw [if_neg (by omega)]
  exact if_pos (show (0 + (i : Nat) ≤ a + j) by omega)

theorem triL_01 [Zero T] [One T] (d : Diag) (a b : Nat) (g : Nat → Nat → T) :
    mat a b (sh 0 a (triF .Lower d g)) = 0 := by
  funext i j
  have := i.2
  show (if 0 + (i : Nat) = a + j then _ else _) = _
  rw [if_neg (by omega)]
  exact if_neg (show ¬ (a + (j : Nat) ≤ 0 + i) by omega)

theorem triL_10 [Zero T] [One T] (d : Diag) (a b : Nat) (g : Nat → Nat → T) :
    mat b a (sh a 0 (triF .Lower d g)) = mat b a (sh a 0 g) := by
  funext i j
  have := j.2
  show (if a + (i : Nat) = 0 + j then _ else _) = _
  rw [if_neg (by omega)]
  exact if_pos (show (0 + (j : Nat) ≤ a + i) by omega)

/-- A triangular matrix with invertible diagonal is determined by its triangle. -/
theorem mat_triF_congr [Zero T] [One T] {u : Uplo} {d : Diag} {n : Nat} {g h : Nat → Nat → T}
    (hd : d = .NonUnit → ∀ i, i < n → g i i = h i i)
    (ho : ∀ i j, i < n → j < n → i ≠ j → inTri u i j → g i j = h i j) :
    mat n n (triF u d g) = mat n n (triF u d h) := by
  rw [mat_ext_iff]
  intro i j hi hj
  unfold triF
  by_cases e : i = j
  · rw [if_pos e, if_pos e]
    cases d with
    | Unit => rfl
    | NonUnit => exact hd rfl i hi
  · rw [if_neg e, if_neg e]
    by_cases ht : inTri u i j
    · rw [if_pos ht, if_pos ht, ho i j hi hj e ht]
    · rw [if_neg ht, if_neg ht]

/-- Entries of a block that was not written. -/
theorem Only.blk {A : MatV L} {μ ν : Store L T} {r0 r1 c0 c1 : Nat}
    (h : Only (A.sub r0 r1 c0 c1) μ ν) (hA : A.Inj) (hr : r1 ≤ A.m) (hc : c1 ≤ A.n) {p q r c : Nat}
    (hp : r + p ≤ A.m) (hq : c + q ≤ A.n) (ho : r + p ≤ r0 ∨ r1 ≤ r ∨ c + q ≤ c0 ∨ c1 ≤ c) :
    mat p q (sh r c (entry ν A)) = mat p q (sh r c (entry μ A)) := by
  rw [mat_ext_iff]
  intro i j hi hj
  exact h.out hA hr hc (by omega) (by omega) (by omega)

/-! ### level-3 calls -/

variable [DecidableEq L]

theorem wp_trsmL_m [Field T] [StarRing T] {uplo : Uplo} {trans : Op} {diag : Diag} {alpha : T}
    {A B : MatV L} {μ : Store L T} {m n : Nat} (hm : B.m = m) (hn : B.n = n)
    (h : TrmOK .Left uplo trans A B)
    (hd : diag = .NonUnit → ∀ i, i < m → entry μ A i i ≠ 0) :
    wp (trsm .Left uplo trans diag alpha A B) μ (fun _ ν => Only B μ ν ∧
      mat m m (opF trans (triF uplo diag (entry μ A))) * mat m n (entry ν B) =
        alpha • mat m n (entry μ B)) := by
  subst hm hn
  have hAB : A.m = B.m := h.AB
  refine wp_conseq (wp_trsmL h (fun e i hi => hd e i (by omega))) ?_
  rintro _ ν ⟨o, e⟩
  refine ⟨o, ?_⟩
  rw [mat_mul, mat_smul, mat_ext_iff]
  exact fun i j hi hj => e i j hi hj

theorem wp_trsmR_m [Field T] [StarRing T] {uplo : Uplo} {trans : Op} {diag : Diag} {alpha : T}
    {A B : MatV L} {μ : Store L T} {m n : Nat} (hm : B.m = m) (hn : B.n = n)
    (h : TrmOK .Right uplo trans A B)
    (hd : diag = .NonUnit → ∀ i, i < n → entry μ A i i ≠ 0) :
    wp (trsm .Right uplo trans diag alpha A B) μ (fun _ ν => Only B μ ν ∧
      mat m n (entry ν B) * mat n n (opF trans (triF uplo diag (entry μ A))) =
        alpha • mat m n (entry μ B)) := by
  subst hm hn
  have hAB : A.m = B.n := h.AB
  refine wp_conseq (wp_trsmR h (fun e i hi => hd e i (by omega))) ?_
  rintro _ ν ⟨o, e⟩
  refine ⟨o, ?_⟩
  rw [mat_mul, mat_smul, mat_ext_iff]
  exact fun i j hi hj => e i j hi hj

theorem wp_trmmL_m [Field T] [StarRing T] {uplo : Uplo} {trans : Op} {diag : Diag} {alpha : T}
    {A B : MatV L} {μ : Store L T} {m n : Nat} (hm : B.m = m) (hn : B.n = n)
    (h : TrmOK .Left uplo trans A B) :
    wp (trmm .Left uplo trans diag alpha A B) μ (fun _ ν => Only B μ ν ∧
      mat m n (entry ν B) =
        alpha • (mat m m (opF trans (triF uplo diag (entry μ A))) * mat m n (entry μ B))) := by
  subst hm hn
  refine wp_conseq (wp_trmmL h) ?_
  rintro _ ν ⟨o, e⟩
  refine ⟨o, ?_⟩
  rw [mat_mul, mat_smul, mat_ext_iff]
  exact fun i j hi hj => e i j hi hj

theorem wp_trmmR_m [Field T] [StarRing T] {uplo : Uplo} {trans : Op} {diag : Diag} {alpha : T}
    {A B : MatV L} {μ : Store L T} {m n : Nat} (hm : B.m = m) (hn : B.n = n)
    (h : TrmOK .Right uplo trans A B) :
    wp (trmm .Right uplo trans diag alpha A B) μ (fun _ ν => Only B μ ν ∧
      mat m n (entry ν B) =
        alpha • (mat m n (entry μ B) * mat n n (opF trans (triF uplo diag (entry μ A))))) := by
  subst hm hn
  refine wp_conseq (wp_trmmR h) ?_
  rintro _ ν ⟨o, e⟩
  refine ⟨o, ?_⟩
  rw [mat_mul, mat_smul, mat_ext_iff]
  exact fun i j hi hj => e i j hi hj

theorem wp_gemm_m [Field T] [StarRing T] {transA transB : Op} {alpha : T}
    {A B C : MatV L} {beta : Coef T} {m n k : Nat} {μ : Store L T}
    (h : GemmOK transA transB A B C m n k) :
    wp (gemm transA transB alpha A B beta C) μ (fun _ ν => Only C μ ν ∧
      mat m n (entry ν C) = alpha • (mat m k (opF transA (entry μ A)) * mat k n (opF transB (entry μ B)))
        + beta.toVal • mat m n (entry μ C)) := by
  refine wp_conseq (wp_gemm_e h) ?_
  rintro _ ν ⟨o, e⟩
  refine ⟨o, ?_⟩
  rw [mat_mul, mat_smul, mat_smul, mat_add, mat_ext_iff]
  exact fun i j hi hj => e i j (by rw [h.Cm]; exact hi) (by rw [h.Cn]; exact hj)

theorem wp_herk_m [Field T] [StarRing T] [ReIm T] [ExactScalar T] {uplo : Uplo} {trans : Op}
    {alpha : T} {A C : MatV L} {beta : Coef T} {n k : Nat} {μ : Store L T}
    (h : RankOK Op.ConjTrans uplo trans A A C n k) (hu : uplo = .Upper ∨ uplo = .Lower)
    (ha : star alpha = alpha) (hb : star beta.toVal = beta.toVal) :
    wp (herk uplo trans alpha A beta C) μ (fun _ ν => SameOff C uplo μ ν ∧
      (∀ i, i < n → star (entry ν C i i) = entry ν C i i) ∧
      mat n n (hermF uplo (entry ν C)) =
        alpha • (mat n k (opF trans (entry μ A)) * (mat n k (opF trans (entry μ A))).conjTranspose)
        + beta.toVal • mat n n (hermF uplo (entry μ C))) := by
  refine wp_conseq (wp_herk_e h hu ha) ?_
  rintro _ ν ⟨o, e⟩
  have hd : ∀ i, i < n → star (entry ν C i i) = entry ν C i i := by
    intro i hi
    rw [e i i hi hi (by rcases hu with rfl | rfl <;> exact le_refl i), if_pos rfl, star_add, star_mul',
      star_mul', ha, hb, ExactScalar.star_re, star_sum]
    congr 2
    refine Finset.sum_congr rfl (fun l _ => ?_)
    rw [star_mul', star_star, mul_comm]
  refine ⟨o, hd, ?_⟩
  rw [mat_conjTranspose, mat_mul, mat_smul, mat_smul, mat_add, mat_ext_iff]
  intro i j hi hj
  unfold hermF
  by_cases hij : i = j
  · subst hij
    rw [if_pos rfl, if_pos rfl, ExactScalar.re_of_star _ (hd i hi),
      e i i hi hi (by rcases hu with rfl | rfl <;> exact le_refl i), if_pos rfl]
  · rw [if_neg hij, if_neg hij]
    by_cases ht : inTri uplo i j
    · rw [if_pos ht, if_pos ht, e i j hi hj ht, if_neg hij]
    · have ht' : inTri uplo j i := by
        rcases hu with rfl | rfl <;> exact Nat.le_of_lt (Nat.lt_of_not_le ht)
      rw [if_neg ht, if_neg ht, e j i hj hi ht', if_neg (fun h => hij h.symm), star_add, star_mul',
        star_mul', ha, hb, star_sum]
      congr 2
      refine Finset.sum_congr rfl (fun l _ => ?_)
      rw [star_mul', star_star, mul_comm]

/-- trsm, whatever the arithmetic and the diagonal: only `B` changes, nothing is raised. -/
theorem wp_trsm_frame [Mul T] [Sub T] [Div T] [Star T] {side : Side} {uplo : Uplo} {trans : Op}
    {diag : Diag} {alpha : T} {A B : MatV L} {μ : Store L T} (h : TrmOK side uplo trans A B) :
    wp (trsm side uplo trans diag alpha A B) μ (fun _ ν => Only B μ ν) := by
  unfold trsm
  simp only [wp_bind]
  refine wp_conseq (wp_trmmChecks h) ?_
  intro _ ν hν
  rw [hν]
  have hu := h.tri
  have hop := h.hop
  have hsq := h.Am
  have hAB := h.AB
  rcases h.hside with rfl | rfl
  · simp only [if_true] at hAB ⊢
    cases trans
    · exact wp_conseq (wp_trsmLN hu h.inj h.disj (by omega) (by omega)) (fun _ _ ⟨_, h, _⟩ => h.frame)
    · exact wp_conseq (wp_trsmLT hu h.inj h.disj (by omega) (by omega)) (fun _ _ ⟨_, h, _⟩ => h.frame)
    · exact wp_conseq (wp_trsmLT hu h.inj h.disj (by omega) (by omega)) (fun _ _ ⟨_, h, _⟩ => h.frame)
    · exact absurd rfl hop
  · simp only [reduceCtorEq, if_false] at hAB ⊢
    cases trans
    · exact wp_conseq (wp_trsmRN hu h.inj h.disj (by omega) (by omega)) (fun _ _ ⟨_, h, _⟩ => h.frame)
    · exact wp_conseq (wp_trsmRT hu h.inj h.disj (by omega) (by omega)) (fun _ _ ⟨_, h, _⟩ => h.frame)
    · exact wp_conseq (wp_trsmRT hu h.inj h.disj (by omega) (by omega)) (fun _ _ ⟨_, h, _⟩ => h.frame)
    · exact absurd rfl hop

end TLA
