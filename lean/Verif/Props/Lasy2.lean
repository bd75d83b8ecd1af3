import Verif.Proofs.Lasy2

set_option linter.unusedVariables false
set_option linter.unusedSimpArgs false

/-! C94: lasy2. -/

namespace TLA.Kernel
open Finset Matrix

/-- The 2 by 2 matrix with the given elements. -/
def mat2 (A : Nat → Nat → ℝ) : Matrix (Fin 2) (Fin 2) ℝ := Matrix.of fun i j => A i j

/-- `op(T) = T or T**T` as documented. -/
def op2 (t : Op) (M : Matrix (Fin 2) (Fin 2) ℝ) : Matrix (Fin 2) (Fin 2) ℝ := if t = .Trans then Mᵀ else M

/-- The Sylvester operator `X ↦ A X + sgn X B` with its coefficients perturbed by `E`:  `E i j k l` is the change of the
coefficient of `X k l` in the equation for the element `(i, j)`. -/
def sylv (A B : Matrix (Fin 2) (Fin 2) ℝ) (sgn : ℝ) (E : Fin 2 → Fin 2 → Fin 2 → Fin 2 → ℝ) (X : Matrix (Fin 2) (Fin 2) ℝ) : Matrix (Fin 2) (Fin 2) ℝ :=
  A * X + sgn • (X * B) + Matrix.of fun i j => ∑ k, ∑ l, E i j k l * X k l

/-- Column-major numbering of the unknowns. -/
def la2Idx (i j : Fin 2) : Fin 4 := if j = 0 then (if i = 0 then 0 else 1) else (if i = 0 then 2 else 3)

/-- The matrix with the given elements in column-major order. -/
def la2Mat (z : Fin 4 → ℝ) : Matrix (Fin 2) (Fin 2) ℝ := Matrix.of fun i j => z (la2Idx i j)

theorem la2Kron_sylv (tl tr : Op) (sgn : ℝ) (TL TR : Nat → Nat → ℝ) (E : Fin 4 → Fin 4 → ℝ) (z : Fin 4 → ℝ) (i j : Fin 2) :
    sylv (op2 tl (mat2 TL)) (op2 tr (mat2 TR)) sgn (fun i j k l => E (la2Idx i j) (la2Idx k l)) (la2Mat z) i j
      = ∑ k, (la2Kron tl tr sgn TL TR (la2Idx i j) k + E (la2Idx i j) k) * z k := by
  by_cases h1 : tl = .Trans <;> by_cases h2 : tr = .Trans <;>
    simp only [sylv, op2, h1, h2, if_true, if_false, mat2, la2Mat, Matrix.add_apply, Matrix.smul_apply, Matrix.mul_apply, Matrix.of_apply,
      Fin.sum_univ_two, Fin.sum_univ_four, Matrix.transpose_apply, smul_eq_mul] <;>
    fin_cases i <;> fin_cases j <;>
    simp [la2Idx, la2Kron, h1, h2] <;> ring

theorem la2Mat_ne {z : Fin 4 → ℝ} (h : z ≠ 0) : la2Mat z ≠ 0 := by
  intro h0
  refine h (funext fun k => ?_)
  have a := congrFun (congrFun h0 0) 0
  have b := congrFun (congrFun h0 1) 0
  have c := congrFun (congrFun h0 0) 1
  have d := congrFun (congrFun h0 1) 1
  fin_cases k
  · simpa [la2Mat, la2Idx] using a
  · simpa [la2Mat, la2Idx] using b
  · simpa [la2Mat, la2Idx] using c
  · simpa [la2Mat, la2Idx] using d

/-- For 2 by 2 matrices, with `small > 0` the smallest useful number, `lasy2` divides by nonzero numbers only.  It solves the
documented equation exactly if it returns 0; in general it solves a system whose coefficients differ by at most `2 smin`,
`smin` being the larger of `small` and `eps` times the largest element of `TL` and `TR`.  It returns 1 only if a change of the
coefficients below `smin` makes the equation singular.  `scale` is in (0, 1] and `xnorm` is the infinity norm of `X`. -/
theorem C94_lasy2_22 {eps small : ℝ} (hs : 0 < small) (tl tr : Op) (sgn : ℝ) (TL TR B X0 : Nat → Nat → ℝ) :
    ∃ o E, lasy2 eps small tl tr sgn 2 2 TL TR B X0 = some (.ok o) ∧ (o.info = 0 ∨ o.info = 1) ∧ 0 < o.scale ∧ o.scale ≤ 1 ∧
      o.xnorm = max (|mat2 o.X 0 0| + |mat2 o.X 0 1|) (|mat2 o.X 1 0| + |mat2 o.X 1 1|) ∧
      sylv (op2 tl (mat2 TL)) (op2 tr (mat2 TR)) sgn E (mat2 o.X) = o.scale • mat2 B ∧
      (∀ i j k l, |E i j k l| ≤ 2 * la2Smin eps small TL TR) ∧ (o.info = 0 → E = 0) ∧
      (o.info = 1 → ∃ E' X, (∀ i j k l, |E' i j k l| < la2Smin eps small TL TR) ∧ X ≠ 0 ∧
        sylv (op2 tl (mat2 TL)) (op2 tr (mat2 TR)) sgn E' X = 0) := by
  have hle : small ≤ la2Smin eps small TL TR := le_max_right _ _
  have hsm := lt_of_lt_of_le hs hle
  obtain ⟨q0, s1, e1, i1, p1, _⟩ := la2Step_spec (K := la2Kron tl tr sgn TL TR) (i := 0) hsm
    (la2Inv_init (b0 := ![B 0 0, B 1 0, B 0 1, B 1 1]) (fun _ => 0))
  obtain ⟨q1, s2, e2, i2, p2, r2⟩ := la2Step_spec (i := 1) hsm i1
  obtain ⟨q2, s3, e3, i3, p3, r3⟩ := la2Step_spec (i := 2) hsm i2
  obtain ⟨o, z, E, e4, hi, h0, h1, hx, hX, hE, hE0, hsol, hsing⟩ := la2Finish_spec hs hle i3 (fun k => by
    rw [p3, r3 1 (by decide), p2, r3 0 (by decide), r2 0 (by decide), p1]; rfl)
  have hXm : mat2 o.X = la2Mat z := by
    rw [hX]
    ext i j
    fin_cases i <;> fin_cases j <;> simp [mat2, la2Mat, la2Idx]
  refine ⟨o, fun i j k l => E (la2Idx i j) (la2Idx k l), ?_, hi, h0, h1, ?_, ?_, fun i j k l => hE _ _, fun h => ?_, fun h => ?_⟩
  · unfold lasy2
    rw [if_neg (by omega), if_neg (by omega), if_neg (by omega), if_pos ⟨rfl, rfl⟩]
    simp only [e1, e2, e3, e4, Option.bind_eq_bind, Option.bind_some]
    rfl
  · rw [hXm, hx]; rfl
  · rw [hXm]
    ext i j
    rw [la2Kron_sylv, hsol]
    fin_cases i <;> fin_cases j <;> simp [mat2, la2Idx]
  · funext i j k l
    exact hE0 h _ _
  · obtain ⟨E', z', a, b, c⟩ := hsing (by omega)
    refine ⟨fun i j k l => E' (la2Idx i j) (la2Idx k l), la2Mat z', fun i j k l => a _ _, la2Mat_ne b, ?_⟩
    ext i j
    rw [la2Kron_sylv, c]; rfl

/-- Order one: the equation is solved exactly and 0 returned unless `TL + sgn TR` is below `small`, in which case it is
replaced by `small` and 1 returned. -/
theorem C94_lasy2_11 {eps small : ℝ} (hs : 0 < small) (tl tr : Op) (sgn : ℝ) (TL TR B X0 : Nat → Nat → ℝ) :
    ∃ o, lasy2 eps small tl tr sgn 1 1 TL TR B X0 = some (.ok o) ∧ 0 < o.scale ∧ o.scale ≤ 1 ∧ o.xnorm = |o.X 0 0| ∧
      ((o.info = 0 ∧ small ≤ |TL 0 0 + sgn * TR 0 0| ∧ TL 0 0 * o.X 0 0 + sgn * (o.X 0 0 * TR 0 0) = o.scale * B 0 0) ∨
       (o.info = 1 ∧ |TL 0 0 + sgn * TR 0 0| < small ∧ small * o.X 0 0 = o.scale * B 0 0)) := by
  unfold lasy2 la2One
  rw [if_neg (by omega), if_pos ⟨rfl, rfl⟩]
  obtain ⟨τ, hτ⟩ : ∃ τ, τ = TL 0 0 + sgn * TR 0 0 := ⟨_, rfl⟩
  rw [← hτ]
  have hsc : ∀ bet : ℝ, small ≤ bet → ∃ s, (if small * |B 0 0| > bet then dv 1 |B 0 0| else pure 1 : Option ℝ) = some s ∧ 0 < s ∧ s ≤ 1 := by
    intro bet hb
    by_cases h : small * |B 0 0| > bet
    · have h1 : small * 1 < small * |B 0 0| := by linarith
      have h2 := lt_of_mul_lt_mul_left h1 hs.le
      refine ⟨1 / |B 0 0|, ?_, by positivity, ?_⟩
      · rw [if_pos h]; unfold dv; rw [if_neg (by linarith)]
      · rw [div_le_one (by linarith)]; exact h2.le
    · exact ⟨1, by rw [if_neg h]; rfl, one_pos, le_refl _⟩
  by_cases hc : |τ| < small
  · obtain ⟨s, e, h0, h1⟩ := hsc small (le_refl _)
    refine ⟨⟨1, s, |B 0 0 * s / small|, fun _ _ => B 0 0 * s / small⟩, ?_, h0, h1, rfl, Or.inr ⟨rfl, hc, ?_⟩⟩
    · simp only [hc, if_true, e, Option.bind_eq_bind, Option.bind_some]
      unfold dv; rw [if_neg hs.ne']; rfl
    · dsimp only; field_simp
  · obtain ⟨s, e, h0, h1⟩ := hsc |τ| (not_lt.1 hc)
    have hne : τ ≠ 0 := fun h => hc (by rw [h, abs_zero]; exact hs)
    refine ⟨⟨0, s, |B 0 0 * s / τ|, fun _ _ => B 0 0 * s / τ⟩, ?_, h0, h1, rfl, Or.inl ⟨rfl, not_lt.1 hc, ?_⟩⟩
    · simp only [hc, if_false, e, Option.bind_eq_bind, Option.bind_some]
      unfold dv; rw [if_neg hne]; rfl
    · dsimp only
      have : TL 0 0 * (B 0 0 * s / τ) + sgn * (B 0 0 * s / τ * TR 0 0) = τ * (B 0 0 * s / τ) := by rw [hτ]; ring
      rw [this]; field_simp

/-- Empty matrices: `X` is left alone, `scale = 1`, `xnorm = 0`. -/
theorem C94_lasy2_empty (eps small : ℝ) (tl tr : Op) (sgn : ℝ) {n1 n2 : Nat} (h : n1 = 0 ∨ n2 = 0) (TL TR B X0 : Nat → Nat → ℝ) :
    lasy2 eps small tl tr sgn n1 n2 TL TR B X0 = some (.ok ⟨0, 1, 0, X0⟩) := by
  unfold lasy2
  rw [if_pos h]

/-- Violated: the documentation promises `1 <= n1, n2 <= 2`, but the mixed sizes end in an exception. -/
theorem C94_mixed_violated (eps small : ℝ) (tl tr : Op) (sgn : ℝ) {n1 n2 : Nat} (h : (n1 = 2 ∧ n2 = 1) ∨ (n1 = 1 ∧ n2 = 2)) (TL TR B X0 : Nat → Nat → ℝ) :
    lasy2 eps small tl tr sgn n1 n2 TL TR B X0 = some (.error ()) := by
  unfold lasy2
  rw [if_neg (by omega), if_neg (by omega), if_pos h]

/-- Violated: a conjugate transposition, which for real matrices is the transposition, is silently treated as no transposition;
so whenever `lasy2` returns 0, the solution is that for `TL`. -/
theorem C94_conjtrans_violated {eps small : ℝ} (hs : 0 < small) (sgn : ℝ) (TL TR B X0 : Nat → Nat → ℝ) :
    ∃ o, lasy2 eps small .ConjTrans .ConjTrans sgn 2 2 TL TR B X0 = some (.ok o) ∧
      (o.info = 0 → mat2 TL * mat2 o.X + sgn • (mat2 o.X * mat2 TR) = o.scale • mat2 B) := by
  obtain ⟨o, E, e, _, _, _, _, hsol, _, hE, _⟩ := C94_lasy2_22 (eps := eps) hs .ConjTrans .ConjTrans sgn TL TR B X0
  refine ⟨o, e, fun h => ?_⟩
  rw [← hsol, hE h]
  ext i j
  simp [sylv, op2]

/-- The equation `I X - X (3 I) = B` is well conditioned, so `lasy2` solves it exactly (here with `eps = 0`, `small = 1/8`). -/
example (B : Nat → Nat → ℝ) : ∃ o, lasy2 0 (1 / 8) .NoTrans .NoTrans (-1) 2 2 (fun i j => if i = j then 1 else 0)
    (fun i j => if i = j then 3 else 0) B (fun _ _ => 0) = some (.ok o) ∧ o.info = 0 ∧ (-2 : ℝ) • mat2 o.X = o.scale • mat2 B := by
  obtain ⟨o, E, e, hi, _, _, _, hsol, _, hE, hsing⟩ := C94_lasy2_22 (eps := 0) (small := 1 / 8) (by norm_num) .NoTrans .NoTrans (-1)
    (fun i j => if i = j then 1 else 0) (fun i j => if i = j then 3 else 0) B (fun _ _ => 0)
  have h0 : o.info = 0 := by
    rcases hi with h | h
    · exact h
    · exfalso
      obtain ⟨E', X, hE', hX, heq⟩ := hsing h
      have hsm : la2Smin 0 (1 / 8) (fun i j => if i = j then 1 else 0) (fun i j => if i = j then 3 else 0) = 1 / 8 := by
        simp [la2Smin]
      rw [hsm] at hE'
      obtain ⟨M, hM⟩ : ∃ M, M = |X 0 0| + |X 0 1| + |X 1 0| + |X 1 1| := ⟨_, rfl⟩
      have key : ∀ i j, 2 * |X i j| ≤ 1 / 8 * M := by
        intro i j
        have h2 := congrFun (congrFun heq i) j
        have h3 : 2 * X i j = ∑ k, ∑ l, E' i j k l * X k l := by
          simp only [sylv, op2, mat2, Matrix.add_apply, Matrix.smul_apply, Matrix.mul_apply, Matrix.of_apply, Fin.sum_univ_two, Matrix.zero_apply,
            smul_eq_mul] at h2 ⊢
          fin_cases i <;> fin_cases j <;> simp at h2 ⊢ <;> linarith
        have h4 : ∀ k l, |E' i j k l * X k l| ≤ 1 / 8 * |X k l| := fun k l => by
          rw [abs_mul]; exact mul_le_mul_of_nonneg_right (hE' i j k l).le (abs_nonneg _)
        have h5 : |2 * X i j| ≤ 1 / 8 * M := by
          rw [h3, hM]
          simp only [Fin.sum_univ_two]
          refine (abs_add_le _ _).trans ?_
          have a1 := abs_add_le (E' i j 0 0 * X 0 0) (E' i j 0 1 * X 0 1)
          have a2 := abs_add_le (E' i j 1 0 * X 1 0) (E' i j 1 1 * X 1 1)
          have := h4 0 0; have := h4 0 1; have := h4 1 0; have := h4 1 1
          linarith
        rwa [abs_mul, abs_of_pos (by norm_num : (0 : ℝ) < 2)] at h5
      have hM0 : M = 0 := by
        have := key 0 0; have := key 0 1; have := key 1 0; have := key 1 1
        have : 0 ≤ M := by rw [hM]; positivity
        linarith
      refine hX (Matrix.ext fun i j => ?_)
      have := key i j
      rw [hM0] at this
      have h6 := abs_nonneg (X i j)
      exact abs_eq_zero.1 (by linarith)
  refine ⟨o, e, h0, ?_⟩
  rw [← hsol, hE h0]
  ext i j
  simp only [sylv, op2, mat2, Matrix.add_apply, Matrix.smul_apply, Matrix.mul_apply, Matrix.of_apply, Fin.sum_univ_two, smul_eq_mul]
  fin_cases i <;> fin_cases j <;> simp <;> ring

end TLA.Kernel
