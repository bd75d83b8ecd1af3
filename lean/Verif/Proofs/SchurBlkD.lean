import Mathlib.Data.Real.Basic
import Mathlib.Data.Matrix.Mul
import Mathlib.LinearAlgebra.Matrix.Trace
import Mathlib.LinearAlgebra.Matrix.Charpoly.Coeff
import Mathlib.LinearAlgebra.Matrix.NonsingularInverse
import Mathlib.Tactic.LinearCombination

set_option linter.unusedTactic false
set_option linter.unusedSectionVars false
set_option linter.unusedVariables false
set_option linter.unreachableTactic false
set_option linter.unusedSimpArgs false

/-! schur_swap for real matrices: the algebra of the exchange. -/

namespace TLA.SwAlg
open Matrix Finset

variable {l : Nat} {H M : Matrix (Fin l) (Fin l) ℝ}

theorem rowfix (hH : H * Hᵀ = 1) {t : ℝ} {i : Fin l} (h : ∀ c, (H * M) i c = t * H i c) (c : Fin l) :
    (H * M * Hᵀ) i c = if i = c then t else 0 := by
  rw [Matrix.mul_apply]
  simp only [h, Matrix.transpose_apply]
  have := congrFun (congrFun hH i) c
  rw [Matrix.mul_apply, Matrix.one_apply] at this
  simp only [Matrix.transpose_apply] at this
  rw [show (∑ j, t * H i j * H c j) = t * ∑ j, H i j * H c j by rw [mul_sum]; exact sum_congr rfl fun _ _ => by ring, this]
  split <;> simp

theorem colfix (hH : H * Hᵀ = 1) {t : ℝ} {i : Fin l} (h : ∀ r, (M * Hᵀ) r i = t * H i r) (r : Fin l) :
    (H * M * Hᵀ) r i = if r = i then t else 0 := by
  have := rowfix (M := Mᵀ) hH (t := t) (i := i) (fun c => by
    rw [← h c, show M * Hᵀ = (H * Mᵀ)ᵀ by simp, Matrix.transpose_apply]) r
  rw [show H * M * Hᵀ = (H * Mᵀ * Hᵀ)ᵀ by simp [Matrix.mul_assoc], Matrix.transpose_apply, this]
  exact if_congr eq_comm rfl rfl

theorem tr1 (hH : H * Hᵀ = 1) : (H * M * Hᵀ).trace = M.trace := by
  have h' := mul_eq_one_comm.1 hH
  rw [Matrix.trace_mul_comm, ← Matrix.mul_assoc, h', Matrix.one_mul]

theorem tr2 (hH : H * Hᵀ = 1) : (H * M * Hᵀ * (H * M * Hᵀ)).trace = (M * M).trace := by
  have h' := mul_eq_one_comm.1 hH
  rw [show H * M * Hᵀ * (H * M * Hᵀ) = H * (M * (Hᵀ * H) * M) * Hᵀ by simp only [Matrix.mul_assoc], h', Matrix.mul_one, tr1 hH]

theorem charpoly2 {X Y : Matrix (Fin 2) (Fin 2) ℝ} (h1 : X 0 0 + X 1 1 = Y 0 0 + Y 1 1)
    (h2 : X 0 0 ^ 2 + 2 * (X 0 1 * X 1 0) + X 1 1 ^ 2 = Y 0 0 ^ 2 + 2 * (Y 0 1 * Y 1 0) + Y 1 1 ^ 2) : X.charpoly = Y.charpoly := by
  rw [Matrix.charpoly_fin_two, Matrix.charpoly_fin_two, Matrix.trace_fin_two, Matrix.trace_fin_two, h1, Matrix.det_fin_two, Matrix.det_fin_two,
    show X 0 0 * X 1 1 - X 0 1 * X 1 0 = Y 0 0 * Y 1 1 - Y 0 1 * Y 1 0 by
      linear_combination (1 / 2) * (X 0 0 + X 1 1 + Y 0 0 + Y 1 1) * h1 - (1 / 2) * h2]

theorem trsq3 (K : Matrix (Fin 3) (Fin 3) ℝ) : (K * K).trace = K 0 0 ^ 2 + K 1 1 ^ 2 + K 2 2 ^ 2 + 2 * (K 0 1 * K 1 0) + 2 * (K 0 2 * K 2 0) + 2 * (K 1 2 * K 2 1) := by
  simp only [Matrix.trace, Matrix.diag_apply, Matrix.mul_apply, Fin.sum_univ_three]
  ring

theorem trsq4 (K : Matrix (Fin 4) (Fin 4) ℝ) : (K * K).trace = K 0 0 ^ 2 + K 1 1 ^ 2 + K 2 2 ^ 2 + K 3 3 ^ 2 + 2 * (K 0 1 * K 1 0) + 2 * (K 0 2 * K 2 0) + 2 * (K 0 3 * K 3 0)
    + 2 * (K 1 2 * K 2 1) + 2 * (K 1 3 * K 3 1) + 2 * (K 2 3 * K 3 2) := by
  simp only [Matrix.trace, Matrix.diag_apply, Matrix.mul_apply, Fin.sum_univ_four]
  ring

theorem trd3 (K : Matrix (Fin 3) (Fin 3) ℝ) : K.trace = K 0 0 + K 1 1 + K 2 2 := by
  simp [Matrix.trace, Fin.sum_univ_three]

theorem trd4 (K : Matrix (Fin 4) (Fin 4) ℝ) : K.trace = K 0 0 + K 1 1 + K 2 2 + K 3 3 := by
  simp [Matrix.trace, Fin.sum_univ_four]

/-- One block of order one, then one of order two. -/
theorem case12 {H M : Matrix (Fin 3) (Fin 3) ℝ} (hH : H * Hᵀ = 1) (m1 : M 1 0 = 0) (m2 : M 2 0 = 0)
    (h1 : H.mulVec (fun k => M k 1 - if k = 1 then M 0 0 else 0) 2 = 0) (h2 : H.mulVec (fun k => M k 2 - if k = 2 then M 0 0 else 0) 2 = 0) :
    let K := H * M * Hᵀ
    K 2 0 = 0 ∧ K 2 1 = 0 ∧ K 2 2 = M 0 0 ∧ K 0 0 + K 1 1 = M 1 1 + M 2 2 ∧
      K 0 0 ^ 2 + 2 * (K 0 1 * K 1 0) + K 1 1 ^ 2 = M 1 1 ^ 2 + 2 * (M 1 2 * M 2 1) + M 2 2 ^ 2 := by
  intro K
  have hr : ∀ c, (H * M) 2 c = M 0 0 * H 2 c := by
    simp only [Matrix.mulVec, dotProduct, Fin.sum_univ_three] at h1 h2
    simp at h1 h2
    intro c
    rw [Matrix.mul_apply, Fin.sum_univ_three]
    fin_cases c
    · show H 2 0 * M 0 0 + H 2 1 * M 1 0 + H 2 2 * M 2 0 = M 0 0 * H 2 0
      rw [m1, m2]; ring
    · show H 2 0 * M 0 1 + H 2 1 * M 1 1 + H 2 2 * M 2 1 = M 0 0 * H 2 1
      linear_combination h1
    · show H 2 0 * M 0 2 + H 2 1 * M 1 2 + H 2 2 * M 2 2 = M 0 0 * H 2 2
      linear_combination h2
  have k := rowfix hH hr
  have k0 : K 2 0 = 0 := by rw [show K 2 0 = _ from k 0]; simp
  have k1 : K 2 1 = 0 := by rw [show K 2 1 = _ from k 1]; simp
  have k2 : K 2 2 = M 0 0 := by rw [show K 2 2 = _ from k 2]; simp
  have t1 := tr1 (M := M) hH
  have t2 := tr2 (M := M) hH
  rw [trd3, trd3] at t1
  rw [trsq3, trsq3] at t2
  change K 0 0 + K 1 1 + K 2 2 = _ at t1
  change K 0 0 ^ 2 + K 1 1 ^ 2 + K 2 2 ^ 2 + 2 * (K 0 1 * K 1 0) + 2 * (K 0 2 * K 2 0) + 2 * (K 1 2 * K 2 1) = _ at t2
  rw [k2] at t1
  rw [k0, k1, k2, m1, m2] at t2
  exact ⟨k0, k1, k2, by linear_combination t1, by linear_combination t2⟩

/-- One block of order two, then one of order one; numbered backwards. -/
theorem case21 {H M : Matrix (Fin 3) (Fin 3) ℝ} (hH : H * Hᵀ = 1) (m1 : M 0 1 = 0) (m2 : M 0 2 = 0)
    (h1 : H.mulVec (fun k => M 1 k - if k = 1 then M 0 0 else 0) 2 = 0) (h2 : H.mulVec (fun k => M 2 k - if k = 2 then M 0 0 else 0) 2 = 0) :
    let K := H * M * Hᵀ
    K 0 2 = 0 ∧ K 1 2 = 0 ∧ K 2 2 = M 0 0 ∧ K 0 0 + K 1 1 = M 1 1 + M 2 2 ∧
      K 0 0 ^ 2 + 2 * (K 0 1 * K 1 0) + K 1 1 ^ 2 = M 1 1 ^ 2 + 2 * (M 1 2 * M 2 1) + M 2 2 ^ 2 := by
  intro K
  have := case12 (M := Mᵀ) hH m1 m2 h1 h2
  have e : H * Mᵀ * Hᵀ = Kᵀ := by simp [K, Matrix.mul_assoc]
  rw [e] at this
  simp only [Matrix.transpose_apply] at this
  obtain ⟨a, b, c, d, f⟩ := this
  exact ⟨a, b, c, d, by linear_combination f⟩

/-- Two blocks of order two. -/
theorem case22 {H M : Matrix (Fin 4) (Fin 4) ℝ} (hH : H * Hᵀ = 1) (m : M 2 0 = 0 ∧ M 2 1 = 0 ∧ M 3 0 = 0 ∧ M 3 1 = 0) {V : Matrix (Fin 4) (Fin 2) ℝ} {s : ℝ}
    (hs : s ≠ 0) (v : V 2 0 = -s ∧ V 2 1 = 0 ∧ V 3 0 = 0 ∧ V 3 1 = -s)
    (hV : M * V = V * !![M 2 2, M 2 3; M 3 2, M 3 3])
    (z0 : (H * V) 1 0 = 0 ∧ (H * V) 2 0 = 0 ∧ (H * V) 3 0 = 0) (z1 : (H * V) 2 1 = 0 ∧ (H * V) 3 1 = 0) :
    let K := H * M * Hᵀ
    (K 2 0 = 0 ∧ K 2 1 = 0 ∧ K 3 0 = 0 ∧ K 3 1 = 0) ∧ (K 0 0 + K 1 1 = M 2 2 + M 3 3 ∧
      K 0 0 ^ 2 + 2 * (K 0 1 * K 1 0) + K 1 1 ^ 2 = M 2 2 ^ 2 + 2 * (M 2 3 * M 3 2) + M 3 3 ^ 2) ∧ K 2 2 + K 3 3 = M 0 0 + M 1 1 ∧
      K 2 2 ^ 2 + 2 * (K 2 3 * K 3 2) + K 3 3 ^ 2 = M 0 0 ^ 2 + 2 * (M 0 1 * M 1 0) + M 1 1 ^ 2 := by
  intro K
  have h' := mul_eq_one_comm.1 hH
  obtain ⟨R, hR⟩ : ∃ R, R = H * V := ⟨_, rfl⟩
  rw [← hR] at z0 z1
  have hKR : K * R = R * !![M 2 2, M 2 3; M 3 2, M 3 3] := by
    rw [hR, show K * (H * V) = H * (M * ((Hᵀ * H) * V)) by simp only [K, Matrix.mul_assoc], h', Matrix.one_mul, hV, Matrix.mul_assoc]
  have hVR : V = Hᵀ * R := by rw [hR, ← Matrix.mul_assoc, h', Matrix.one_mul]
  have inj : ∀ x y : ℝ, (∀ r, R r 0 * x + R r 1 * y = 0) → x = 0 ∧ y = 0 := by
    intro x y h
    have q : ∀ r, V r 0 * x + V r 1 * y = 0 := by
      intro r
      rw [hVR, Matrix.mul_apply, Matrix.mul_apply, sum_mul, sum_mul, ← sum_add_distrib]
      exact sum_eq_zero fun k _ => by linear_combination (Hᵀ r k) * h k
    have q2 := q 2
    have q3 := q 3
    rw [v.1, v.2.1] at q2
    rw [v.2.2.1, v.2.2.2] at q3
    constructor
    · have : s * x = 0 := by linear_combination -q2
      exact (mul_eq_zero.1 this).resolve_left hs
    · have : s * y = 0 := by linear_combination -q3
      exact (mul_eq_zero.1 this).resolve_left hs
  have ha : R 0 0 ≠ 0 := fun h => by
    have := (inj 1 0 fun r => by
      fin_cases r
      · simpa using h
      · simpa using z0.1
      · simpa using z0.2.1
      · simpa using z0.2.2).1
    norm_num at this
  have hd : R 1 1 ≠ 0 := fun h => by
    have := (inj (R 0 1) (-R 0 0) fun r => by
      fin_cases r
      · show R 0 0 * R 0 1 + R 0 1 * -R 0 0 = 0
        ring
      · show R 1 0 * R 0 1 + R 1 1 * -R 0 0 = 0
        rw [h, z0.1]; ring
      · show R 2 0 * R 0 1 + R 2 1 * -R 0 0 = 0
        rw [z0.2.1, z1.1]; ring
      · show R 3 0 * R 0 1 + R 3 1 * -R 0 0 = 0
        rw [z0.2.2, z1.2]; ring).2
    exact ha (neg_eq_zero.1 this)
  have e : ∀ r c, (K * R) r c = K r 0 * R 0 c + K r 1 * R 1 c := by
    intro r c
    rw [Matrix.mul_apply, Fin.sum_univ_four]
    fin_cases c
    · show K r 0 * R 0 0 + K r 1 * R 1 0 + K r 2 * R 2 0 + K r 3 * R 3 0 = K r 0 * R 0 0 + K r 1 * R 1 0
      rw [z0.2.1, z0.2.2]; ring
    · show K r 0 * R 0 1 + K r 1 * R 1 1 + K r 2 * R 2 1 + K r 3 * R 3 1 = K r 0 * R 0 1 + K r 1 * R 1 1
      rw [z1.1, z1.2]; ring
  have f : ∀ r, (K * R) r 0 = R r 0 * M 2 2 + R r 1 * M 3 2 ∧ (K * R) r 1 = R r 0 * M 2 3 + R r 1 * M 3 3 := by
    intro r
    rw [hKR]
    simp [Matrix.mul_apply, Fin.sum_univ_two]
  have low : ∀ r, R r 0 = 0 → R r 1 = 0 → K r 0 = 0 ∧ K r 1 = 0 := by
    intro r r0 r1
    obtain ⟨f0, f1⟩ := f r
    rw [e, r0, r1, z0.1] at f0
    rw [e, r0, r1] at f1
    have k0 : K r 0 = 0 := by
      have : K r 0 * R 0 0 = 0 := by linear_combination f0
      exact (mul_eq_zero.1 this).resolve_right ha
    refine ⟨k0, ?_⟩
    rw [k0] at f1
    have : K r 1 * R 1 1 = 0 := by linear_combination f1
    exact (mul_eq_zero.1 this).resolve_right hd
  obtain ⟨k20, k21⟩ := low 2 z0.2.1 z1.1
  obtain ⟨k30, k31⟩ := low 3 z0.2.2 z1.2
  obtain ⟨f00, f01⟩ := f 0
  obtain ⟨f10, f11⟩ := f 1
  rw [e, z0.1] at f00
  rw [e] at f01 f11
  rw [e, z0.1] at f10
  have ht : K 0 0 + K 1 1 = M 2 2 + M 3 3 := by
    have : (R 0 0 * R 1 1) * (K 0 0 + K 1 1) = (R 0 0 * R 1 1) * (M 2 2 + M 3 3) := by
      linear_combination R 1 1 * f00 - R 0 1 * f10 + R 0 0 * f11 + (R 0 0 * M 2 3) * z0.1
    exact mul_left_cancel₀ (mul_ne_zero ha hd) this
  have hdet : K 0 0 * K 1 1 - K 0 1 * K 1 0 = M 2 2 * M 3 3 - M 2 3 * M 3 2 := by
    have : (R 0 0 * R 1 1) * (K 0 0 * K 1 1 - K 0 1 * K 1 0) = (R 0 0 * R 1 1) * (M 2 2 * M 3 3 - M 2 3 * M 3 2) := by
      have d1 : (R 0 0 * R 1 1) * (K 0 0 * K 1 1 - K 0 1 * K 1 0) = (K 0 0 * R 0 0 + K 0 1 * 0) * (K 1 0 * R 0 1 + K 1 1 * R 1 1) - (K 0 0 * R 0 1 + K 0 1 * R 1 1) * (K 1 0 * R 0 0 + K 1 1 * 0) := by ring
      rw [d1, f00, f11, f01, f10, z0.1]
      ring
    exact mul_left_cancel₀ (mul_ne_zero ha hd) this
  have t1 := tr1 (M := M) hH
  have t2 := tr2 (M := M) hH
  rw [trd4, trd4] at t1
  rw [trsq4, trsq4] at t2
  change K 0 0 + K 1 1 + K 2 2 + K 3 3 = _ at t1
  change K 0 0 ^ 2 + K 1 1 ^ 2 + K 2 2 ^ 2 + K 3 3 ^ 2 + 2 * (K 0 1 * K 1 0) + 2 * (K 0 2 * K 2 0) + 2 * (K 0 3 * K 3 0)
    + 2 * (K 1 2 * K 2 1) + 2 * (K 1 3 * K 3 1) + 2 * (K 2 3 * K 3 2) = _ at t2
  rw [k20, k21, k30, k31, m.1, m.2.1, m.2.2.1, m.2.2.2] at t2
  have hsq : K 0 0 ^ 2 + 2 * (K 0 1 * K 1 0) + K 1 1 ^ 2 = M 2 2 ^ 2 + 2 * (M 2 3 * M 3 2) + M 3 3 ^ 2 := by
    linear_combination (K 0 0 + K 1 1 + M 2 2 + M 3 3) * ht - 2 * hdet
  exact ⟨⟨k20, k21, k30, k31⟩, ⟨ht, hsq⟩, by linear_combination t1 - ht, by linear_combination t2 - hsq⟩

end TLA.SwAlg
