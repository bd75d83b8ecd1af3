import Verif.Proofs.LahqzShift
import Verif.Props.Rot
import Mathlib.Analysis.SpecialFunctions.Pow.Real
set_option linter.unusedVariables false
set_option linter.unusedSimpArgs false

/-! # C92: eigenvalues and shift vectors of small matrix pencils (QZ) -/

namespace TLA.Kernel
open Matrix

/-- **C92** lahqz_eig22, real matrices: for every `A` and upper triangular `B`, the computed pairs are the eigenvalues of the pencil
`(A, B - diag(d0, d1))`, where `d` is zero unless a diagonal entry of `B` is below `sqrt(safe_min)` times the size of `B`, and is
never larger than that. -/
theorem C92_eig22 {o : RotOps ℝ} (ho : RotLaws o) {sm : ℝ} (hs : 0 < sm) (A : Matrix (Fin 2) (Fin 2) ℝ) (b00 b01 b11 : ℝ) :
    ∃ p q d0 d1 bmin, bmin = Real.sqrt sm * max (max |b00| |b01|) (max |b11| (Real.sqrt sm)) ∧
      qzEig22 o sm (A 0 0) (A 0 1) (A 1 0) (A 1 1) b00 b01 b11 = some (p, q) ∧
      |d0| ≤ bmin ∧ |d1| ≤ bmin ∧ (bmin ≤ |b00| ∧ bmin ≤ |b11| → d0 = 0 ∧ d1 = 0) ∧
      PencilEigs (cmat A) (cmat !![b00 - d0, b01; 0, b11 - d1]) p q := by
  obtain ⟨p, q, d0, d1, e, h0, h1, h2, h3⟩ := qzEig22_ok ho hs (A 0 0) (A 0 1) (A 1 0) (A 1 1) b00 b01 b11
  refine ⟨p, q, d0, d1, _, rfl, e, h0, h1, h2, ?_⟩
  have ea : cmat A = !![(A 0 0 : ℂ), (A 0 1 : ℂ); (A 1 0 : ℂ), (A 1 1 : ℂ)] := by
    ext i j; fin_cases i <;> fin_cases j <;> rfl
  have eb : cmat !![b00 - d0, b01; 0, b11 - d1] = !![(b00 - d0 : ℂ), (b01 : ℂ); 0, (b11 - d1 : ℂ)] := by
    ext i j; fin_cases i <;> fin_cases j <;> simp [cmat]
  rw [ea, eb]
  exact h3

/-- The eigenvalues of a real pencil annihilate it: `beta A - alpha B` is singular. -/
theorem PencilEigs.singular {A B : Matrix (Fin 2) (Fin 2) ℂ} {p q : ℂ × ℝ} (h : PencilEigs A B p q) :
    ((p.2 : ℂ) • A - p.1 • B).det = 0 ∧ ((q.2 : ℂ) • A - q.1 • B).det = 0 := by
  obtain ⟨κ, _, h⟩ := h
  constructor <;> rw [h] <;> ring

/-- **C92** lahqz_eig22, complex matrices: the same with an upper triangular perturbation, provided the discriminant of the scaled
pencil is in the range in which the code does not rescale it. -/
theorem C92_eig22_complex {o : RotOps ℂ} (ho : RotLaws o) {sm : ℝ} (hs : 0 < sm) (A : Matrix (Fin 2) (Fin 2) ℂ) (b00 b01 b11 : ℂ)
    (hm : QzMild sm (A 0 0) (A 0 1) (A 1 0) (A 1 1) b00 b01 b11) :
    ∃ p q d00 d01 d11 bmin, bmin = Real.sqrt sm * max (max (abs1 b00) (abs1 b01)) (max (abs1 b11) (Real.sqrt sm)) ∧
      qzEig22C o sm (A 0 0) (A 0 1) (A 1 0) (A 1 1) b00 b01 b11 = some (p, q) ∧
      ‖d00‖ ≤ bmin ∧ ‖d01‖ ≤ bmin ∧ ‖d11‖ ≤ bmin ∧
      (bmin ≤ abs1 b00 ∧ bmin ≤ abs1 b11 → d00 = 0 ∧ d01 = 0 ∧ d11 = 0) ∧
      PencilEigs A !![b00 - d00, b01 - d01; 0, b11 - d11] p q := by
  obtain ⟨p, q, d00, d01, d11, e, h⟩ := qzEig22C_ok ho hs hm
  refine ⟨p, q, d00, d01, d11, _, rfl, e, ?_⟩
  rw [Matrix.eta_fin_two A]
  exact h

theorem dvz_zero (x : ℂ) : dvz x 0 = none := if_pos rfl

theorem csqrt_zero : csqrt 0 = 0 := by
  have h := csqrt_mul_self 0
  exact mul_self_eq_zero.mp h

theorem abs1_one : abs1 1 = 1 := by simp [abs1]

/-- Violated: for `A = B = I` the complex version divides by zero. -/
theorem C92_eig22_complex_identity_violated (o : RotOps ℂ) {sm : ℝ} (hs : 0 < sm) (h1 : sm < 1) : qzEig22C o sm 1 0 0 1 1 0 1 = none := by
  have hr : Real.sqrt sm < 1 := by rw [Real.sqrt_lt' one_pos]; simpa using h1
  have e1 : max (max (1 + 0 : ℝ) (0 + 1)) sm = 1 := by simp [h1.le]
  have e2 : max (max (1 : ℝ) 0) (max 1 (Real.sqrt sm)) = 1 := by simp [hr.le]
  unfold qzEig22C
  simp only [abs1_one, abs1_zero, e1, e2, mul_one, dv_ne (one_ne_zero (α := ℝ)), bind_s, pure, if_neg (not_lt.mpr hr.le), max_self]
  have e3 : qzPQC ((1 / 1 : ℝ) : ℂ) (((1 / 1 : ℝ) : ℂ) * 0) (((1 / 1 : ℝ) : ℂ) * 0) ((1 / 1 : ℝ) : ℂ) ((1 / 1 : ℝ) : ℂ)
      (((1 / 1 : ℝ) : ℂ) * 0) ((1 / 1 : ℝ) : ℂ) = some (1, 0, 0) := by
    unfold qzPQC
    simp [dvz_ne (one_ne_zero (α := ℂ)), abs1_one]
  rw [e3]
  simp only [bind_s]
  have e4 : qzDiscrC sm 0 0 = 0 := by
    unfold qzDiscrC
    simp [abs1_zero]
  rw [e4]
  unfold qzRootsC
  simp only [csqrt_zero, add_zero, sub_zero, ite_self, dvz_zero]
  rfl

theorem csqrt_sq {x : ℝ} (hx : 0 ≤ x) : csqrt ((x * x : ℝ) : ℂ) = (x : ℂ) := by
  unfold csqrt
  have : ((x * x : ℝ) : ℂ) ^ ((1 : ℂ) / 2) = (((x * x) ^ ((1 : ℝ) / 2) : ℝ) : ℂ) := by
    rw [Complex.ofReal_cpow (by positivity)]; norm_num
  simp only [this]
  rw [← Real.sqrt_eq_rpow, Real.sqrt_mul_self hx]

/-- Violated: the square root of a rescaled discriminant is not scaled back; `[1 s; s 1]` with `s = sqrt(safe_min)`, whose
eigenvalues are `1 + s` and `1 - s`, is reported to have the eigenvalue zero. -/
theorem C92_eig22_complex_scaling_violated (o : RotOps ℂ) {sm : ℝ} (hs : 0 < sm) (h1 : sm < 1) :
    ∃ p q, qzEig22C o sm 1 (Real.sqrt sm) (Real.sqrt sm) 1 1 0 1 = some (p, q) ∧ p.1 = 0 ∧
      ¬ PencilEigs !![1, (Real.sqrt sm : ℂ); (Real.sqrt sm : ℂ), 1] !![1, 0; 0, 1] p q := by
  have hrs : 0 < Real.sqrt sm := Real.sqrt_pos.mpr hs
  have hr : Real.sqrt sm < 1 := by rw [Real.sqrt_lt' one_pos]; simpa using h1
  have hss : Real.sqrt sm * Real.sqrt sm = sm := Real.mul_self_sqrt hs.le
  have ar : abs1 (Real.sqrt sm : ℂ) = Real.sqrt sm := by simp [abs1, abs_of_pos hrs]
  have e1 : max (max (1 + Real.sqrt sm) (Real.sqrt sm + 1)) sm = 1 + Real.sqrt sm := by
    rw [add_comm (Real.sqrt sm), max_self]; exact max_eq_left (by linarith)
  have e2 : max (max (1 : ℝ) 0) (max 1 (Real.sqrt sm)) = 1 := by simp [hr.le]
  have han : (0 : ℝ) < 1 + Real.sqrt sm := by positivity
  suffices h : ∃ p q, qzEig22C o sm 1 (Real.sqrt sm) (Real.sqrt sm) 1 1 0 1 = some (p, q) ∧ p.1 = 0 by
    obtain ⟨p, q, e, h0⟩ := h
    refine ⟨p, q, e, h0, ?_⟩
    rintro ⟨κ, _, hk⟩
    have := hk 1 0
    rw [h0, Matrix.det_fin_two] at this
    simp at this
    have h2 : (1 : ℂ) - Real.sqrt sm * Real.sqrt sm = 0 := this
    have h3 : (1 : ℝ) - Real.sqrt sm * Real.sqrt sm = 0 := by exact_mod_cast h2
    rw [hss] at h3; linarith
  unfold qzEig22C
  simp only [abs1_one, abs1_zero, ar, e1, e2, mul_one, dv_ne han.ne', dv_ne (one_ne_zero (α := ℝ)), bind_s, pure, if_neg (not_lt.mpr hr.le), max_self]
  have ha : 0 < 1 / (1 + Real.sqrt sm) := by positivity
  have ha1 : 1 / (1 + Real.sqrt sm) ≤ 1 := by rw [div_le_one han]; linarith
  generalize 1 / (1 + Real.sqrt sm) = as at ha ha1 ⊢
  have e3 : qzPQC (as : ℂ) ((as : ℂ) * Real.sqrt sm) ((as : ℂ) * Real.sqrt sm) (as : ℂ) ((1 / 1 : ℝ) : ℂ)
      (((1 / 1 : ℝ) : ℂ) * 0) ((1 / 1 : ℝ) : ℂ) = some ((as : ℂ), 0, ((as * as * sm : ℝ) : ℂ)) := by
    unfold qzPQC
    have hss' : (Real.sqrt sm : ℂ) * Real.sqrt sm = sm := by exact_mod_cast hss
    simp [dvz_ne (one_ne_zero (α := ℂ))]
    linear_combination (as * as : ℂ) * hss'
  rw [e3]
  simp only [bind_s]
  have e4 : qzDiscrC sm 0 ((as * as * sm : ℝ) : ℂ) = ((as * as : ℝ) : ℂ) := by
    have n : (sm : ℂ) ≠ 0 := by exact_mod_cast hs.ne'
    have hq : abs1 (0 * 0) + abs1 ((as * as * sm : ℝ) : ℂ) ≤ sm := by
      rw [mul_zero, abs1_zero, zero_add]
      simp only [abs1, Complex.ofReal_re, Complex.ofReal_im, abs_zero, add_zero]
      rw [abs_of_pos (by positivity)]
      nlinarith [mul_pos ha hs]
    unfold qzDiscrC
    simp only
    rw [if_neg (by rw [zero_mul, abs1_zero]; norm_num), if_pos hq]
    push_cast
    field_simp
    ring
  rw [e4]
  unfold qzRootsC
  have hr1 : abs1 ((0 : ℂ) + as) = abs1 ((0 : ℂ) - as) := by simp [abs1]
  have hb : (0 : ℂ) - as ≠ 0 := by simp [ha.ne']
  simp only [csqrt_sq ha.le, hr1, gt_iff_lt, lt_irrefl, if_false, dvz_ne hb, bind_s, pure]
  obtain ⟨w1, _, f1⟩ := qzScale_ok (ascale := as) (bsize := 1) (bnorm := max (max 1 (0 + 1)) sm) hs ((as : ℂ) + (0 - as))
  obtain ⟨w2, _, f2⟩ := qzScale_ok (ascale := as) (bsize := 1) (bnorm := max (max 1 (0 + 1)) sm) hs ((as : ℂ) + -((as * as * sm : ℝ) : ℂ) / (0 - as))
  rw [f1, f2]
  exact ⟨_, _, rfl, by ring⟩

/-! ### The shift vector -/

/-- The upper triangular `B` of the 3 by 3 pencil, and `A` with `A(2,0) = 0`. -/
theorem C92_shiftcolumn {smin smax : ℝ} (h : 0 < smin) {a b : Nat → Nat → ℝ} (ha : a 2 0 = 0)
    (hb : b 1 0 = 0 ∧ b 2 0 = 0 ∧ b 2 1 = 0) (h0 : b 0 0 ≠ 0) (h1 : b 1 1 ≠ 0) (h2 : b 2 2 ≠ 0) {s1 s2 : ℂ} {be1 be2 : ℝ}
    (hp1 : qzS1 a b s1 be1 ≠ 0) (hp2 : qzS2 a b s1 be1 ≠ 0)
    (hs : (s1.im = 0 ∧ s2.im = 0) ∨ (s2 = star s1 ∧ be1 = be2 ∧ smin ≤ qzS1 a b s1 be1 ∧ qzS1 a b s1 be1 ≤ smax ∧
      smin ≤ qzS2 a b s1 be1 / qzS1 a b s1 be1 ∧ qzS2 a b s1 be1 / qzS1 a b s1 be1 ≤ smax)) :
    ∃ x y z, qzShift3 smin smax a b s1 s2 be1 be2 = some (x, y, z) ∧
      ∃ κ : ℝ, κ ≠ 0 ∧ ((x, y, z) = (0, 0, 0) ∧
          (∃ i, smax < ‖(κ : ℂ) * qzShiftCol (cmat3 a) (cmat3 b) s1 s2 be1 be2 i‖) ∨
        ![(x : ℂ), (y : ℂ), (z : ℂ)] = (κ : ℂ) • qzShiftCol (cmat3 a) (cmat3 b) s1 s2 be1 be2) := by
  obtain ⟨x, y, z, e, κ, h3, h4⟩ := qzShift3_ok h ha hb h0 h1 h2 hp1 hp2 hs
  refine ⟨x, y, z, e, κ, h3, ?_⟩
  have ea : cmat3 a = qzA a := by
    ext i j; fin_cases i <;> fin_cases j <;> simp [cmat3, qzA, ha]
  have eb : cmat3 b = qzB b := by
    ext i j; fin_cases i <;> fin_cases j <;> simp [cmat3, qzB, hb]
  rw [ea, eb]
  exact h4

/-- The complex routine: for all shifts. -/
theorem C92_shiftcolumn_complex {smin smax : ℝ} (h : 0 < smin) {a b : Nat → Nat → ℂ} (ha : a 2 0 = 0)
    (hb : b 1 0 = 0 ∧ b 2 0 = 0 ∧ b 2 1 = 0) (h0 : b 0 0 ≠ 0) (h1 : b 1 1 ≠ 0) (h2 : b 2 2 ≠ 0) (s1 s2 be1 be2 : ℂ) :
    ∃ x y z, qzShift3C smin smax a b s1 s2 be1 be2 = some (x, y, z) ∧
      ∃ κ : ℂ, κ ≠ 0 ∧ ((x, y, z) = (0, 0, 0) ∧
          (∃ i, smax < abs1 (κ * qzShiftCol (Matrix.of fun i j : Fin 3 => a i j) (Matrix.of fun i j : Fin 3 => b i j) s1 s2 be1 be2 i)) ∨
        ![x, y, z] = κ • qzShiftCol (Matrix.of fun i j : Fin 3 => a i j) (Matrix.of fun i j : Fin 3 => b i j) s1 s2 be1 be2) := by
  obtain ⟨x, y, z, e, κ, h3, h4⟩ := qzShift3C_ok (smax := smax) h ha hb h0 h1 h2 s1 s2 be1 be2
  refine ⟨x, y, z, e, κ, h3, ?_⟩
  have ea : (Matrix.of fun i j : Fin 3 => a i j) = !![a 0 0, a 0 1, a 0 2; a 1 0, a 1 1, a 1 2; 0, a 2 1, a 2 2] := by
    ext i j; fin_cases i <;> fin_cases j <;> simp [ha]
  have eb : (Matrix.of fun i j : Fin 3 => b i j) = !![b 0 0, b 0 1, b 0 2; 0, b 1 1, b 1 2; 0, 0, b 2 2] := by
    ext i j; fin_cases i <;> fin_cases j <;> simp [hb]
  rw [ea, eb]
  exact h4

/-- Violated: the real routine divides by zero when `A` is already deflated, or when the first shift is `A(0,0)/B(0,0)`. -/
theorem C92_shiftcolumn_deflated_violated {smin smax : ℝ} (h : 0 < smin) {a b : Nat → Nat → ℝ} (h0 : b 0 0 ≠ 0) (h1 : b 1 1 ≠ 0)
    {s1 s2 : ℂ} {be1 be2 : ℝ} (hz : be1 * a 1 0 - s1.re * b 1 0 = 0 ∨ be1 * a 0 0 - s1.re * b 0 0 = 0) :
    qzShift3 smin smax a b s1 s2 be1 be2 = none := by
  have hw : Real.sqrt |be1 * a 0 0 - s1.re * b 0 0| * Real.sqrt |be1 * a 1 0 - s1.re * b 1 0| = 0 := by
    rcases hz with h | h <;> rw [h] <;> simp
  unfold qzShift3
  obtain ⟨t1, ht1, e1, _⟩ := qzW_real (smax := smax) h (be1 * a 0 0 - s1.re * b 0 0) (be1 * a 1 0 - s1.re * b 1 0)
  simp only [e1, bind_s, dv_ne h1, dv_ne h0, hw, dv_zero]
  obtain ⟨t2, ht2, e2, _⟩ := qzW_real (smax := smax) h ((t1 * (be1 * a 0 0 - s1.re * b 0 0) - b 0 1 * (t1 * (be1 * a 1 0 - s1.re * b 1 0) / b 1 1)) / b 0 0)
    (t1 * (be1 * a 1 0 - s1.re * b 1 0) / b 1 1)
  simp only [e2, bind_s]
  rfl

/-- The 2 by 2 case returns `(beta1 A - s1 B) e1`. -/
theorem C92_shiftcolumn2 (a b : Nat → Nat → ℝ) (s1 be1 : ℝ) :
    ![(qzShift2 a b s1 be1).1, (qzShift2 a b s1 be1).2]
      = (be1 • (Matrix.of fun i j : Fin 2 => a i j) - s1 • (Matrix.of fun i j : Fin 2 => b i j)) *ᵥ ![1, 0] := by
  ext i; fin_cases i <;> simp [qzShift2, Matrix.mulVec, dotProduct, Fin.sum_univ_two]

/-- Violated: this is not the documented product `(beta2 A - s2 B) B⁻¹ (beta1 A - s1 B) B⁻¹ e1`. -/
theorem C92_shiftcolumn2_violated : ∃ a b : Nat → Nat → ℝ, (Matrix.of fun i j : Fin 2 => b i j) = 1 ∧
    ∀ κ : ℝ, ![(qzShift2 a b 0 1).1, (qzShift2 a b 0 1).2]
      ≠ κ • (((Matrix.of fun i j : Fin 2 => a i j) * (Matrix.of fun i j : Fin 2 => a i j)) *ᵥ ![1, 0]) := by
  refine ⟨fun i j => if i = j then 0 else 1, fun i j => if i = j then 1 else 0, ?_, ?_⟩
  · ext i j; fin_cases i <;> fin_cases j <;> simp
  · intro κ h
    have := congrFun h 1
    simp [qzShift2, Matrix.mulVec, dotProduct, Fin.sum_univ_two, Matrix.mul_apply] at this

/-- The laws hold for the rotations of the library; a regular pencil is in the unscaled range; the shifts `±i` and
`3, 3` of a concrete pencil meet the hypotheses of the real routine. -/
example : RotLaws (rotOpsC ⟨2⁻¹ ^ 1022, 2 ^ 1022, 2⁻¹ ^ 52⟩) ∧ RotLaws (rotOpsR ⟨2⁻¹ ^ 1022, 2 ^ 1022, 2⁻¹ ^ 52⟩) := by
  refine ⟨rotLaws_complex ?_ ?_ ?_, rotLaws_real ?_ ?_⟩ <;> dsimp only <;> positivity

example : QzMild (1 / 100) 0 1 1 0 1 0 1 := by
  intro sh pp qq h
  unfold qzPQC at h
  simp [dvz_ne (one_ne_zero (α := ℂ)), abs1_one, abs1_zero] at h
  norm_num [dvz, abs1] at h
  obtain ⟨rfl, rfl, rfl⟩ := h
  norm_num [abs1]

example (s : ℂ) (h : s = Complex.I ∨ s = 3) :
    ∃ x y z, qzShift3 (1 / 2) 100 (fun i j => if i = 2 ∧ j = 0 then 0 else 1) (fun i j => if i = j then 1 else 0) s (star s) 1 1 = some (x, y, z) := by
  have hh := @C92_shiftcolumn (1 / 2) 100 (by norm_num) (fun i j => if i = 2 ∧ j = 0 then 0 else 1)
    (fun i j => if i = j then 1 else 0) (by simp) (by simp) (by simp) (by simp) (by simp) s (star s) 1 1 ?_ ?_ ?_
  · obtain ⟨x, y, z, e, _⟩ := hh
    exact ⟨x, y, z, e⟩
  · rcases h with rfl | rfl <;> norm_num [qzS1]
  · rcases h with rfl | rfl <;> norm_num [qzS2]
  · rcases h with rfl | rfl
    · exact Or.inr ⟨rfl, rfl, by norm_num [qzS1, qzS2]⟩
    · exact Or.inl (by simp)

end TLA.Kernel
