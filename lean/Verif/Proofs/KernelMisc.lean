import Verif.Proofs.KernelSchur

/-! Proofs about `laed5`, the shift column and `inv_house3`. -/

set_option linter.unusedVariables false

namespace TLA.Kernel

/-! ## laed5 -/

/-- `δ` is a unit eigenvector of `D + ρ z zᵀ` for `l`. -/
def Laed5OK (d0 d1 z0 z1 rho l x y : ℝ) : Prop :=
  d0 * x + rho * z0 * (z0 * x + z1 * y) = l * x ∧ d1 * y + rho * z1 * (z0 * x + z1 * y) = l * y ∧
  x * x + y * y = 1

theorem laed5Unit_ok {d0 d1 z0 z1 rho l x y : ℝ} (hx : x ≠ 0) (h1 : (d0 - l) * x = z0 * 1) (h2 : (d1 - l) * y = z1 * 1)
    (h3 : 1 + rho * (z0 * x + z1 * y) = 0) :
    ∃ u v, laed5Unit x y = some (u, v) ∧ Laed5OK d0 d1 z0 z1 rho l u v := by
  have hp : 0 < x * x + y * y := by nlinarith [mul_self_pos.mpr hx, mul_self_nonneg y]
  unfold laed5Unit
  have hs := Real.mul_self_sqrt hp.le
  have hs0 := (Real.sqrt_pos.mpr hp).ne'
  simp only [pure, sq_nn hp.le, bind_s, dv_ne hs0]
  generalize Real.sqrt (x * x + y * y) = s at *
  refine ⟨_, _, rfl, ?_, ?_, ?_⟩
  · field_simp; linear_combination h1 + z0 * h3
  · field_simp; linear_combination h2 + z1 * h3
  · field_simp; linear_combination -hs

/-- `λ` solves the secular equation, off the poles. -/
theorem secular {d0 d1 z0 z1 rho l : ℝ} (h0 : d0 - l ≠ 0) (h1 : d1 - l ≠ 0)
    (h : (d0 - l) * (d1 - l) + rho * z0 * z0 * (d1 - l) + rho * z1 * z1 * (d0 - l) = 0) :
    1 + rho * (z0 * (z0 / (d0 - l)) + z1 * (z1 / (d1 - l))) = 0 := by
  field_simp
  linear_combination h

theorem laed5_ok {d0 d1 z0 z1 rho : ℝ} (hd : d0 < d1) (hr : 0 < rho) (h0 : z0 ≠ 0) (h1 : z1 ≠ 0) (i : ℕ) :
    ∃ l x y, laed5 i d0 d1 z0 z1 rho = some (l, x, y) ∧ Laed5OK d0 d1 z0 z1 rho l x y ∧
      (if i = 0 then d0 < l ∧ l < d1 else d1 < l) := by
  have hdel : 0 < d1 - d0 := by linarith
  have hz0 : 0 < rho * (z0 * z0) := mul_pos hr (mul_self_pos.mpr h0)
  have hz1 : 0 < rho * (z1 * z1) := mul_pos hr (mul_self_pos.mpr h1)
  -- the second form: `tau = lambda - d1`
  have key : ∀ tau : ℝ, tau ≠ 0 → d1 - d0 + tau ≠ 0 →
      tau * tau - (-(d1 - d0) + rho * (z0 * z0 + z1 * z1)) * tau - rho * z1 * z1 * (d1 - d0) = 0 →
      ∃ u v, laed5Unit (-z0 / (d1 - d0 + tau)) (-z1 / tau) = some (u, v) ∧ Laed5OK d0 d1 z0 z1 rho (d1 + tau) u v := by
    intro tau t0 t1 h
    have e0 : d0 - (d1 + tau) = -(d1 - d0 + tau) := by ring
    have e1 : d1 - (d1 + tau) = -tau := by ring
    have hs := secular (d0 := d0) (d1 := d1) (z0 := z0) (z1 := z1) (rho := rho) (l := d1 + tau)
      (by rw [e0]; exact neg_ne_zero.mpr t1) (by rw [e1]; exact neg_ne_zero.mpr t0) (by linear_combination h)
    rw [e0, e1, div_neg, div_neg, ← neg_div, ← neg_div] at hs
    exact laed5Unit_ok (div_ne_zero (neg_ne_zero.mpr h0) t1) (by rw [e0]; field_simp) (by rw [e1]; field_simp) hs
  have hc : 0 < rho * z1 * z1 * (d1 - d0) := by rw [mul_assoc rho]; positivity
  have hbc : ∀ b : ℝ, 0 < b * b + 4 * (rho * z1 * z1 * (d1 - d0)) := fun b => by nlinarith [mul_self_nonneg b]
  unfold laed5
  simp only [pure, dv_ne hdel.ne', bind_s]
  by_cases hi : i = 0
  · simp only [if_pos hi]
    split
    · have hb : 0 < d1 - d0 + rho * (z0 * z0 + z1 * z1) := by nlinarith
      have hcc : 0 < rho * z0 * z0 * (d1 - d0) := by rw [mul_assoc rho]; positivity
      have hD : 0 < (d1 - d0 + rho * (z0 * z0 + z1 * z1)) * (d1 - d0 + rho * (z0 * z0 + z1 * z1)) -
          4 * (rho * z0 * z0 * (d1 - d0)) := by
        have e : (d1 - d0 + rho * (z0 * z0 + z1 * z1)) * (d1 - d0 + rho * (z0 * z0 + z1 * z1)) -
          4 * (rho * z0 * z0 * (d1 - d0)) = (d1 - d0 - rho * (z0 * z0) + rho * (z1 * z1)) ^ 2 +
            4 * ((rho * (z0 * z0)) * (rho * (z1 * z1))) := by ring
        rw [e]; positivity
      have hdelb : (d1 - d0) * (d1 - d0) - (d1 - d0 + rho * (z0 * z0 + z1 * z1)) * (d1 - d0) +
          rho * z0 * z0 * (d1 - d0) = -(rho * (z1 * z1)) * (d1 - d0) := by ring
      rw [abs_of_pos hD]
      simp only [sq_nn hD.le, bind_s]
      have ss := Real.mul_self_sqrt hD.le
      have sp := Real.sqrt_pos.mpr hD
      have secB : ∀ tau : ℝ, tau * tau - (d1 - d0 + rho * (z0 * z0 + z1 * z1)) * tau + rho * z0 * z0 * (d1 - d0) = 0 →
          (d0 - (d0 + tau)) * (d1 - (d0 + tau)) + rho * z0 * z0 * (d1 - (d0 + tau)) +
            rho * z1 * z1 * (d0 - (d0 + tau)) = 0 := by intro tau h; linear_combination h
      generalize Real.sqrt _ = s at *
      generalize d1 - d0 + rho * (z0 * z0 + z1 * z1) = b at *
      generalize hC : rho * z0 * z0 * (d1 - d0) = c at *
      have hbs : 0 < b + s := by positivity
      simp only [dv_ne hbs.ne', bind_s]
      have et : 2 * c / (b + s) = (b - s) / 2 := by field_simp; linear_combination ss
      have htp : 0 < 2 * c / (b + s) := by positivity
      rw [et] at htp ⊢
      have hq : (b - s) / 2 * ((b - s) / 2) - b * ((b - s) / 2) + c = 0 := by linear_combination ss / 4
      generalize htau : (b - s) / 2 = tau at *
      have hlt : tau < d1 - d0 := by
        by_contra hn
        have : 0 ≤ (d1 - d0 - tau) * (d1 - d0 - (b - tau)) := by
          apply mul_nonneg_of_nonpos_of_nonpos <;> linarith
        nlinarith
      have t1 : d1 - d0 - tau ≠ 0 := by linarith
      simp only [dv_ne htp.ne', dv_ne t1, bind_s]
      have e0 : d0 - (d0 + tau) = -tau := by ring
      have e1 : d1 - (d0 + tau) = d1 - d0 - tau := by ring
      have hs := secular (d0 := d0) (d1 := d1) (z0 := z0) (z1 := z1) (rho := rho) (l := d0 + tau)
        (by rw [e0]; exact neg_ne_zero.mpr htp.ne') (by rw [e1]; exact t1) (secB tau hq)
      rw [e0, e1, div_neg, ← neg_div] at hs
      obtain ⟨u, v, e, ok⟩ := laed5Unit_ok (d0 := d0) (d1 := d1) (l := d0 + tau)
        (div_ne_zero (neg_ne_zero.mpr h0) htp.ne') (by rw [e0]; field_simp) (by rw [e1]; field_simp) hs
      rw [e]
      exact ⟨_, _, _, rfl, ok, by linarith, by linarith⟩
    · have hD := hbc (-(d1 - d0) + rho * (z0 * z0 + z1 * z1))
      have hdelb : (d1 - d0) * (d1 - d0) + (-(d1 - d0) + rho * (z0 * z0 + z1 * z1)) * (d1 - d0) -
          rho * z1 * z1 * (d1 - d0) = rho * (z0 * z0) * (d1 - d0) := by ring
      simp only [sq_nn hD.le, bind_s]
      have ss := Real.mul_self_sqrt hD.le
      have sp := Real.sqrt_pos.mpr hD
      generalize Real.sqrt _ = s at *
      generalize -(d1 - d0) + rho * (z0 * z0 + z1 * z1) = b at *
      generalize rho * z1 * z1 * (d1 - d0) = c at *
      have et : (if b > 0 then (dv (-2 * c) (b + s)) else some ((b - s) / 2)) = some ((b - s) / 2) := by
        split
        · rename_i hb
          rw [dv_ne (by linarith)]
          congr 1
          have : b + s ≠ 0 := by linarith
          field_simp; linear_combination ss
        · rfl
      rw [et, bind_s]
      have hq : (b - s) / 2 * ((b - s) / 2) - b * ((b - s) / 2) - c = 0 := by linear_combination ss / 4
      have hneg : (b - s) / 2 < 0 := by
        have : b < s := by
          by_contra hn
          nlinarith
        linarith
      have hpos : 0 < (b + s) / 2 := by
        by_contra hn
        nlinarith
      generalize htau : (b - s) / 2 = tau at *
      have hgt : 0 < d1 - d0 + tau := by
        by_contra hn
        have : (d1 - d0 + tau) * (d1 - d0 + (b + s) / 2) ≤ 0 :=
          mul_nonpos_of_nonpos_of_nonneg (by linarith) (by linarith)
        have e : (b + s) / 2 = b - tau := by linarith
        rw [e] at this
        have : 0 < rho * (z0 * z0) * (d1 - d0) := by positivity
        nlinarith
      simp only [dv_ne hneg.ne, dv_ne hgt.ne', bind_s]
      obtain ⟨u, v, e, ok⟩ := key tau hneg.ne hgt.ne' hq
      rw [e]
      exact ⟨_, _, _, rfl, ok, by linarith, by linarith⟩
  · simp only [if_neg hi]
    have hD := hbc (-(d1 - d0) + rho * (z0 * z0 + z1 * z1))
    simp only [sq_nn hD.le, bind_s]
    have ss := Real.mul_self_sqrt hD.le
    have sp := Real.sqrt_pos.mpr hD
    generalize Real.sqrt _ = s at *
    generalize -(d1 - d0) + rho * (z0 * z0 + z1 * z1) = b at *
    generalize rho * z1 * z1 * (d1 - d0) = c at *
    have et : (if b > 0 then some ((b + s) / 2) else (dv (2 * c) (-b + s))) = some ((b + s) / 2) := by
      split
      · rfl
      · rename_i hb
        rw [dv_ne (by linarith)]
        congr 1
        have : -b + s ≠ 0 := by linarith
        field_simp; linear_combination -ss
    rw [et, bind_s]
    have hq : (b + s) / 2 * ((b + s) / 2) - b * ((b + s) / 2) - c = 0 := by linear_combination ss / 4
    have hpos : 0 < (b + s) / 2 := by
      by_contra hn
      nlinarith
    generalize htau : (b + s) / 2 = tau at *
    have hgt : 0 < d1 - d0 + tau := by linarith
    simp only [dv_ne hpos.ne', dv_ne hgt.ne', bind_s]
    obtain ⟨u, v, e, ok⟩ := key tau hpos.ne' hgt.ne' hq
    rw [e]
    exact ⟨_, _, _, rfl, ok, by linarith⟩

/-! ## Shift column -/

theorem abs_sum_zero {x y z : ℝ} (h : |x| + |y| + |z| = 0) : x = 0 ∧ y = 0 ∧ z = 0 := by
  have := abs_nonneg x; have := abs_nonneg y; have := abs_nonneg z
  refine ⟨abs_eq_zero.mp ?_, abs_eq_zero.mp ?_, abs_eq_zero.mp ?_⟩ <;> linarith

theorem shiftcol2_ok (h : ℕ → ℕ → ℝ) (s1 s2 : ℂ) : ∃ v0 v1 s, shiftcol2 h s1 s2 = some (v0, v1) ∧ 0 < s ∧
    s * v0 = (((h 0 0 : ℂ) - s1) * ((h 0 0 : ℂ) - s2) + h 0 1 * h 1 0).re ∧
    s * v1 = ((h 1 0 : ℂ) * (h 0 0 - s2) + (h 1 1 - s1) * h 1 0).re := by
  unfold shiftcol2
  simp only [pure]
  by_cases hs : |h 0 0 - s2.re| + |s2.im| + |h 1 0| = 0
  · obtain ⟨e1, e2, e3⟩ := abs_sum_zero hs
    rw [if_pos hs]
    refine ⟨0, 0, 1, rfl, one_pos, ?_, ?_⟩ <;> simp [e1, e2, e3]
  · rw [if_neg hs]
    simp only [dv_ne hs, bind_s]
    refine ⟨_, _, _, rfl, lt_of_le_of_ne (by positivity) (Ne.symm hs), ?_, ?_⟩
    · generalize |h 0 0 - s2.re| + |s2.im| + |h 1 0| = s at *
      simp; field_simp; ring
    · generalize |h 0 0 - s2.re| + |s2.im| + |h 1 0| = s at *
      simp; field_simp; ring

theorem shiftcol3_ok (h : ℕ → ℕ → ℝ) (s1 s2 : ℂ) : ∃ v0 v1 v2 s, shiftcol3 h s1 s2 = some (v0, v1, v2) ∧ 0 < s ∧
    s * v0 = (((h 0 0 : ℂ) - s1) * ((h 0 0 : ℂ) - s2) + h 0 1 * h 1 0 + h 0 2 * h 2 0).re ∧
    s * v1 = ((h 1 0 : ℂ) * (h 0 0 - s2) + (h 1 1 - s1) * h 1 0 + h 1 2 * h 2 0).re ∧
    s * v2 = ((h 2 0 : ℂ) * (h 0 0 - s2) + h 2 1 * h 1 0 + (h 2 2 - s1) * h 2 0).re := by
  unfold shiftcol3
  simp only [pure]
  by_cases hs : |h 0 0 - s2.re| + |s2.im| + |h 1 0| + |h 2 0| = 0
  · have h4 : h 2 0 = 0 := by
      have := abs_nonneg (h 2 0)
      apply abs_eq_zero.mp; linarith [abs_nonneg (h 0 0 - s2.re), abs_nonneg s2.im, abs_nonneg (h 1 0)]
    obtain ⟨e1, e2, e3⟩ := abs_sum_zero (x := h 0 0 - s2.re) (y := s2.im) (z := h 1 0) (by simpa [h4] using hs)
    rw [if_pos hs]
    refine ⟨0, 0, 0, 1, rfl, one_pos, ?_, ?_, ?_⟩ <;> simp [e1, e2, e3, h4]
  · rw [if_neg hs]
    simp only [dv_ne hs, bind_s]
    refine ⟨_, _, _, _, rfl, lt_of_le_of_ne (by positivity) (Ne.symm hs), ?_, ?_, ?_⟩
    all_goals
      generalize |h 0 0 - s2.re| + |s2.im| + |h 1 0| + |h 2 0| = s at *
      simp; field_simp; try ring

theorem shiftcol2C_ok (h : ℕ → ℕ → ℂ) (s1 s2 : ℂ) : ∃ v0 v1, ∃ s : ℝ, shiftcol2C h s1 s2 = some (v0, v1) ∧ 0 < s ∧
    s * v0 = (h 0 0 - s1) * (h 0 0 - s2) + h 0 1 * h 1 0 ∧
    s * v1 = h 1 0 * (h 0 0 - s2) + (h 1 1 - s1) * h 1 0 := by
  unfold shiftcol2C
  simp only [pure]
  by_cases hs : abs1 (h 0 0 - s2) + abs1 (h 1 0) = 0
  · have e1 := abs1_eq_zero (z := h 0 0 - s2) (by linarith [abs1_nonneg (h 0 0 - s2), abs1_nonneg (h 1 0)])
    have e2 := abs1_eq_zero (z := h 1 0) (by linarith [abs1_nonneg (h 0 0 - s2), abs1_nonneg (h 1 0)])
    rw [if_pos hs]
    refine ⟨0, 0, 1, rfl, one_pos, ?_, ?_⟩ <;> simp [e1, e2]
  · rw [if_neg hs]
    simp only [dvC_ne hs, bind_s]
    have hp := lt_of_le_of_ne (add_nonneg (abs1_nonneg (h 0 0 - s2)) (abs1_nonneg (h 1 0))) (Ne.symm hs)
    refine ⟨_, _, _, rfl, hp, ?_, ?_⟩
    all_goals
      generalize abs1 (h 0 0 - s2) + abs1 (h 1 0) = s at *
      have : (s : ℂ) ≠ 0 := by exact_mod_cast hs
      field_simp; ring

theorem shiftcol3C_ok (h : ℕ → ℕ → ℂ) (s1 s2 : ℂ) : ∃ v0 v1 v2, ∃ s : ℝ, shiftcol3C h s1 s2 = some (v0, v1, v2) ∧
    0 < s ∧ s * v0 = (h 0 0 - s1) * (h 0 0 - s2) + h 0 1 * h 1 0 + h 0 2 * h 2 0 ∧
    s * v1 = h 1 0 * (h 0 0 - s2) + (h 1 1 - s1) * h 1 0 + h 1 2 * h 2 0 ∧
    s * v2 = h 2 0 * (h 0 0 - s2) + h 2 1 * h 1 0 + (h 2 2 - s1) * h 2 0 := by
  unfold shiftcol3C
  simp only [pure]
  have n1 := abs1_nonneg (h 0 0 - s2)
  have n2 := abs1_nonneg (h 1 0)
  have n3 := abs1_nonneg (h 2 0)
  by_cases hs : abs1 (h 0 0 - s2) + abs1 (h 1 0) + abs1 (h 2 0) = 0
  · have e1 := abs1_eq_zero (z := h 0 0 - s2) (by linarith)
    have e2 := abs1_eq_zero (z := h 1 0) (by linarith)
    have e3 := abs1_eq_zero (z := h 2 0) (by linarith)
    rw [if_pos hs]
    refine ⟨0, 0, 0, 1, rfl, one_pos, ?_, ?_, ?_⟩ <;> simp [e1, e2, e3]
  · rw [if_neg hs]
    simp only [dvC_ne hs, bind_s]
    have hp := lt_of_le_of_ne (add_nonneg (add_nonneg n1 n2) n3) (Ne.symm hs)
    refine ⟨_, _, _, _, rfl, hp, ?_, ?_, ?_⟩
    all_goals
      generalize abs1 (h 0 0 - s2) + abs1 (h 1 0) + abs1 (h 2 0) = s at *
      have : (s : ℂ) ≠ 0 := by exact_mod_cast hs
      field_simp; try ring

/-! ## inv_house3 -/

/-- The tiny-pivot branch: the computed `u22` (lines 64-93). -/
noncomputable def invU22 (A : ℕ → ℕ → ℝ) : ℝ :=
  let r := if max |A 0 1| |A 0 2| ≥ max |A 1 1| |A 1 2| then 0 else 1
  if |A r 2| > |A r 1| then A (1 - r) 1 - A (1 - r) 2 / A r 2 * A r 1
  else A (1 - r) 2 - A (1 - r) 1 / A r 1 * A r 2

/-- The scale factor chosen in lines 98-107 is non-zero. -/
theorem invScale_ok {u11 u22 v1 v2 : ℝ} (h11 : u11 ≠ 0) (h22 : u22 ≠ 0) :
    ∃ s, s ≠ 0 ∧ (do
      let scale ← (if |u22| < |v2| then do pure |← dv u22 v2| else pure 1 : Option ℝ)
      (if |u11| < |v1| then do pure (min scale |← dv u11 v1|) else pure scale : Option ℝ)) = some s := by
  simp only [pure]
  have aux : ∃ s : ℝ, 0 < s ∧ (if |u22| < |v2| then (dv u22 v2) >>= fun x => some |x| else some 1) = some s := by
    by_cases h : |u22| < |v2|
    · have hv : v2 ≠ 0 := by rintro rfl; rw [abs_zero] at h; exact absurd h (not_lt.mpr (abs_nonneg _))
      rw [if_pos h]; simp only [dv_ne hv, bind_s]
      exact ⟨_, abs_pos.mpr (div_ne_zero h22 hv), rfl⟩
    · rw [if_neg h]; exact ⟨1, one_pos, rfl⟩
  obtain ⟨s, hs, e⟩ := aux
  rw [e, bind_s]
  by_cases h : |u11| < |v1|
  · have hv : v1 ≠ 0 := by rintro rfl; rw [abs_zero] at h; exact absurd h (not_lt.mpr (abs_nonneg _))
    rw [if_pos h]; simp only [dv_ne hv, bind_s]
    exact ⟨_, (lt_min hs (abs_pos.mpr (div_ne_zero h11 hv))).ne', rfl⟩
  · rw [if_neg h]; exact ⟨s, hs.ne', rfl⟩

theorem inv_solve {u11 u12 a21 a22 v1 v2 s u22 : ℝ} (h11 : u11 ≠ 0) (h22 : u22 ≠ 0)
    (hu : u22 = a22 - a21 / u11 * u12) :
    u11 * ((s * v1 - u12 * (s * (v2 - v1 * (a21 / u11)) / u22)) / u11) +
      u12 * (s * (v2 - v1 * (a21 / u11)) / u22) = s * v1 ∧
    a21 * ((s * v1 - u12 * (s * (v2 - v1 * (a21 / u11)) / u22)) / u11) +
      a22 * (s * (v2 - v1 * (a21 / u11)) / u22) = s * v2 := by
  have e : a22 = u22 + a21 / u11 * u12 := by linarith
  rw [e]
  constructor
  · field_simp; ring
  · field_simp; ring

/-- Outside the two tiny branches the result is a null vector of the first two rows with `v0 ≠ 0`. -/
theorem invHouse3_ok {sm : ℝ} (hsm : 0 < sm) {A : ℕ → ℕ → ℝ}
    (h1 : sm ≤ max |A 0 1| |A 0 2| ∨ sm ≤ max |A 1 1| |A 1 2|) (h2 : sm ≤ |invU22 A|) :
    ∃ v0 v1 v2, invHouse3 sm A = some (v0, v1, v2) ∧ v0 ≠ 0 ∧
      A 0 0 * v0 + A 0 1 * v1 + A 0 2 * v2 = 0 ∧ A 1 0 * v0 + A 1 1 * v1 + A 1 2 * v2 = 0 := by
  have hbig : ¬ (max |A 0 1| |A 0 2| < sm ∧ max |A 1 1| |A 1 2| < sm) := by
    rintro ⟨x, y⟩; rcases h1 with h | h <;> linarith
  have hrow : ∀ r, sm ≤ max |A r 1| |A r 2| →
      (|A r 2| > |A r 1| → A r 2 ≠ 0) ∧ (¬ |A r 2| > |A r 1| → A r 1 ≠ 0) := by
    intro r h
    constructor
    · intro h' h0
      rw [h0, abs_zero] at h'; exact absurd h' (not_lt.mpr (abs_nonneg _))
    · intro h' h0
      rw [h0, abs_zero] at h h'
      have : |A r 2| = 0 := le_antisymm (not_lt.mp h') (abs_nonneg _)
      rw [this, max_self] at h; linarith
  unfold invHouse3
  unfold invU22 at h2
  simp only [pure] at h2 ⊢
  rw [if_neg hbig]
  by_cases hr : max |A 0 1| |A 0 2| ≥ max |A 1 1| |A 1 2|
  · simp only [if_pos hr, Nat.sub_zero] at h2 ⊢
    have hm : sm ≤ max |A 0 1| |A 0 2| := by rcases h1 with h | h <;> linarith
    by_cases hc : |A 0 2| > |A 0 1|
    · have h11 := (hrow 0 hm).1 hc
      simp only [if_pos hc, dv_ne h11, bind_s] at h2 ⊢
      rw [if_neg (not_lt.mpr h2)]
      have h22 : A 1 1 - A 1 2 / A 0 2 * A 0 1 ≠ 0 := by intro h; rw [h, abs_zero] at h2; linarith
      obtain ⟨s, hs, e⟩ := invScale_ok (v1 := -A 0 0) (v2 := -A 1 0 - -A 0 0 * (A 1 2 / A 0 2)) h11 h22
      simp only [pure] at e
      rw [← bind_assoc, e]
      simp only [dv_ne h11, dv_ne h22, bind_s]
      obtain ⟨q1, q2⟩ := inv_solve (v1 := -A 0 0) (v2 := -A 1 0) (s := s) h11 h22 rfl
      exact ⟨_, _, _, rfl, hs, by linear_combination q1, by linear_combination q2⟩
    · have h11 := (hrow 0 hm).2 hc
      simp only [if_neg hc, dv_ne h11, bind_s] at h2 ⊢
      rw [if_neg (not_lt.mpr h2)]
      have h22 : A 1 2 - A 1 1 / A 0 1 * A 0 2 ≠ 0 := by intro h; rw [h, abs_zero] at h2; linarith
      obtain ⟨s, hs, e⟩ := invScale_ok (v1 := -A 0 0) (v2 := -A 1 0 - -A 0 0 * (A 1 1 / A 0 1)) h11 h22
      simp only [pure] at e
      rw [← bind_assoc, e]
      simp only [dv_ne h11, dv_ne h22, bind_s]
      obtain ⟨q1, q2⟩ := inv_solve (v1 := -A 0 0) (v2 := -A 1 0) (s := s) h11 h22 rfl
      exact ⟨_, _, _, rfl, hs, by linear_combination q1, by linear_combination q2⟩
  · simp only [if_neg hr, Nat.sub_self] at h2 ⊢
    have hm : sm ≤ max |A 1 1| |A 1 2| := by rcases h1 with h | h <;> linarith
    by_cases hc : |A 1 2| > |A 1 1|
    · have h11 := (hrow 1 hm).1 hc
      simp only [if_pos hc, dv_ne h11, bind_s] at h2 ⊢
      rw [if_neg (not_lt.mpr h2)]
      have h22 : A 0 1 - A 0 2 / A 1 2 * A 1 1 ≠ 0 := by intro h; rw [h, abs_zero] at h2; linarith
      obtain ⟨s, hs, e⟩ := invScale_ok (v1 := -A 1 0) (v2 := -A 0 0 - -A 1 0 * (A 0 2 / A 1 2)) h11 h22
      simp only [pure] at e
      rw [← bind_assoc, e]
      simp only [dv_ne h11, dv_ne h22, bind_s]
      obtain ⟨q1, q2⟩ := inv_solve (v1 := -A 1 0) (v2 := -A 0 0) (s := s) h11 h22 rfl
      exact ⟨_, _, _, rfl, hs, by linear_combination q2, by linear_combination q1⟩
    · have h11 := (hrow 1 hm).2 hc
      simp only [if_neg hc, dv_ne h11, bind_s] at h2 ⊢
      rw [if_neg (not_lt.mpr h2)]
      have h22 : A 0 2 - A 0 1 / A 1 1 * A 1 2 ≠ 0 := by intro h; rw [h, abs_zero] at h2; linarith
      obtain ⟨s, hs, e⟩ := invScale_ok (v1 := -A 1 0) (v2 := -A 0 0 - -A 1 0 * (A 0 1 / A 1 1)) h11 h22
      simp only [pure] at e
      rw [← bind_assoc, e]
      simp only [dv_ne h11, dv_ne h22, bind_s]
      obtain ⟨q1, q2⟩ := inv_solve (v1 := -A 1 0) (v2 := -A 0 0) (s := s) h11 h22 rfl
      exact ⟨_, _, _, rfl, hs, by linear_combination q2, by linear_combination q1⟩

/-- Negligible last two columns: the second unit vector, and the residual is below `safemin`. -/
theorem invHouse3_tiny {sm : ℝ} {A : ℕ → ℕ → ℝ} (h1 : max |A 0 1| |A 0 2| < sm) (h2 : max |A 1 1| |A 1 2| < sm) :
    invHouse3 sm A = some (0, 1, 0) ∧ |A 0 0 * 0 + A 0 1 * 1 + A 0 2 * 0| < sm ∧
      |A 1 0 * 0 + A 1 1 * 1 + A 1 2 * 0| < sm := by
  unfold invHouse3
  refine ⟨if_pos ⟨h1, h2⟩, ?_, ?_⟩
  · have := le_max_left |A 0 1| |A 0 2|; simp; linarith
  · have := le_max_left |A 1 1| |A 1 2|; simp; linarith

/-- The pivot row chosen in line 64. -/
noncomputable def invRow (A : ℕ → ℕ → ℝ) : ℕ := if max |A 0 1| |A 0 2| ≥ max |A 1 1| |A 1 2| then 0 else 1

/-- The tiny-pivot branch is right when the columns were swapped: the residual is below `safemin`. -/
theorem invHouse3_swapped {sm : ℝ} (hsm : 0 < sm) {A : ℕ → ℕ → ℝ}
    (h1 : sm ≤ max |A 0 1| |A 0 2| ∨ sm ≤ max |A 1 1| |A 1 2|) (hc : |A (invRow A) 1| < |A (invRow A) 2|)
    (h2 : |invU22 A| < sm) :
    ∃ v1 v2, invHouse3 sm A = some (0, v1, v2) ∧ v1 = 1 ∧ A (invRow A) 1 * v1 + A (invRow A) 2 * v2 = 0 ∧
      |A (1 - invRow A) 1 * v1 + A (1 - invRow A) 2 * v2| < sm := by
  have h11 : A (invRow A) 2 ≠ 0 := by
    intro h0; rw [h0, abs_zero] at hc; exact absurd hc (not_lt.mpr (abs_nonneg _))
  unfold invHouse3
  change |if |A (invRow A) 2| > |A (invRow A) 1| then A (1 - invRow A) 1 - A (1 - invRow A) 2 / A (invRow A) 2 * A (invRow A) 1
    else A (1 - invRow A) 2 - A (1 - invRow A) 1 / A (invRow A) 1 * A (invRow A) 2| < sm at h2
  rw [if_pos hc] at h2
  simp only [pure]
  rw [if_neg (by rintro ⟨x, y⟩; rcases h1 with h | h <;> linarith)]
  simp only [← show invRow A = if max |A 0 1| |A 0 2| ≥ max |A 1 1| |A 1 2| then 0 else 1 from rfl,
    if_pos (show |A (invRow A) 2| > |A (invRow A) 1| from hc), dv_ne h11, bind_s]
  rw [if_pos h2]
  refine ⟨_, _, rfl, rfl, by field_simp; ring, ?_⟩
  have : A (1 - invRow A) 1 * 1 + A (1 - invRow A) 2 * (-A (invRow A) 1 / A (invRow A) 2) =
    A (1 - invRow A) 1 - A (1 - invRow A) 2 / A (invRow A) 2 * A (invRow A) 1 := by ring
  rw [this]; exact h2

/-- The tiny-pivot branch without a swap: the residual of the pivot row. -/
theorem invHouse3_unswapped {sm : ℝ} (hsm : 0 < sm) {A : ℕ → ℕ → ℝ}
    (h1 : sm ≤ max |A 0 1| |A 0 2| ∨ sm ≤ max |A 1 1| |A 1 2|) (hc : |A (invRow A) 2| ≤ |A (invRow A) 1|)
    (h2 : |invU22 A| < sm) :
    ∃ v1 v2, invHouse3 sm A = some (0, v1, v2) ∧ (A (invRow A) 1 * v1 + A (invRow A) 2 * v2) * A (invRow A) 1 =
      A (invRow A) 1 ^ 2 - A (invRow A) 2 ^ 2 := by
  have hm : sm ≤ max |A (invRow A) 1| |A (invRow A) 2| := by
    unfold invRow
    split
    · rename_i hr; rcases h1 with h | h <;> linarith
    · rename_i hr; rcases h1 with h | h <;> linarith
  have h11 : A (invRow A) 1 ≠ 0 := by
    intro h0
    rw [h0, abs_zero] at hc hm
    have : |A (invRow A) 2| = 0 := le_antisymm hc (abs_nonneg _)
    rw [this, max_self] at hm; linarith
  unfold invHouse3
  change |if |A (invRow A) 2| > |A (invRow A) 1| then A (1 - invRow A) 1 - A (1 - invRow A) 2 / A (invRow A) 2 * A (invRow A) 1
    else A (1 - invRow A) 2 - A (1 - invRow A) 1 / A (invRow A) 1 * A (invRow A) 2| < sm at h2
  rw [if_neg (not_lt.mpr hc)] at h2
  simp only [pure]
  rw [if_neg (by rintro ⟨x, y⟩; rcases h1 with h | h <;> linarith)]
  simp only [← show invRow A = if max |A 0 1| |A 0 2| ≥ max |A 1 1| |A 1 2| then 0 else 1 from rfl,
    if_neg (show ¬ |A (invRow A) 2| > |A (invRow A) 1| from not_lt.mpr hc), dv_ne h11, bind_s]
  rw [if_pos h2]
  refine ⟨_, _, rfl, by field_simp; ring⟩

end TLA.Kernel
