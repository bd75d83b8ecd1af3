import Verif.Proofs.LahqzC

/-! Proofs about `lahqz_shiftcolumn`. -/

set_option linter.unusedVariables false
set_option linter.unusedSimpArgs false
set_option linter.unnecessarySimpa false

namespace TLA.Kernel
open Matrix

variable {K : Type} [Field K]

/-- Solving with the leading 2 by 2 block of an upper triangular matrix gives the inverse. -/
theorem inv_mulVec3 {b : Nat → Nat → K} (h0 : b 0 0 ≠ 0) (h1 : b 1 1 ≠ 0) (h2 : b 2 2 ≠ 0) (w1 w2 : K) :
    (!![b 0 0, b 0 1, b 0 2; 0, b 1 1, b 1 2; 0, 0, b 2 2] : Matrix (Fin 3) (Fin 3) K)⁻¹ *ᵥ ![w1, w2, 0]
      = ![(w1 - b 0 1 * (w2 / b 1 1)) / b 0 0, w2 / b 1 1, 0] := by
  have hd : IsUnit (!![b 0 0, b 0 1, b 0 2; 0, b 1 1, b 1 2; 0, 0, b 2 2] : Matrix (Fin 3) (Fin 3) K).det := by
    rw [Matrix.det_fin_three]
    simp [h0, h1, h2]
  have e : (!![b 0 0, b 0 1, b 0 2; 0, b 1 1, b 1 2; 0, 0, b 2 2] : Matrix (Fin 3) (Fin 3) K) *ᵥ
      ![(w1 - b 0 1 * (w2 / b 1 1)) / b 0 0, w2 / b 1 1, 0] = ![w1, w2, 0] := by
    ext i
    fin_cases i
    · simp [Matrix.mulVec, dotProduct, Fin.sum_univ_three]; field_simp; ring
    · simp [Matrix.mulVec, dotProduct, Fin.sum_univ_three]; field_simp
    · simp [Matrix.mulVec, dotProduct, Fin.sum_univ_three]
  rw [← e, Matrix.mulVec_mulVec, Matrix.nonsing_inv_mul _ hd, Matrix.one_mulVec]

/-- The shift column, computed by hand. -/
theorem qzShiftCol_eq {a b : Nat → Nat → K} (h0 : b 0 0 ≠ 0) (h1 : b 1 1 ≠ 0) (h2 : b 2 2 ≠ 0) (s1 s2 be1 be2 : K)
    {w1 w2 u1 u2 : K} (hw1 : w1 = (be1 * a 0 0 - s1 * b 0 0) / b 0 0) (hw2 : w2 = be1 * a 1 0 / b 0 0)
    (hu2 : u2 = w2 / b 1 1) (hu1 : u1 = (w1 - b 0 1 * u2) / b 0 0) :
    qzShiftCol !![a 0 0, a 0 1, a 0 2; a 1 0, a 1 1, a 1 2; 0, a 2 1, a 2 2]
        !![b 0 0, b 0 1, b 0 2; 0, b 1 1, b 1 2; 0, 0, b 2 2] s1 s2 be1 be2
      = ![be2 * (a 0 0 * u1 + a 0 1 * u2) - s2 * (b 0 0 * u1 + b 0 1 * u2),
          be2 * (a 1 0 * u1 + a 1 1 * u2) - s2 * (b 1 1 * u2), be2 * (a 2 1 * u2)] := by
  unfold qzShiftCol
  rw [← Matrix.mulVec_mulVec, ← Matrix.mulVec_mulVec, ← Matrix.mulVec_mulVec]
  have e1 := inv_mulVec3 h0 h1 h2 (1 : K) 0
  rw [e1]
  have e2 : (be1 • (!![a 0 0, a 0 1, a 0 2; a 1 0, a 1 1, a 1 2; 0, a 2 1, a 2 2] : Matrix (Fin 3) (Fin 3) K)
      - s1 • !![b 0 0, b 0 1, b 0 2; 0, b 1 1, b 1 2; 0, 0, b 2 2]) *ᵥ ![((1 : K) - b 0 1 * (0 / b 1 1)) / b 0 0, 0 / b 1 1, 0]
      = ![w1, w2, 0] := by
    ext i
    fin_cases i
    · simp [Matrix.mulVec, dotProduct, Fin.sum_univ_three, hw1]; field_simp
    · simp [Matrix.mulVec, dotProduct, Fin.sum_univ_three, hw2]; field_simp
    · simp [Matrix.mulVec, dotProduct, Fin.sum_univ_three]
  rw [e2, inv_mulVec3 h0 h1 h2, ← hu2, ← hu1]
  ext i
  fin_cases i
  · simp [Matrix.mulVec, dotProduct, Fin.sum_univ_three]; ring
  · simp [Matrix.mulVec, dotProduct, Fin.sum_univ_three]; ring
  · simp [Matrix.mulVec, dotProduct, Fin.sum_univ_three]; ring

/-- The rescaling multiplies by a nonzero number. -/
theorem qzW_real {smin smax : ℝ} (h : 0 < smin) (w1 w2 : ℝ) :
    ∃ t : ℝ, 0 < t ∧ qzW dv (fun x => |x|) smin smax w1 w2 = some (t * w1, t * w2, Real.sqrt |w1| * Real.sqrt |w2|) ∧
      (smin ≤ Real.sqrt |w1| * Real.sqrt |w2| → Real.sqrt |w1| * Real.sqrt |w2| ≤ smax → t = 1 / (Real.sqrt |w1| * Real.sqrt |w2|)) := by
  unfold qzW
  simp only [pure]
  by_cases hc : smin ≤ Real.sqrt |w1| * Real.sqrt |w2| ∧ Real.sqrt |w1| * Real.sqrt |w2| ≤ smax
  · rw [if_pos hc]
    have hp := lt_of_lt_of_le h hc.1
    simp only [dv_ne hp.ne', bind_s]
    refine ⟨1 / (Real.sqrt |w1| * Real.sqrt |w2|), by positivity, ?_, fun _ _ => rfl⟩
    rw [one_div_mul_eq_div, one_div_mul_eq_div]
  · rw [if_neg hc]
    exact ⟨1, one_pos, by simp, fun h1 h2 => absurd ⟨h1, h2⟩ hc⟩

theorem qzW_complex {smin smax : ℝ} (h : 0 < smin) (w1 w2 : ℂ) :
    ∃ t : ℂ, t ≠ 0 ∧ ∃ sc, qzW dvC abs1 smin smax w1 w2 = some (t * w1, t * w2, sc) := by
  unfold qzW
  simp only [pure]
  by_cases hc : smin ≤ Real.sqrt (abs1 w1) * Real.sqrt (abs1 w2) ∧ Real.sqrt (abs1 w1) * Real.sqrt (abs1 w2) ≤ smax
  · rw [if_pos hc]
    have hp := lt_of_lt_of_le h hc.1
    simp only [dvC_ne hp.ne', bind_s]
    refine ⟨((1 / (Real.sqrt (abs1 w1) * Real.sqrt (abs1 w2)) : ℝ) : ℂ), by exact_mod_cast (one_div_pos.mpr hp).ne', Real.sqrt (abs1 w1) * Real.sqrt (abs1 w2), ?_⟩
    push_cast
    rw [one_div_mul_eq_div, one_div_mul_eq_div]
  · rw [if_neg hc]
    exact ⟨1, one_ne_zero, Real.sqrt (abs1 w1) * Real.sqrt (abs1 w2), by simp⟩

/-- The complex version. -/
theorem qzShift3C_ok {smin smax : ℝ} (h : 0 < smin) {a b : Nat → Nat → ℂ} (ha : a 2 0 = 0)
    (hb : b 1 0 = 0 ∧ b 2 0 = 0 ∧ b 2 1 = 0) (h0 : b 0 0 ≠ 0) (h1 : b 1 1 ≠ 0) (h2 : b 2 2 ≠ 0) (s1 s2 be1 be2 : ℂ) :
    ∃ x y z, qzShift3C smin smax a b s1 s2 be1 be2 = some (x, y, z) ∧
      ∃ κ : ℂ, κ ≠ 0 ∧ ((x, y, z) = (0, 0, 0) ∧
          (∃ i, smax < abs1 (κ * qzShiftCol !![a 0 0, a 0 1, a 0 2; a 1 0, a 1 1, a 1 2; 0, a 2 1, a 2 2]
            !![b 0 0, b 0 1, b 0 2; 0, b 1 1, b 1 2; 0, 0, b 2 2] s1 s2 be1 be2 i)) ∨
        ![x, y, z] = κ • qzShiftCol !![a 0 0, a 0 1, a 0 2; a 1 0, a 1 1, a 1 2; 0, a 2 1, a 2 2]
            !![b 0 0, b 0 1, b 0 2; 0, b 1 1, b 1 2; 0, 0, b 2 2] s1 s2 be1 be2) := by
  obtain ⟨hb10, hb20, hb21⟩ := hb
  unfold qzShift3C
  simp only [pure]
  obtain ⟨t1, ht1, sc1, e1⟩ := qzW_complex (smax := smax) h (be1 * a 0 0 - s1 * b 0 0) (be1 * a 1 0 - s1 * b 1 0)
  simp only [e1, bind_s, dvz_ne h1, dvz_ne h0]
  obtain ⟨t2, ht2, sc2, e2⟩ := qzW_complex (smax := smax) h ((t1 * (be1 * a 0 0 - s1 * b 0 0) - b 0 1 * (t1 * (be1 * a 1 0 - s1 * b 1 0) / b 1 1)) / b 0 0)
    (t1 * (be1 * a 1 0 - s1 * b 1 0) / b 1 1)
  simp only [e2, bind_s]
  have key : ![be2 * (a 0 0 * (t2 * ((t1 * (be1 * a 0 0 - s1 * b 0 0) - b 0 1 * (t1 * (be1 * a 1 0 - s1 * b 1 0) / b 1 1)) / b 0 0)) + a 0 1 * (t2 * (t1 * (be1 * a 1 0 - s1 * b 1 0) / b 1 1))) -
        s2 * (b 0 0 * (t2 * ((t1 * (be1 * a 0 0 - s1 * b 0 0) - b 0 1 * (t1 * (be1 * a 1 0 - s1 * b 1 0) / b 1 1)) / b 0 0)) + b 0 1 * (t2 * (t1 * (be1 * a 1 0 - s1 * b 1 0) / b 1 1))),
      be2 * (a 1 0 * (t2 * ((t1 * (be1 * a 0 0 - s1 * b 0 0) - b 0 1 * (t1 * (be1 * a 1 0 - s1 * b 1 0) / b 1 1)) / b 0 0)) + a 1 1 * (t2 * (t1 * (be1 * a 1 0 - s1 * b 1 0) / b 1 1))) -
        s2 * (b 1 0 * (t2 * ((t1 * (be1 * a 0 0 - s1 * b 0 0) - b 0 1 * (t1 * (be1 * a 1 0 - s1 * b 1 0) / b 1 1)) / b 0 0)) + b 1 1 * (t2 * (t1 * (be1 * a 1 0 - s1 * b 1 0) / b 1 1))),
      be2 * (a 2 0 * (t2 * ((t1 * (be1 * a 0 0 - s1 * b 0 0) - b 0 1 * (t1 * (be1 * a 1 0 - s1 * b 1 0) / b 1 1)) / b 0 0)) + a 2 1 * (t2 * (t1 * (be1 * a 1 0 - s1 * b 1 0) / b 1 1))) -
        s2 * (b 2 0 * (t2 * ((t1 * (be1 * a 0 0 - s1 * b 0 0) - b 0 1 * (t1 * (be1 * a 1 0 - s1 * b 1 0) / b 1 1)) / b 0 0)) + b 2 1 * (t2 * (t1 * (be1 * a 1 0 - s1 * b 1 0) / b 1 1)))]
      = (t1 * t2 * b 0 0) • qzShiftCol !![a 0 0, a 0 1, a 0 2; a 1 0, a 1 1, a 1 2; 0, a 2 1, a 2 2]
            !![b 0 0, b 0 1, b 0 2; 0, b 1 1, b 1 2; 0, 0, b 2 2] s1 s2 be1 be2 := by
    rw [qzShiftCol_eq h0 h1 h2 s1 s2 be1 be2 rfl rfl rfl rfl, ha, hb10, hb20, hb21]
    ext i
    fin_cases i <;> simp <;> field_simp <;> ring
  have hκ : t1 * t2 * b 0 0 ≠ 0 := mul_ne_zero (mul_ne_zero ht1 ht2) h0
  generalize t1 * t2 * b 0 0 = κ at key hκ
  generalize t2 * ((t1 * (be1 * a 0 0 - s1 * b 0 0) - b 0 1 * (t1 * (be1 * a 1 0 - s1 * b 1 0) / b 1 1)) / b 0 0) = u1 at key ⊢
  generalize t2 * (t1 * (be1 * a 1 0 - s1 * b 1 0) / b 1 1) = u2 at key ⊢
  have k0 := congrFun key 0
  have k1 := congrFun key 1
  have k2 := congrFun key 2
  simp only [Pi.smul_apply, smul_eq_mul, Matrix.cons_val_zero, Matrix.cons_val_one, Matrix.cons_val] at k0 k1 k2
  split_ifs with hc
  · refine ⟨_, _, _, rfl, κ, hκ, Or.inl ⟨rfl, ?_⟩⟩
    rcases hc with hc | hc | hc
    · exact ⟨0, by rw [← k0]; exact hc⟩
    · exact ⟨1, by rw [← k1]; exact hc⟩
    · exact ⟨2, by rw [← k2]; exact hc⟩
  · exact ⟨_, _, _, rfl, κ, hκ, Or.inr key⟩

/-- The 3 by 3 pencil of the real routine, as complex matrices. -/
def qzA (a : Nat → Nat → ℝ) : Matrix (Fin 3) (Fin 3) ℂ :=
  !![(a 0 0 : ℂ), (a 0 1 : ℂ), (a 0 2 : ℂ); (a 1 0 : ℂ), (a 1 1 : ℂ), (a 1 2 : ℂ); 0, (a 2 1 : ℂ), (a 2 2 : ℂ)]

def qzB (b : Nat → Nat → ℝ) : Matrix (Fin 3) (Fin 3) ℂ :=
  !![(b 0 0 : ℂ), (b 0 1 : ℂ), (b 0 2 : ℂ); 0, (b 1 1 : ℂ), (b 1 2 : ℂ); 0, 0, (b 2 2 : ℂ)]

/-- `scale1` and (for unscaled `w`) `scale2` of lahqz_shiftcolumn. -/
noncomputable def qzS1 (a b : Nat → Nat → ℝ) (s1 : ℂ) (be1 : ℝ) : ℝ :=
  Real.sqrt |be1 * a 0 0 - s1.re * b 0 0| * Real.sqrt |be1 * a 1 0 - s1.re * b 1 0|

noncomputable def qzS2 (a b : Nat → Nat → ℝ) (s1 : ℂ) (be1 : ℝ) : ℝ :=
  Real.sqrt |(be1 * a 0 0 - s1.re * b 0 0 - b 0 1 * ((be1 * a 1 0 - s1.re * b 1 0) / b 1 1)) / b 0 0| *
    Real.sqrt |(be1 * a 1 0 - s1.re * b 1 0) / b 1 1|

theorem sqrt_scale {t x y : ℝ} (ht : 0 < t) : Real.sqrt |t * x| * Real.sqrt |t * y| = t * (Real.sqrt |x| * Real.sqrt |y|) := by
  rw [abs_mul, abs_mul, abs_of_pos ht, Real.sqrt_mul ht.le, Real.sqrt_mul ht.le]
  linear_combination Real.sqrt |x| * Real.sqrt |y| * Real.mul_self_sqrt ht.le

set_option maxHeartbeats 1000000 in
/-- The real version. -/
theorem qzShift3_ok {smin smax : ℝ} (h : 0 < smin) {a b : Nat → Nat → ℝ} (ha : a 2 0 = 0)
    (hb : b 1 0 = 0 ∧ b 2 0 = 0 ∧ b 2 1 = 0) (h0 : b 0 0 ≠ 0) (h1 : b 1 1 ≠ 0) (h2 : b 2 2 ≠ 0) {s1 s2 : ℂ} {be1 be2 : ℝ}
    (hp1 : qzS1 a b s1 be1 ≠ 0) (hp2 : qzS2 a b s1 be1 ≠ 0)
    (hs : (s1.im = 0 ∧ s2.im = 0) ∨ (s2 = star s1 ∧ be1 = be2 ∧ smin ≤ qzS1 a b s1 be1 ∧ qzS1 a b s1 be1 ≤ smax ∧
      smin ≤ qzS2 a b s1 be1 / qzS1 a b s1 be1 ∧ qzS2 a b s1 be1 / qzS1 a b s1 be1 ≤ smax)) :
    ∃ x y z, qzShift3 smin smax a b s1 s2 be1 be2 = some (x, y, z) ∧
      ∃ κ : ℝ, κ ≠ 0 ∧ ((x, y, z) = (0, 0, 0) ∧
          (∃ i, smax < ‖(κ : ℂ) * qzShiftCol (qzA a) (qzB b) s1 s2 be1 be2 i‖) ∨
        ![(x : ℂ), (y : ℂ), (z : ℂ)] = (κ : ℂ) • qzShiftCol (qzA a) (qzB b) s1 s2 be1 be2) := by
  obtain ⟨hb10, hb20, hb21⟩ := hb
  have h0' : (b 0 0 : ℂ) ≠ 0 := by exact_mod_cast h0
  have h1' : (b 1 1 : ℂ) ≠ 0 := by exact_mod_cast h1
  have h2' : (b 2 2 : ℂ) ≠ 0 := by exact_mod_cast h2
  unfold qzShift3
  simp only [pure]
  obtain ⟨t1, ht1, e1, t1s⟩ := qzW_real (smax := smax) h (be1 * a 0 0 - s1.re * b 0 0) (be1 * a 1 0 - s1.re * b 1 0)
  simp only [e1, bind_s, dv_ne h1, dv_ne h0]
  have f2 : t1 * (be1 * a 1 0 - s1.re * b 1 0) / b 1 1 = t1 * ((be1 * a 1 0 - s1.re * b 1 0) / b 1 1) := by ring
  have f1 : (t1 * (be1 * a 0 0 - s1.re * b 0 0) - b 0 1 * (t1 * (be1 * a 1 0 - s1.re * b 1 0) / b 1 1)) / b 0 0
      = t1 * ((be1 * a 0 0 - s1.re * b 0 0 - b 0 1 * ((be1 * a 1 0 - s1.re * b 1 0) / b 1 1)) / b 0 0) := by ring
  rw [f1, f2]
  obtain ⟨t2, ht2, e2, t2s⟩ := qzW_real (smax := smax) h (t1 * ((be1 * a 0 0 - s1.re * b 0 0 - b 0 1 * ((be1 * a 1 0 - s1.re * b 1 0) / b 1 1)) / b 0 0))
    (t1 * ((be1 * a 1 0 - s1.re * b 1 0) / b 1 1))
  rw [sqrt_scale ht1] at e2 t2s
  rw [e2]
  change qzS1 a b s1 be1 ≠ 0 at hp1
  have es1 : Real.sqrt |be1 * a 0 0 - s1.re * b 0 0| * Real.sqrt |be1 * a 1 0 - s1.re * b 1 0| = qzS1 a b s1 be1 := rfl
  have es2 : Real.sqrt |(be1 * a 0 0 - s1.re * b 0 0 - b 0 1 * ((be1 * a 1 0 - s1.re * b 1 0) / b 1 1)) / b 0 0| *
    Real.sqrt |(be1 * a 1 0 - s1.re * b 1 0) / b 1 1| = qzS2 a b s1 be1 := rfl
  rw [es1] at t1s
  rw [es2] at t2s ⊢
  rw [es1]
  simp only [bind_s, dv_ne hp1, dv_ne (mul_ne_zero ht1.ne' hp2)]
  have hy : s1.im * s1.im * b 0 0 / qzS1 a b s1 be1 / (t1 * qzS2 a b s1 be1) = t1 * t2 * (s1.im * s1.im * b 0 0) ∧
      ((s1.im = 0 ∧ s2.im = 0) ∨ (s2 = star s1 ∧ be1 = be2)) := by
    rcases hs with ⟨k1, k2⟩ | ⟨k1, k2, k3, k4, k5, k6⟩
    · exact ⟨by rw [k1]; simp, Or.inl ⟨k1, k2⟩⟩
    · refine ⟨?_, Or.inr ⟨k1, k2⟩⟩
      have g1 := t1s k3 k4
      rw [g1, one_div_mul_eq_div] at t2s
      have g2 := t2s k5 k6
      rw [g1, g2]; field_simp
  rw [hy.1]
  replace hy := hy.2
  clear t1s t2s e1 e2 f1 f2 hs
  have key : ![((be2 * (a 0 0 * (t2 * (t1 * ((be1 * a 0 0 - s1.re * b 0 0 - b 0 1 * ((be1 * a 1 0 - s1.re * b 1 0) / b 1 1)) / b 0 0))) + a 0 1 * (t2 * (t1 * ((be1 * a 1 0 - s1.re * b 1 0) / b 1 1)))) -
        s2.re * (b 0 0 * (t2 * (t1 * ((be1 * a 0 0 - s1.re * b 0 0 - b 0 1 * ((be1 * a 1 0 - s1.re * b 1 0) / b 1 1)) / b 0 0))) + b 0 1 * (t2 * (t1 * ((be1 * a 1 0 - s1.re * b 1 0) / b 1 1)))) + t1 * t2 * (s1.im * s1.im * b 0 0) : ℝ) : ℂ),
      ((be2 * (a 1 0 * (t2 * (t1 * ((be1 * a 0 0 - s1.re * b 0 0 - b 0 1 * ((be1 * a 1 0 - s1.re * b 1 0) / b 1 1)) / b 0 0))) + a 1 1 * (t2 * (t1 * ((be1 * a 1 0 - s1.re * b 1 0) / b 1 1)))) -
        s2.re * (b 1 0 * (t2 * (t1 * ((be1 * a 0 0 - s1.re * b 0 0 - b 0 1 * ((be1 * a 1 0 - s1.re * b 1 0) / b 1 1)) / b 0 0))) + b 1 1 * (t2 * (t1 * ((be1 * a 1 0 - s1.re * b 1 0) / b 1 1)))) : ℝ) : ℂ),
      ((be2 * (a 2 0 * (t2 * (t1 * ((be1 * a 0 0 - s1.re * b 0 0 - b 0 1 * ((be1 * a 1 0 - s1.re * b 1 0) / b 1 1)) / b 0 0))) + a 2 1 * (t2 * (t1 * ((be1 * a 1 0 - s1.re * b 1 0) / b 1 1)))) -
        s2.re * (b 2 0 * (t2 * (t1 * ((be1 * a 0 0 - s1.re * b 0 0 - b 0 1 * ((be1 * a 1 0 - s1.re * b 1 0) / b 1 1)) / b 0 0))) + b 2 1 * (t2 * (t1 * ((be1 * a 1 0 - s1.re * b 1 0) / b 1 1)))) : ℝ) : ℂ)]
      = ((t1 * t2 * b 0 0 : ℝ) : ℂ) • qzShiftCol (qzA a) (qzB b) s1 s2 be1 be2 := by
    unfold qzA qzB
    rw [qzShiftCol_eq (a := fun i j => (a i j : ℂ)) (b := fun i j => (b i j : ℂ)) h0' h1' h2' s1 s2 be1 be2 rfl rfl rfl rfl, ha, hb10, hb20, hb21]
    rcases hy with ⟨k1, k2⟩ | ⟨k1, k2⟩
    · have r1 : s1 = (s1.re : ℂ) := Complex.ext rfl (by simp [k1])
      have r2 : s2 = (s2.re : ℂ) := Complex.ext rfl (by simp [k2])
      rw [k1]
      conv_rhs => rw [r1, r2]
      ext i
      fin_cases i <;> simp <;> field_simp <;> ring
    · subst k2
      have r2 : s2.re = s1.re := by rw [k1]; simp
      rw [r2, k1]
      have r1 : s1 = (s1.re : ℂ) + s1.im * Complex.I := (Complex.re_add_im s1).symm
      have r3 : star s1 = (s1.re : ℂ) - s1.im * Complex.I := by
        apply Complex.ext <;> simp
      rw [r3]
      generalize s1.re = x at *
      generalize s1.im = y at *
      rw [r1]
      have hI := Complex.I_mul_I
      generalize Complex.I = I at *
      ext i
      fin_cases i
      · simp
        field_simp
        linear_combination ((t2 : ℂ) * t1 * (b 0 0 : ℂ) ^ 2 * (b 1 1 : ℂ) * y ^ 2) * hI
      · simp
        field_simp
        ring
      · simp
        field_simp
  have hκ : t1 * t2 * b 0 0 ≠ 0 := mul_ne_zero (mul_ne_zero ht1.ne' ht2.ne') h0
  generalize t1 * t2 * b 0 0 = κ at key hκ
  generalize t2 * (t1 * ((be1 * a 0 0 - s1.re * b 0 0 - b 0 1 * ((be1 * a 1 0 - s1.re * b 1 0) / b 1 1)) / b 0 0)) = u1 at key ⊢
  generalize t2 * (t1 * ((be1 * a 1 0 - s1.re * b 1 0) / b 1 1)) = u2 at key ⊢
  have k0 := congrFun key 0
  have k1 := congrFun key 1
  have k2 := congrFun key 2
  simp only [Pi.smul_apply, smul_eq_mul, Matrix.cons_val_zero, Matrix.cons_val_one, Matrix.cons_val] at k0 k1 k2
  split_ifs with hc
  · refine ⟨_, _, _, rfl, κ, hκ, Or.inl ⟨rfl, ?_⟩⟩
    rcases hc with hc | hc | hc
    · exact ⟨0, by rw [← k0, Complex.norm_real]; exact hc⟩
    · exact ⟨1, by rw [← k1, Complex.norm_real]; exact hc⟩
    · exact ⟨2, by rw [← k2, Complex.norm_real]; exact hc⟩
  · exact ⟨_, _, _, rfl, κ, hκ, Or.inr key⟩

end TLA.Kernel
