import Verif.Model.Lahqz
import Verif.SpecQz
import Verif.Proofs.KernelSchur
import Verif.Proofs.RotView

/-! Proofs about `lahqz_eig22` and `lahqz_shiftcolumn`. -/

set_option linter.unusedVariables false
set_option linter.unusedSimpArgs false
set_option linter.unnecessarySimpa false

namespace TLA.Kernel
open Matrix

/-- The determinant of a pencil, written out. -/
def pdet {K : Type} [CommRing K] (a00 a01 a10 a11 b00 b01 b11 x y : K) : K :=
  (x * a00 - y * b00) * (x * a11 - y * b11) - (x * a01 - y * b01) * (x * a10)

theorem pdet_eq (A00 A01 A10 A11 b00 b01 b11 x y : ℂ) :
    (x • !![A00, A01; A10, A11] - y • !![b00, b01; 0, b11]).det = pdet A00 A01 A10 A11 b00 b01 b11 x y := by
  rw [Matrix.det_fin_two]
  simp [pdet]

theorem le_max3 {a b c d : ℝ} : d ≤ max (max a b) (max c d) := (le_max_right c d).trans (le_max_right _ _)

/-! ### Scaling of the eigenvalues -/

theorem qzScale_ok {sm ascale bsize bnorm : ℝ} (hs : 0 < sm) (alpha : ℂ) :
    ∃ w : ℝ, 0 < w ∧ qzScale sm ascale bsize bnorm alpha = some ((w : ℂ) * alpha, w * (ascale * bsize)) := by
  unfold qzScale
  have e4 : (if ascale ≤ 1 ∧ bsize ≤ 1 then do pure (min 1 ((← dv ascale sm) * bsize)) else pure 1 : Option ℝ)
      = some (if ascale ≤ 1 ∧ bsize ≤ 1 then min 1 (ascale / sm * bsize) else 1) := by
    by_cases h : ascale ≤ 1 ∧ bsize ≤ 1
    · rw [if_pos h, if_pos h]; simp [dv_ne hs.ne']
    · rw [if_neg h, if_neg h]; rfl
  simp only [pure] at e4 ⊢
  rw [e4]
  simp only [bind_s]
  generalize (if ascale ≤ 1 ∧ bsize ≤ 1 then min 1 (ascale / sm * bsize) else 1) = c4
  generalize (if ascale ≤ 1 ∨ bsize ≤ 1 then min 1 (ascale * bsize) else 1) = c5
  have hw : 0 < max (max sm (bsize * (sm * max 1 ascale))) (max ((1 + 1 / 100000) * (abs1 alpha * (sm * max 1 bnorm) + bsize * sm))
      (min c4 (1 / 2 * max (abs1 alpha) c5))) := lt_of_lt_of_le hs ((le_max_left _ _).trans (le_max_left _ _))
  generalize max (max sm (bsize * (sm * max 1 ascale))) (max ((1 + 1 / 100000) * (abs1 alpha * (sm * max 1 bnorm) + bsize * sm))
      (min c4 (1 / 2 * max (abs1 alpha) c5))) = W at hw ⊢
  by_cases h1 : W ≠ 1
  · rw [if_pos h1, dv_ne hw.ne']
    simp only [bind_s]
    refine ⟨1 / W, by positivity, ?_⟩
    have e : (if W > 1 then (max ascale bsize * (1 / W)) * min ascale bsize else (min ascale bsize * (1 / W)) * max ascale bsize)
        = 1 / W * (ascale * bsize) := by
      rw [← max_mul_min ascale bsize]
      split_ifs <;> ring
    rw [e]
  · rw [if_neg h1]
    exact ⟨1, one_pos, by simp⟩

/-! ### The discriminant -/

theorem rt_mul {sm : ℝ} (hs : 0 < sm) : Real.sqrt sm * Real.sqrt (1 / sm) = 1 := by
  rw [← Real.sqrt_mul hs.le, mul_one_div_cancel hs.ne', Real.sqrt_one]

theorem qzDiscr_ok {sm : ℝ} (hs : 0 < sm) (pp qq : ℝ) :
    ∃ t : ℝ, 0 < t ∧ (qzDiscr sm pp qq).1 = t * (pp * pp + qq) ∧ (qzDiscr sm pp qq).2 = Real.sqrt |pp * pp + qq| := by
  have h1 : Real.sqrt sm * Real.sqrt sm = sm := Real.mul_self_sqrt hs.le
  have h2 : Real.sqrt (1 / sm) * Real.sqrt (1 / sm) = 1 / sm := Real.mul_self_sqrt (by positivity)
  have h3 := rt_mul hs
  unfold qzDiscr
  simp only
  split_ifs
  · refine ⟨sm, hs, by linear_combination pp * pp * h1, ?_⟩
    have e : Real.sqrt sm * pp * (Real.sqrt sm * pp) + qq * sm = sm * (pp * pp + qq) := by linear_combination pp * pp * h1
    dsimp only
    rw [e, abs_mul, abs_of_pos hs, Real.sqrt_mul hs.le]
    linear_combination Real.sqrt |pp * pp + qq| * h3
  · refine ⟨1 / sm, by positivity, by linear_combination pp * pp * h2, ?_⟩
    have e : Real.sqrt (1 / sm) * pp * (Real.sqrt (1 / sm) * pp) + qq * (1 / sm) = 1 / sm * (pp * pp + qq) := by
      linear_combination pp * pp * h2
    dsimp only
    rw [e, abs_mul, abs_of_pos (show 0 < 1 / sm by positivity), Real.sqrt_mul (by positivity)]
    linear_combination Real.sqrt |pp * pp + qq| * h3
  · exact ⟨1, one_pos, by ring, rfl⟩

/-! ### The eigenvalues of the scaled pencil, real -/

/-- What the shift computation establishes. -/
theorem qzPQ_ok (a00 a01 a10 a11 b00 b01 b11 : ℝ) (h0 : b00 ≠ 0) (h1 : b11 ≠ 0) :
    ∃ sh pp qq ab, qzPQ a00 a01 a10 a11 b00 b01 b11 = some (sh, pp, qq, ab) ∧
      ∀ z : ℂ, ((a00 : ℂ) - z * b00) * (a11 - z * b11) - (a01 - z * b01) * a10
        = b00 * b11 * ((z - sh - pp) * (z - sh - pp) - (pp * pp + qq)) := by
  have h0' : (b00 : ℂ) ≠ 0 := by exact_mod_cast h0
  have h1' : (b11 : ℂ) ≠ 0 := by exact_mod_cast h1
  unfold qzPQ
  simp only [dv_ne h0, dv_ne h1, bind_s, pure]
  by_cases h : |a00 * (1 / b00)| ≤ |a11 * (1 / b11)|
  · rw [if_pos h]
    refine ⟨_, _, _, _, rfl, fun z => ?_⟩
    push_cast; field_simp; ring
  · rw [if_neg h]
    refine ⟨_, _, _, _, rfl, fun z => ?_⟩
    push_cast; field_simp; ring

theorem qzRoots_ok {sm : ℝ} (hs : 0 < sm) {a00 a01 a10 a11 b00 b01 b11 sh pp qq ab t d r : ℝ} (h0 : b00 ≠ 0) (h1 : b11 ≠ 0)
    (hpq : ∀ z : ℂ, ((a00 : ℂ) - z * b00) * (a11 - z * b11) - (a01 - z * b01) * a10
        = b00 * b11 * ((z - sh - pp) * (z - sh - pp) - (pp * pp + qq)))
    (ht : 0 < t) (hd : d = t * (pp * pp + qq)) (hr : r = Real.sqrt |pp * pp + qq|) :
    ∃ al1 al2, qzRoots sm a00 a01 a10 a11 b00 b11 sh pp ab d r = some (al1, al2) ∧
      ∀ z : ℂ, ((a00 : ℂ) - z * b00) * (a11 - z * b11) - (a01 - z * b01) * a10 = b00 * b11 * ((z - al1) * (z - al2)) := by
  have h0' : (b00 : ℂ) ≠ 0 := by exact_mod_cast h0
  have h1' : (b11 : ℂ) ≠ 0 := by exact_mod_cast h1
  unfold qzRoots
  simp only [pure]
  by_cases hc : d ≥ 0 ∨ r = 0
  · rw [if_pos hc]
    have hrr : r * r = pp * pp + qq := by
      rcases hc with hc | hc
      · rw [hr, Real.mul_self_sqrt (abs_nonneg _), abs_of_nonneg]
        rw [hd] at hc
        exact nonneg_of_mul_nonneg_right hc ht
      · rw [hc] at hr
        have := (Real.sqrt_eq_zero (abs_nonneg _)).mp hr.symm
        rw [hc, abs_eq_zero.mp this]; ring
    have hq : (if pp > 0 then r else -r) * (if pp > 0 then r else -r) = pp * pp + qq := by
      split_ifs
      · exact hrr
      · linear_combination hrr
    generalize (if pp > 0 then r else -r) = q at hq
    have key : ∀ z : ℂ, ((a00 : ℂ) - z * b00) * (a11 - z * b11) - (a01 - z * b01) * a10
        = b00 * b11 * ((z - ((sh + (pp + q) : ℝ) : ℂ)) * (z - ((sh + (pp - q) : ℝ) : ℂ))) := by
      intro z
      rw [hpq]
      have hq' : (q : ℂ) * q = pp * pp + qq := by exact_mod_cast hq
      push_cast
      linear_combination (b00 * b11 : ℂ) * hq'
    generalize sh + (pp + q) = wb at key ⊢
    generalize sh + (pp - q) = ws at key ⊢
    have e : (if 1 / 2 * |wb| > max |ws| sm then
          (dv 1 b00).bind fun binv00 => (dv 1 b11).bind fun binv11 => dv ((a00 * a11 - a01 * a10) * (binv00 * binv11)) wb
        else some ws : Option ℝ) = some ws := by
      by_cases hw : 1 / 2 * |wb| > max |ws| sm
      · rw [if_pos hw, dv_ne h0, dv_ne h1]
        have hwb : wb ≠ 0 := by
          intro h; rw [h, abs_zero, mul_zero] at hw
          have := lt_of_lt_of_le hs (le_max_right |ws| sm)
          linarith
        simp only [Option.bind_some, dv_ne hwb]
        congr 1
        have k0 := key 0
        have k1 : a00 * a11 - a01 * a10 = b00 * b11 * (wb * ws) := by
          have : ((a00 * a11 - a01 * a10 : ℝ) : ℂ) = ((b00 * b11 * (wb * ws) : ℝ) : ℂ) := by
            push_cast; linear_combination k0
          exact_mod_cast this
        rw [k1]; field_simp
      · rw [if_neg hw]
    simp only [bind] at e ⊢
    rw [e]
    simp only [Option.bind_some]
    have hmm : ∀ z : ℂ, (z - ((min wb ws : ℝ) : ℂ)) * (z - ((max wb ws : ℝ) : ℂ)) = (z - wb) * (z - ws) := by
      intro z
      rcases le_total wb ws with h | h
      · rw [min_eq_left h, max_eq_right h]
      · rw [min_eq_right h, max_eq_left h]; ring
    by_cases hp : pp > ab
    · rw [if_pos hp]
      exact ⟨_, _, rfl, fun z => by rw [key, hmm]⟩
    · rw [if_neg hp]
      exact ⟨_, _, rfl, fun z => by rw [key, mul_comm ((z - ((max wb ws : ℝ) : ℂ))), hmm]⟩
  · rw [if_neg hc]
    push Not at hc
    refine ⟨_, _, rfl, fun z => ?_⟩
    rw [hpq]
    have hlt : pp * pp + qq < 0 := by
      have := hc.1; rw [hd] at this
      by_contra hh; push Not at hh
      exact absurd (mul_nonneg ht.le hh) (not_le.mpr this)
    have hrr : r * r = -(pp * pp + qq) := by
      rw [hr, Real.mul_self_sqrt (abs_nonneg _), abs_of_neg hlt]
    have hrr' : (r : ℂ) * r = -(pp * pp + qq) := by exact_mod_cast hrr
    have ea : (⟨sh + pp, r⟩ : ℂ) = (sh + pp : ℂ) + r * Complex.I := by
      apply Complex.ext <;> simp
    have eb : (⟨sh + pp, -r⟩ : ℂ) = (sh + pp : ℂ) - r * Complex.I := by
      apply Complex.ext <;> simp
    rw [ea, eb]
    linear_combination (b00 * b11 : ℂ) * (-hrr' + (r * r : ℂ) * (Complex.I_mul_I))

/-- Homogenization. -/
theorem pdet_roots {a00 a01 a10 a11 b00 b01 b11 l1 l2 : ℂ}
    (h : ∀ z : ℂ, (a00 - z * b00) * (a11 - z * b11) - (a01 - z * b01) * a10 = b00 * b11 * ((z - l1) * (z - l2))) (x y : ℂ) :
    pdet a00 a01 a10 a11 b00 b01 b11 x y = b00 * b11 * ((x * l1 - y) * (x * l2 - y)) := by
  have h0 := h 0
  have h1 := h 1
  have h2 := h (-1)
  unfold pdet
  linear_combination (x * x) * h0 + (x * y / 2) * (h1 - h2) + (y * y / 2) * (h1 + h2 - 2 * h0)

/-! ### The whole of lahqz_eig22, real -/

/-- `d` is at most `sqrt(safe_min)` times the size of `B`. -/
def QzTiny (sm : ℝ) (n00 n01 n11 d : ℝ) : Prop := d ≤ Real.sqrt sm * max (max n00 n01) (max n11 (Real.sqrt sm))

theorem pdet_rows (a00 a01 a10 a11 b00 b01 b11 c s cs x y : ℂ) (h : c * c + s * cs = 1) (hz : c * a10 = cs * a00) :
    pdet a00 a01 a10 a11 0 b01 b11 x y
      = (x * (c * a00 + s * a10)) * (x * (c * a11 - cs * a01) - y * (c * b11 - cs * b01)) := by
  unfold pdet
  linear_combination (-(x * a00 * (x * a11 - y * b11)) + x * a10 * (x * a01 - y * b01)) * h
    - (x * s * (x * a11 - y * b11) + x * c * (x * a01 - y * b01)) * hz

theorem pdet_cols (a00 a01 a10 a11 b00 b01 b11 c s cs x y : ℂ) (h : c * c + s * cs = 1) (hz : c * a10 = cs * a11) :
    pdet a00 a01 a10 a11 b00 b01 0 x y
      = (x * (c * a00 - cs * a01) - y * (c * b00 - cs * b01)) * (x * (c * a11 + s * a10)) := by
  unfold pdet
  linear_combination (-(x * a11 * (x * a00 - y * b00)) + x * a10 * (x * a01 - y * b01)) * h
    - (x * s * (x * a00 - y * b00) + x * c * (x * a01 - y * b01)) * hz

theorem pdet_scale (a00 a01 a10 a11 b00 b01 b11 s t x y : ℂ) (hs : s ≠ 0) (ht : t ≠ 0) :
    pdet a00 a01 a10 a11 b00 b01 b11 x y
      = 1 / (t * t) * pdet (s * a00) (s * a01) (s * a10) (s * a11) (t * b00) (t * b01) (t * b11) (x * t / s) y := by
  unfold pdet
  field_simp

set_option maxHeartbeats 2000000 in
theorem qzEig22_ok {o : RotOps ℝ} (ho : RotLaws o) {sm : ℝ} (hs : 0 < sm) (A00 A01 A10 A11 b00 b01 b11 : ℝ) :
    ∃ p q d0 d1, qzEig22 o sm A00 A01 A10 A11 b00 b01 b11 = some (p, q) ∧
      QzTiny sm |b00| |b01| |b11| |d0| ∧ QzTiny sm |b00| |b01| |b11| |d1| ∧
      (Real.sqrt sm * max (max |b00| |b01|) (max |b11| (Real.sqrt sm)) ≤ |b00| ∧
        Real.sqrt sm * max (max |b00| |b01|) (max |b11| (Real.sqrt sm)) ≤ |b11| → d0 = 0 ∧ d1 = 0) ∧
      PencilEigs !![(A00 : ℂ), A01; A10, A11] !![(b00 - d0 : ℂ), b01; 0, (b11 - d1 : ℂ)] p q := by
  have hrs : 0 < Real.sqrt sm := Real.sqrt_pos.mpr hs
  have han : 0 < max (max (|A00| + |A10|) (|A01| + |A11|)) sm := lt_of_lt_of_le hs (le_max_right _ _)
  have hbm : 0 < Real.sqrt sm * max (max |b00| |b01|) (max |b11| (Real.sqrt sm)) :=
    mul_pos hrs (lt_of_lt_of_le hrs le_max3)
  have hz0 : QzTiny sm |b00| |b01| |b11| |(0 : ℝ)| := by unfold QzTiny; rw [abs_zero]; exact hbm.le
  unfold qzEig22
  simp only [dv_ne han.ne', bind_s, pure]
  have ha : 0 < 1 / max (max (|A00| + |A10|) (|A01| + |A11|)) sm := by positivity
  generalize 1 / max (max (|A00| + |A10|) (|A01| + |A11|)) sm = as at ha
  have ha' : (as : ℂ) ≠ 0 := by exact_mod_cast ha.ne'
  by_cases h0 : |b00| < Real.sqrt sm * max (max |b00| |b01|) (max |b11| (Real.sqrt sm))
  · rw [if_pos h0]
    by_cases h1 : as * A10 ≠ 0
    · rw [if_pos h1]
      obtain ⟨r, z, c, s, e, ⟨hc1, hc2⟩, hr, hz⟩ := ho (as * A00) (as * A10)
      have eg : qzRotg o (as * A00) (as * A10) = some (r, c, s) := by unfold qzRotg; rw [e]
      simp only [eg, bind_s]
      refine ⟨_, _, b00, 0, rfl, h0.le, hz0, fun h => absurd h.1 (not_le.mpr h0), 1 / (as * as), one_div_ne_zero (mul_ne_zero ha' ha'), fun x y => ?_⟩
      have hu : (c : ℂ) * c + s * s = 1 := by exact_mod_cast (by simpa using hc2)
      have hz' : (c : ℂ) * (as * A10) = s * (as * A00) := by exact_mod_cast (by simpa using hz)
      have hr' : (r : ℂ) = c * (as * A00) + s * (as * A10) := by exact_mod_cast hr.symm
      rw [pdet_eq]
      push_cast
      rw [sub_self, sub_zero, pdet_scale _ _ _ _ _ _ _ (as : ℂ) 1 _ _ ha' one_ne_zero, mul_zero,
        pdet_rows _ _ _ _ (0 : ℂ) _ _ _ _ _ _ _ hu hz', hr']
      field_simp
      try ring
    · rw [if_neg h1]
      simp only [bind_s]
      refine ⟨_, _, b00, 0, rfl, h0.le, hz0, fun h => absurd h.1 (not_le.mpr h0), 1 / (as * as), one_div_ne_zero (mul_ne_zero ha' ha'), fun x y => ?_⟩
      push Not at h1
      have hA : A10 = 0 := (mul_eq_zero.mp h1).resolve_left ha.ne'
      rw [pdet_eq, hA]
      unfold pdet
      push_cast
      field_simp
      ring
  · rw [if_neg h0]
    by_cases h0' : |b11| < Real.sqrt sm * max (max |b00| |b01|) (max |b11| (Real.sqrt sm))
    · rw [if_pos h0']
      by_cases h1 : as * A10 ≠ 0
      · rw [if_pos h1]
        obtain ⟨r, z, c, s, e, ⟨hc1, hc2⟩, hr, hz⟩ := ho (as * A11) (as * A10)
        have eg : qzRotg o (as * A11) (as * A10) = some (r, c, s) := by unfold qzRotg; rw [e]
        simp only [eg, bind_s]
        refine ⟨_, _, 0, b11, rfl, hz0, h0'.le, fun h => absurd h.2 (not_le.mpr h0'), 1 / (as * as), one_div_ne_zero (mul_ne_zero ha' ha'), fun x y => ?_⟩
        have hu : (c : ℂ) * c + s * s = 1 := by exact_mod_cast (by simpa using hc2)
        have hz' : (c : ℂ) * (as * A10) = s * (as * A11) := by exact_mod_cast (by simpa using hz)
        have hr' : (r : ℂ) = c * (as * A11) + s * (as * A10) := by exact_mod_cast hr.symm
        rw [pdet_eq]
        push_cast
        rw [sub_self, sub_zero, pdet_scale _ _ _ _ _ _ _ (as : ℂ) 1 _ _ ha' one_ne_zero, mul_zero,
          pdet_cols _ _ _ _ _ _ (0 : ℂ) _ _ _ _ _ hu hz', hr']
        field_simp
        try ring
      · rw [if_neg h1]
        simp only [bind_s]
        refine ⟨_, _, 0, b11, rfl, hz0, h0'.le, fun h => absurd h.2 (not_le.mpr h0'), 1 / (as * as), one_div_ne_zero (mul_ne_zero ha' ha'), fun x y => ?_⟩
        push Not at h1
        have hA : A10 = 0 := (mul_eq_zero.mp h1).resolve_left ha.ne'
        rw [pdet_eq, hA]
        unfold pdet
        push_cast
        field_simp
        ring
    · rw [if_neg h0']
      push Not at h0 h0'
      have hb0 : 0 < |b00| := lt_of_lt_of_le hbm h0
      have hb1 : 0 < |b11| := lt_of_lt_of_le hbm h0'
      have hbs : 0 < max |b00| |b11| := lt_of_lt_of_le hb0 (le_max_left _ _)
      have hbi : 0 < 1 / max |b00| |b11| := by positivity
      have n0 : 1 / max |b00| |b11| * b00 ≠ 0 := mul_ne_zero hbi.ne' (abs_pos.mp hb0)
      have n1 : 1 / max |b00| |b11| * b11 ≠ 0 := mul_ne_zero hbi.ne' (abs_pos.mp hb1)
      simp only [dv_ne hbs.ne', bind_s]
      generalize hgen : max |b00| |b11| = bs at hbs hbi n0 n1 ⊢
      obtain ⟨sh, pp, qq, ab, e1, hp⟩ := qzPQ_ok (as * A00) (as * A01) (as * A10) (as * A11) (1 / bs * b00) (1 / bs * b01) (1 / bs * b11) n0 n1
      obtain ⟨t, ht, d1, d2⟩ := qzDiscr_ok hs pp qq
      obtain ⟨al1, al2, e2, hp2⟩ := qzRoots_ok (a01 := as * A01) (a10 := as * A10) (ab := ab) hs n0 n1 hp ht d1 d2
      simp only [e1, bind_s, e2]
      obtain ⟨w1, hw1, e3⟩ := qzScale_ok (ascale := as) (bsize := bs) (bnorm := max (max |b00| (|b01| + |b11|)) sm) hs al1
      obtain ⟨w2, hw2, e4⟩ := qzScale_ok (ascale := as) (bsize := bs) (bnorm := max (max |b00| (|b01| + |b11|)) sm) hs al2
      simp only [e3, e4, bind_s]
      have n0' : (b00 : ℂ) ≠ 0 := by exact_mod_cast abs_pos.mp hb0
      have n1' : (b11 : ℂ) ≠ 0 := by exact_mod_cast abs_pos.mp hb1
      have nw1 : (w1 : ℂ) ≠ 0 := by exact_mod_cast hw1.ne'
      have nw2 : (w2 : ℂ) ≠ 0 := by exact_mod_cast hw2.ne'
      have nbs : (bs : ℂ) ≠ 0 := by exact_mod_cast hbs.ne'
      refine ⟨_, _, 0, 0, rfl, hz0, hz0, fun _ => ⟨rfl, rfl⟩,
        b00 * b11 / (as * as * bs * bs * w1 * w2), by simp [n0', n1', nw1, nw2, nbs, ha'], fun x y => ?_⟩
      push_cast at hp2
      have h3 := pdet_roots hp2
      rw [pdet_eq]
      push_cast
      rw [sub_zero, sub_zero, pdet_scale _ _ _ _ _ _ _ (as : ℂ) (1 / bs : ℂ) _ _ ha' (by simp [nbs]), h3]
      field_simp
      try ring

end TLA.Kernel
