import Verif.Proofs.Lahqz

/-! Proofs about the complex version of `lahqz_eig22`. -/

set_option linter.unusedVariables false
set_option linter.unusedSimpArgs false
set_option linter.unnecessarySimpa false

namespace TLA.Kernel
open Matrix

theorem dvz_ne {x y : ℂ} (h : y ≠ 0) : dvz x y = some (x / y) := if_neg h

/-- `bmin` of lahqz_eig22. -/
noncomputable def qzBmin (sm : ℝ) (b00 b01 b11 : ℂ) : ℝ := Real.sqrt sm * max (max (abs1 b00) (abs1 b01)) (max (abs1 b11) (Real.sqrt sm))

/-- In the regular branch, the discriminant of the scaled and shifted pencil is in the range in which it is not rescaled. -/
def QzMild (sm : ℝ) (A00 A01 A10 A11 b00 b01 b11 : ℂ) : Prop :=
  let as : ℂ := ((1 / max (max (abs1 A00 + abs1 A10) (abs1 A01 + abs1 A11)) sm : ℝ) : ℂ)
  let bs : ℂ := ((1 / max (abs1 b00) (abs1 b11) : ℝ) : ℂ)
  ∀ sh pp qq, qzPQC (as * A00) (as * A01) (as * A10) (as * A11) (bs * b00) (bs * b01) (bs * b11) = some (sh, pp, qq) →
    abs1 (pp * Real.sqrt sm) < 1 ∧ sm < abs1 (pp * pp) + abs1 qq

theorem norm_le_abs1 (z : ℂ) : ‖z‖ ≤ abs1 z := Complex.norm_le_abs_re_add_abs_im z

theorem abs1_pos {z : ℂ} (h : z ≠ 0) : 0 < abs1 z := lt_of_le_of_ne (abs1_nonneg z) fun e => h (abs1_eq_zero e.symm)

theorem abs1_zero : abs1 0 = 0 := by simp [abs1]

theorem qzPQC_ok (a00 a01 a10 a11 b00 b01 b11 : ℂ) (h0 : b00 ≠ 0) (h1 : b11 ≠ 0) :
    ∃ sh pp qq, qzPQC a00 a01 a10 a11 b00 b01 b11 = some (sh, pp, qq) ∧
      ∀ z : ℂ, (a00 - z * b00) * (a11 - z * b11) - (a01 - z * b01) * a10
        = b00 * b11 * ((z - sh - pp) * (z - sh - pp) - (pp * pp + qq)) := by
  unfold qzPQC
  simp only [dvz_ne h0, dvz_ne h1, bind_s, pure]
  by_cases h : abs1 (a00 * (1 / b00)) ≤ abs1 (a11 * (1 / b11))
  · rw [if_pos h]
    refine ⟨_, _, _, rfl, fun z => ?_⟩
    field_simp; ring
  · rw [if_neg h]
    refine ⟨_, _, _, rfl, fun z => ?_⟩
    field_simp; ring

theorem qzRootsC_ok {sm : ℝ} (hs : 0 < sm) (sh : ℂ) {pp qq : ℂ} (h1 : abs1 (pp * Real.sqrt sm) < 1)
    (h2 : sm < abs1 (pp * pp) + abs1 qq) :
    ∃ al1 al2, qzRootsC sh pp qq (qzDiscrC sm pp qq) = some (al1, al2) ∧
      ∀ z : ℂ, (z - sh - pp) * (z - sh - pp) - (pp * pp + qq) = (z - al1) * (z - al2) := by
  have e : qzDiscrC sm pp qq = pp * pp + qq := by
    unfold qzDiscrC
    simp only
    rw [if_neg (not_le.mpr h1), if_neg (not_le.mpr h2)]
  rw [e]
  have hr := csqrt_mul_self (pp * pp + qq)
  unfold qzRootsC
  simp only [pure]
  generalize csqrt (pp * pp + qq) = rt at hr ⊢
  have hb : (if abs1 (pp + rt) > abs1 (pp - rt) then pp + rt else pp - rt) ≠ 0 := by
    intro hh
    have hz : pp + rt = 0 ∧ pp - rt = 0 := by
      split_ifs at hh with hc
      · rw [hh, abs1_zero] at hc
        exact absurd hc (not_lt.mpr (abs1_nonneg _))
      · push Not at hc
        rw [hh, abs1_zero] at hc
        exact ⟨abs1_eq_zero (le_antisymm hc (abs1_nonneg _)), hh⟩
    have hp : pp = 0 := by linear_combination (hz.1 + hz.2) / 2
    have hrt : rt = 0 := by linear_combination (hz.1 - hz.2) / 2
    have hq : qq = 0 := by rw [hp, hrt] at hr; linear_combination -hr
    rw [hp, hq, mul_zero, abs1_zero, add_zero] at h2
    linarith
  have hm : ∀ z : ℂ, (z - sh - pp) * (z - sh - pp) - (pp * pp + qq)
      = (z - (sh + (if abs1 (pp + rt) > abs1 (pp - rt) then pp + rt else pp - rt))) *
        (z - (sh + (-qq / (if abs1 (pp + rt) > abs1 (pp - rt) then pp + rt else pp - rt)))) := by
    intro z
    have hq : ((if abs1 (pp + rt) > abs1 (pp - rt) then pp + rt else pp - rt) - pp) *
        ((if abs1 (pp + rt) > abs1 (pp - rt) then pp + rt else pp - rt) - pp) = pp * pp + qq := by
      split_ifs
      · linear_combination hr
      · linear_combination hr
    generalize (if abs1 (pp + rt) > abs1 (pp - rt) then pp + rt else pp - rt) = big at hb hq ⊢
    field_simp
    linear_combination (z - sh) * hq
  generalize (if abs1 (pp + rt) > abs1 (pp - rt) then pp + rt else pp - rt) = big at hb hm ⊢
  simp only [dvz_ne hb, bind_s]
  exact ⟨_, _, rfl, hm⟩

/-- The unimodular factor that makes an entry real, or the replacement of a tiny entry by zero. -/
theorem qzReal_ok (a b : ℂ) (bm : ℝ) (hbm : 0 < bm) :
    ∃ a' b' d u, (if abs1 b < bm then some (a, (0 : ℂ)) else
        (dvC (star b) ‖b‖).bind fun sc => some (a * sc, (‖b‖ : ℂ)) : Option (ℂ × ℂ)) = some (a', b') ∧
      u ≠ 0 ∧ a = u * a' ∧ b - d = u * (b'.re : ℂ) ∧ ‖d‖ ≤ bm := by
  by_cases h : abs1 b < bm
  · rw [if_pos h]
    exact ⟨_, _, b, 1, rfl, one_ne_zero, by ring, by simp, (norm_le_abs1 b).trans h.le⟩
  · rw [if_neg h]
    push Not at h
    have hb : b ≠ 0 := by rintro rfl; rw [abs1_zero] at h; linarith
    have hn : ‖b‖ ≠ 0 := norm_ne_zero_iff.mpr hb
    have hn' : (‖b‖ : ℂ) ≠ 0 := by exact_mod_cast hn
    have hsb : star b ≠ 0 := star_ne_zero.mpr hb
    simp only [dvC_ne hn, Option.bind_some]
    have hbb : b * star b = (‖b‖ : ℂ) * ‖b‖ := by
      rw [Complex.star_def, Complex.mul_conj, Complex.normSq_eq_norm_sq]; push_cast; ring
    refine ⟨_, _, 0, ‖b‖ / star b, rfl, div_ne_zero hn' hsb, ?_, ?_, by simpa using hbm.le⟩
    · field_simp
    · rw [sub_zero, Complex.ofReal_re, div_mul_eq_mul_div, ← hbb]; field_simp

/-- The rotation of the two singular branches, or its omission. -/
theorem qzRotC_ok {o : RotOps ℂ} (ho : RotLaws o) (p a10 q1 a01 b1 b01 : ℂ) :
    ∃ r c s cs : ℂ, (if a10 ≠ 0 then (qzRotg o p a10).bind fun x => some (x.1, x.2.1 * q1 - star x.2.2 * a01, x.2.1 * b1 - star x.2.2 * b01)
        else some (p, q1, b1) : Option (ℂ × ℂ × ℂ)) = some (r, c * q1 - cs * a01, c * b1 - cs * b01) ∧
      c * c + s * cs = 1 ∧ c * a10 = cs * p ∧ r = c * p + s * a10 ∧ ‖c‖ ≤ 1 ∧ ‖s‖ ≤ 1 := by
  by_cases h1 : a10 ≠ 0
  · rw [if_pos h1]
    obtain ⟨r, z, c, s, e, ⟨hc1, hc2⟩, hr, hz⟩ := ho p a10
    have eg : qzRotg o p a10 = some (r, c, s) := by unfold qzRotg; rw [e]
    rw [eg]
    refine ⟨r, c, s, star s, rfl, hc2, hz, hr.symm, ?_⟩
    have hcc : c * c = (‖c‖ : ℂ) * ‖c‖ := by
      conv_lhs => rw [← hc1]
      rw [mul_comm, hc1]
      conv_lhs => rw [← hc1]
      rw [hc1]
      have : c * star c = (‖c‖ : ℂ) * ‖c‖ := by
        rw [Complex.star_def, Complex.mul_conj, Complex.normSq_eq_norm_sq]; push_cast; ring
      rwa [hc1] at this
    have hss : s * star s = (‖s‖ : ℂ) * ‖s‖ := by
      rw [Complex.star_def, Complex.mul_conj, Complex.normSq_eq_norm_sq]; push_cast; ring
    have hn : ‖c‖ * ‖c‖ + ‖s‖ * ‖s‖ = 1 := by
      have : ((‖c‖ * ‖c‖ + ‖s‖ * ‖s‖ : ℝ) : ℂ) = 1 := by push_cast; rw [← hcc, ← hss]; exact hc2
      exact_mod_cast this
    constructor <;> nlinarith [norm_nonneg c, norm_nonneg s, mul_self_nonneg ‖c‖, mul_self_nonneg ‖s‖]
  · rw [if_neg h1]
    push Not at h1
    exact ⟨p, 1, 0, 0, by simp, by ring, by rw [h1]; ring, by ring, by simp, by simp⟩

set_option maxHeartbeats 2000000 in
theorem qzEig22C_ok {o : RotOps ℂ} (ho : RotLaws o) {sm : ℝ} (hs : 0 < sm) {A00 A01 A10 A11 b00 b01 b11 : ℂ}
    (hm : QzMild sm A00 A01 A10 A11 b00 b01 b11) :
    ∃ p q d00 d01 d11, qzEig22C o sm A00 A01 A10 A11 b00 b01 b11 = some (p, q) ∧
      ‖d00‖ ≤ qzBmin sm b00 b01 b11 ∧ ‖d01‖ ≤ qzBmin sm b00 b01 b11 ∧ ‖d11‖ ≤ qzBmin sm b00 b01 b11 ∧
      (qzBmin sm b00 b01 b11 ≤ abs1 b00 ∧ qzBmin sm b00 b01 b11 ≤ abs1 b11 → d00 = 0 ∧ d01 = 0 ∧ d11 = 0) ∧
      PencilEigs !![A00, A01; A10, A11] !![b00 - d00, b01 - d01; 0, b11 - d11] p q := by
  have hrs : 0 < Real.sqrt sm := Real.sqrt_pos.mpr hs
  have han : 0 < max (max (abs1 A00 + abs1 A10) (abs1 A01 + abs1 A11)) sm := lt_of_lt_of_le hs (le_max_right _ _)
  have hbm : 0 < qzBmin sm b00 b01 b11 := mul_pos hrs (lt_of_lt_of_le hrs le_max3)
  unfold qzEig22C
  simp only [dv_ne han.ne', pure]
  unfold QzMild at hm
  have ha : 0 < 1 / max (max (abs1 A00 + abs1 A10) (abs1 A01 + abs1 A11)) sm := by positivity
  simp only [bind, Option.bind_some] at hm ⊢
  generalize 1 / max (max (abs1 A00 + abs1 A10) (abs1 A01 + abs1 A11)) sm = as at ha hm ⊢
  have ha' : (as : ℂ) ≠ 0 := by exact_mod_cast ha.ne'
  change ∃ p q d00 d01 d11, (if abs1 b00 < qzBmin sm b00 b01 b11 then _ else if abs1 b11 < qzBmin sm b00 b01 b11 then _ else _) = _ ∧ _
  by_cases h0 : abs1 b00 < qzBmin sm b00 b01 b11
  · rw [if_pos h0]
    obtain ⟨r, c, s, cs, e1, hu, hz, hr, nc, ns⟩ := qzRotC_ok ho (as * A00) (as * A10) (as * A11) (as * A01) b11 b01
    rw [e1]
    simp only [Option.bind_some]
    obtain ⟨a', b', d, u, e2, hu0, ha2, hb2, hd⟩ := qzReal_ok (c * (as * A11) - cs * (as * A01)) (c * b11 - cs * b01) _ hbm
    change ∃ p q d00 d01 d11, ((if abs1 (c * b11 - cs * b01) < qzBmin sm b00 b01 b11 then _ else _ : Option (ℂ × ℂ)).bind _) = _ ∧ _
    rw [e2]
    refine ⟨_, _, b00, -(s * d), c * d, rfl, (norm_le_abs1 _).trans h0.le, ?_, ?_, fun h => absurd h.1 (not_le.mpr h0),
      u / (as * as), div_ne_zero hu0 (mul_ne_zero ha' ha'), fun x y => ?_⟩
    · rw [norm_neg, norm_mul]; nlinarith [norm_nonneg d]
    · rw [norm_mul]; nlinarith [norm_nonneg d]
    · rw [pdet_eq, sub_self, pdet_scale _ _ _ _ _ _ _ (as : ℂ) 1 _ _ ha' one_ne_zero, mul_zero,
        pdet_rows _ _ _ _ (0 : ℂ) _ _ _ _ _ _ _ hu hz, ← hr, ha2]
      have h3 : c * (1 * (b11 - c * d)) - cs * (1 * (b01 - -(s * d))) = u * (b'.re : ℂ) := by
        rw [← hb2]; linear_combination -d * hu
      rw [h3]
      push_cast
      field_simp
      try ring
  · rw [if_neg h0]
    by_cases h0' : abs1 b11 < qzBmin sm b00 b01 b11
    · rw [if_pos h0']
      have e0 : (if (as : ℂ) * A10 ≠ 0 then (qzRotg o (as * A11) (as * A10)).bind fun x => some (x.2.1 * (as * A00) - star x.2.2 * (as * A01), x.1, x.2.1 * b00 - star x.2.2 * b01)
          else some ((as : ℂ) * A00, (as : ℂ) * A11, b00) : Option (ℂ × ℂ × ℂ))
          = (if (as : ℂ) * A10 ≠ 0 then (qzRotg o (as * A11) (as * A10)).bind fun x => some (x.1, x.2.1 * (as * A00) - star x.2.2 * (as * A01), x.2.1 * b00 - star x.2.2 * b01)
          else some ((as : ℂ) * A11, (as : ℂ) * A00, b00) : Option (ℂ × ℂ × ℂ)).map fun x => (x.2.1, x.1, x.2.2) := by
        split_ifs
        · rcases qzRotg o (as * A11) (as * A10) with _ | x <;> rfl
        · rfl
      rw [e0]
      obtain ⟨r, c, s, cs, e1, hu, hz, hr, nc, ns⟩ := qzRotC_ok ho (as * A11) (as * A10) (as * A00) (as * A01) b00 b01
      rw [e1]
      simp only [Option.map_some, Option.bind_some]
      obtain ⟨a', b', d, u, e2, hu0, ha2, hb2, hd⟩ := qzReal_ok (c * (as * A00) - cs * (as * A01)) (c * b00 - cs * b01) _ hbm
      change ∃ p q d00 d01 d11, ((if abs1 (c * b00 - cs * b01) < qzBmin sm b00 b01 b11 then _ else _ : Option (ℂ × ℂ)).bind _) = _ ∧ _
      rw [e2]
      refine ⟨_, _, c * d, -(s * d), b11, rfl, ?_, ?_, (norm_le_abs1 _).trans h0'.le, fun h => absurd h.2 (not_le.mpr h0'),
        u / (as * as), div_ne_zero hu0 (mul_ne_zero ha' ha'), fun x y => ?_⟩
      · rw [norm_mul]; nlinarith [norm_nonneg d]
      · rw [norm_neg, norm_mul]; nlinarith [norm_nonneg d]
      · rw [pdet_eq, sub_self, pdet_scale _ _ _ _ _ _ _ (as : ℂ) 1 _ _ ha' one_ne_zero, mul_zero,
          pdet_cols _ _ _ _ _ _ (0 : ℂ) _ _ _ _ _ hu hz, ← hr, ha2]
        have h3 : c * (1 * (b00 - c * d)) - cs * (1 * (b01 - -(s * d))) = u * (b'.re : ℂ) := by
          rw [← hb2]; linear_combination -d * hu
        rw [h3]
        push_cast
        field_simp
        try ring
    · rw [if_neg h0']
      push Not at h0 h0'
      have hb0 : 0 < abs1 b00 := lt_of_lt_of_le hbm h0
      have hb1 : 0 < abs1 b11 := lt_of_lt_of_le hbm h0'
      have m0 : b00 ≠ 0 := by rintro rfl; rw [abs1_zero] at hb0; exact lt_irrefl _ hb0
      have m1 : b11 ≠ 0 := by rintro rfl; rw [abs1_zero] at hb1; exact lt_irrefl _ hb1
      have hbs : 0 < max (abs1 b00) (abs1 b11) := lt_of_lt_of_le hb0 (le_max_left _ _)
      simp only [dv_ne hbs.ne', Option.bind_some]
      generalize max (abs1 b00) (abs1 b11) = bs at hbs hm ⊢
      have nbs : (bs : ℂ) ≠ 0 := by exact_mod_cast hbs.ne'
      have nbi : ((1 / bs : ℝ) : ℂ) ≠ 0 := by push_cast; exact one_div_ne_zero nbs
      obtain ⟨sh, pp, qq, e1, hp⟩ := qzPQC_ok (as * A00) (as * A01) (as * A10) (as * A11) (((1 / bs : ℝ) : ℂ) * b00)
        (((1 / bs : ℝ) : ℂ) * b01) (((1 / bs : ℝ) : ℂ) * b11) (mul_ne_zero nbi m0) (mul_ne_zero nbi m1)
      obtain ⟨k1, k2⟩ := hm _ _ _ e1
      obtain ⟨al1, al2, e2, hp2⟩ := qzRootsC_ok hs sh k1 k2
      simp only [e1, Option.bind_some, e2]
      obtain ⟨w1, hw1, e3⟩ := qzScale_ok (ascale := as) (bsize := bs) (bnorm := max (max (abs1 b00) (abs1 b01 + abs1 b11)) sm) hs al1
      obtain ⟨w2, hw2, e4⟩ := qzScale_ok (ascale := as) (bsize := bs) (bnorm := max (max (abs1 b00) (abs1 b01 + abs1 b11)) sm) hs al2
      simp only [e3, e4, Option.bind_some]
      have nw1 : (w1 : ℂ) ≠ 0 := by exact_mod_cast hw1.ne'
      have nw2 : (w2 : ℂ) ≠ 0 := by exact_mod_cast hw2.ne'
      refine ⟨_, _, 0, 0, 0, rfl, by simpa using hbm.le, by simpa using hbm.le, by simpa using hbm.le, fun _ => ⟨rfl, rfl, rfl⟩,
        b00 * b11 / (as * as * bs * bs * w1 * w2), by simp [m0, m1, nw1, nw2, nbs, ha'], fun x y => ?_⟩
      have hp3 := fun z => (hp z).trans (congrArg _ (hp2 z))
      have h3 := pdet_roots hp3
      rw [pdet_eq]
      push_cast at h3 ⊢
      rw [sub_zero, sub_zero, sub_zero, pdet_scale _ _ _ _ _ _ _ (as : ℂ) (1 / bs : ℂ) _ _ ha' (one_div_ne_zero nbs), h3]
      field_simp
      try ring

end TLA.Kernel
