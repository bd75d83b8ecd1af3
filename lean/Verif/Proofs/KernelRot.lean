import Verif.Proofs.KernelSvd

/-! Proofs about plane rotations (`rotg`, `lartg`). -/

set_option linter.unusedVariables false

namespace TLA.Kernel

/-- Real rotation `[c s; -s c] (a, b) = (r, 0)`. -/
structure RotOK (a b r c s : ℝ) : Prop where
  unit : c * c + s * s = 1
  top : c * a + s * b = r
  bot : -s * a + c * b = 0

/-- The documented reconstruction of a real rotation from the scalar left in `b`. -/
structure ZOK (z c s : ℝ) : Prop where
  one : z = 1 → c = 0 ∧ s = 1
  small : |z| < 1 → s = z ∧ c = Real.sqrt (1 - z * z)
  big : 1 < |z| → c = 1 / z ∧ s = Real.sqrt (1 - c * c)
  cases : z = 1 ∨ |z| < 1 ∨ 1 < |z|

theorem abs_lt_one_of_sq {x : ℝ} (h : x * x < 1) : |x| < 1 := by
  rw [abs_lt]; constructor <;> nlinarith

theorem rot_core {a b σ k r : ℝ} (hk : 0 < k) (hσ : σ * σ = 1) (hab : b ≠ 0)
    (hr : r = σ * k * Real.sqrt (a / k * (a / k) + b / k * (b / k))) :
    r ≠ 0 ∧ r * r = a * a + b * b := by
  have h0 : 0 < a / k * (a / k) + b / k * (b / k) := by
    have : b / k ≠ 0 := div_ne_zero hab hk.ne'
    nlinarith [mul_self_nonneg (a / k), mul_self_pos.mpr this]
  have e : r * r = a * a + b * b := by
    calc r * r = (σ * σ) * (k * k) * (Real.sqrt (a / k * (a / k) + b / k * (b / k)) *
          Real.sqrt (a / k * (a / k) + b / k * (b / k))) := by rw [hr]; ring
      _ = k * k * (a / k * (a / k) + b / k * (b / k)) := by rw [hσ, one_mul, Real.mul_self_sqrt h0.le]
      _ = _ := by field_simp
  refine ⟨?_, e⟩
  rintro rfl
  have := mul_self_pos.mpr hab
  nlinarith [mul_self_nonneg a]

theorem rotok_of {a b r : ℝ} (h0 : r ≠ 0) (h : r * r = a * a + b * b) : RotOK a b r (a / r) (b / r) := by
  refine ⟨?_, ?_, ?_⟩
  · field_simp; linear_combination -h
  · field_simp; linear_combination -h
  · field_simp; ring

theorem rotg_ok {p : RotPar} (h1 : 0 < p.safmin) (h2 : 0 < p.safmax) (a b : ℝ) :
    ∃ r z c s, rotg p a b = some (r, z, c, s) ∧ RotOK a b r c s ∧ ZOK z c s := by
  unfold rotg
  simp only [pure]
  by_cases hb : b = 0
  · subst hb
    rw [if_pos abs_zero]
    refine ⟨_, _, _, _, rfl, ⟨by ring, by ring, by ring⟩, ⟨by norm_num, ?_, ?_, Or.inr (Or.inl (by simp))⟩⟩
    · simp
    · simp only [abs_zero]; intro h; norm_num at h
  · have hb' : 0 < |b| := abs_pos.mpr hb
    rw [if_neg hb'.ne']
    by_cases ha : a = 0
    · subst ha
      rw [if_pos abs_zero]
      refine ⟨_, _, _, _, rfl, ⟨by ring, by ring, by ring⟩, ⟨by simp, ?_, ?_, Or.inl rfl⟩⟩ <;> simp
    · have ha' : 0 < |a| := abs_pos.mpr ha
      rw [if_neg ha'.ne']
      have hk : 0 < min p.safmax (max p.safmin (max |a| |b|)) := lt_min h2 (lt_max_of_lt_left h1)
      generalize min p.safmax (max p.safmin (max |a| |b|)) = k at *
      have h0 : 0 ≤ a / k * (a / k) + b / k * (b / k) := by
        nlinarith [mul_self_nonneg (a / k), mul_self_nonneg (b / k)]
      simp only [dv_ne hk.ne', bind_s, sq_nn h0]
      by_cases hab : |a| > |b|
      · simp only [if_pos hab]
        generalize hr : sgn a * k * Real.sqrt (a / k * (a / k) + b / k * (b / k)) = r
        obtain ⟨r0, rr⟩ := rot_core hk (sgn_sq ha) hb hr.symm
        simp only [dv_ne r0, bind_s]
        have ok := rotok_of r0 rr
        have cpos : 0 < a / r := by
          have hq : 0 < a / k * (a / k) + b / k * (b / k) := by
            have : b / k ≠ 0 := div_ne_zero hb hk.ne'
            nlinarith [mul_self_nonneg (a / k), mul_self_pos.mpr this]
          have h3 : 0 < a * r := by
            rw [← hr]
            have : a * (sgn a * k * Real.sqrt (a / k * (a / k) + b / k * (b / k))) =
              |a| * (sgn a * sgn a) * k * Real.sqrt (a / k * (a / k) + b / k * (b / k)) := by
              conv_lhs => rw [← abs_mul_sgn a]
              rw [abs_mul_sgn]; nth_rewrite 1 [← abs_mul_sgn a]; ring
            rw [this, sgn_sq ha]
            have := Real.sqrt_pos.mpr hq
            positivity
          rw [show a / r = a * r / (r * r) by field_simp]
          exact div_pos h3 (mul_self_pos.mpr r0)
        refine ⟨_, _, _, _, rfl, ok, ?_⟩
        have hs : |b / r| < 1 := by
          apply abs_lt_one_of_sq
          have := ok.unit
          nlinarith [mul_pos cpos cpos]
        refine ⟨fun h => ?_, fun _ => ⟨rfl, ?_⟩, fun h => absurd h (not_lt.mpr hs.le), Or.inr (Or.inl hs)⟩
        · rw [h, abs_one] at hs; exact absurd hs (lt_irrefl _)
        · have : 1 - b / r * (b / r) = a / r * (a / r) := by linear_combination -ok.unit
          rw [this, Real.sqrt_mul_self cpos.le]
      · simp only [if_neg hab]
        generalize hr : sgn b * k * Real.sqrt (a / k * (a / k) + b / k * (b / k)) = r
        obtain ⟨r0, rr⟩ := rot_core hk (sgn_sq hb) hb hr.symm
        have c0 : a / r ≠ 0 := div_ne_zero ha r0
        simp only [dv_ne r0, bind_s, if_pos c0, dv_ne c0]
        have ok := rotok_of r0 rr
        have spos : 0 < b / r := by
          have hq : 0 < a / k * (a / k) + b / k * (b / k) := by
            have : b / k ≠ 0 := div_ne_zero hb hk.ne'
            nlinarith [mul_self_nonneg (a / k), mul_self_pos.mpr this]
          have h3 : 0 < b * r := by
            rw [← hr]
            have : b * (sgn b * k * Real.sqrt (a / k * (a / k) + b / k * (b / k))) =
              |b| * (sgn b * sgn b) * k * Real.sqrt (a / k * (a / k) + b / k * (b / k)) := by
              nth_rewrite 1 [← abs_mul_sgn b]; ring
            rw [this, sgn_sq hb]
            have := Real.sqrt_pos.mpr hq
            positivity
          rw [show b / r = b * r / (r * r) by field_simp]
          exact div_pos h3 (mul_self_pos.mpr r0)
        refine ⟨_, _, _, _, rfl, ok, ?_⟩
        have hz : 1 < |1 / (a / r)| := by
          rw [abs_div, abs_one, lt_div_iff₀ (abs_pos.mpr c0), one_mul]
          apply abs_lt_one_of_sq
          have := ok.unit
          nlinarith [mul_pos spos spos]
        refine ⟨fun h => ?_, fun h => absurd h (not_lt.mpr hz.le), fun _ => ⟨by rw [one_div_one_div], ?_⟩,
          Or.inr (Or.inr hz)⟩
        · rw [h, abs_one] at hz; exact absurd hz (lt_irrefl _)
        · have : 1 - a / r * (a / r) = b / r * (b / r) := by linear_combination -ok.unit
          rw [this, Real.sqrt_mul_self spos.le]

/-! ### Complex rotation -/

/-- Complex rotation `[c s; -conj s c] (a, b) = (r, 0)`, `c` real. -/
structure RotCOK (a b r : ℂ) (c : ℝ) (s : ℂ) : Prop where
  unit : (c : ℂ) * c + s * star s = 1
  top : c * a + s * b = r
  bot : -star s * a + c * b = 0

theorem abssq_eq (z : ℂ) : ((abssq z : ℝ) : ℂ) = z * star z := by
  unfold abssq
  apply Complex.ext <;> simp <;> ring

theorem abssq_pos {z : ℂ} (h : z ≠ 0) : 0 < abssq z := by
  unfold abssq
  by_contra hn
  apply h
  have h1 : z.re * z.re = 0 := by nlinarith [mul_self_nonneg z.re, mul_self_nonneg z.im]
  have h2 : z.im * z.im = 0 := by nlinarith [mul_self_nonneg z.re, mul_self_nonneg z.im]
  exact Complex.ext (mul_self_eq_zero.mp h1) (mul_self_eq_zero.mp h2)

theorem rotgD_eq {rtmin rtmax f2 h2 : ℝ} (hf : 0 ≤ f2) (hh : 0 ≤ h2) :
    rotgD rtmin rtmax f2 h2 = some (Real.sqrt f2 * Real.sqrt h2) := by
  unfold rotgD
  simp only [pure]
  split
  · rw [sq_nn (mul_nonneg hf hh), Real.sqrt_mul hf]
  · simp only [sq_nn hf, sq_nn hh, bind_s]

theorem star_ofReal (x : ℝ) : star (x : ℂ) = x := Complex.conj_ofReal x

theorem rotgC0_ok {p : RotPar} (h1 : 0 < p.safmin) (h2 : 0 < p.safmax) (rtmin rtmax : ℝ) {b : ℂ} (hb : b ≠ 0) :
    ∃ r s, rotgC0 p rtmin rtmax b = some (r, 0, s) ∧ RotCOK 0 b r 0 s := by
  have aux : ∀ (b : ℂ), b ≠ 0 → Real.sqrt (abssq b) ≠ 0 ∧
      star b / (Real.sqrt (abssq b) : ℝ) * star (star b / (Real.sqrt (abssq b) : ℝ)) = 1 ∧
      star b / (Real.sqrt (abssq b) : ℝ) * b = (Real.sqrt (abssq b) : ℝ) := by
    intro b hb
    have h0 := abssq_pos hb
    have hs := Real.sqrt_pos.mpr h0
    have hc : ((Real.sqrt (abssq b) : ℝ) : ℂ) ≠ 0 := by exact_mod_cast hs.ne'
    have hh : ((Real.sqrt (abssq b) : ℝ) : ℂ) * (Real.sqrt (abssq b) : ℝ) = b * star b := by
      rw [← Complex.ofReal_mul, Real.mul_self_sqrt h0.le, abssq_eq]
    refine ⟨hs.ne', ?_, ?_⟩
    · rw [star_div₀, star_star, star_ofReal]; field_simp; linear_combination -hh
    · field_simp; linear_combination -hh
  unfold rotgC0
  simp only [pure]
  split
  · obtain ⟨n, u, t⟩ := aux b hb
    simp only [sq_nn (abssq_pos hb).le, bind_s, dvC_ne n]
    exact ⟨_, _, rfl, by simpa using u, by simpa using t, by simp⟩
  · generalize hu : min p.safmax (max p.safmin (max |b.re| |b.im|)) = k
    have hk : 0 < k := by rw [← hu]; exact lt_min h2 (lt_max_of_lt_left h1)
    have hkc : (k : ℂ) ≠ 0 := by exact_mod_cast hk.ne'
    have hbk : b * ((1 / k : ℝ) : ℂ) ≠ 0 := by
      apply mul_ne_zero hb
      have : (1 / k : ℝ) ≠ 0 := by positivity
      exact_mod_cast this
    obtain ⟨n, u, t⟩ := aux _ hbk
    simp only [dv_ne hk.ne', bind_s, sq_nn (abssq_pos hbk).le, dvC_ne n]
    refine ⟨_, _, rfl, by simpa using u, ?_, by simp⟩
    have e : b = b * ((1 / k : ℝ) : ℂ) * k := by push_cast; field_simp
    generalize ((1 / k : ℝ) : ℂ) = ik at *
    generalize hgs : b * ik = gs at *
    generalize star gs / ((Real.sqrt (abssq gs) : ℝ) : ℂ) = x at *
    rw [Complex.ofReal_mul, ← t, e]; simp; ring

/-- The common core: with `f = a/v`, `g = b/u`, `w = v/u`. -/
theorem rotC_core {f g : ℂ} {f2 h2 w u : ℝ} {d : ℝ} (hf : f ≠ 0) (hu : 0 < u) (hw : 0 < w)
    (ef : f2 = abssq f) (eh : h2 = f2 * w * w + abssq g) (ed : d = Real.sqrt f2 * Real.sqrt h2) :
    d ≠ 0 ∧ RotCOK (f * (w * u : ℝ)) (g * u) (f * (h2 * (1 / d) : ℝ) * u) (f2 * (1 / d) * w)
      (star g * (f * (1 / d : ℝ))) := by
  have f0 : 0 < f2 := by rw [ef]; exact abssq_pos hf
  have g0 : 0 ≤ abssq g := by unfold abssq; nlinarith [mul_self_nonneg g.re, mul_self_nonneg g.im]
  have h0 : 0 < h2 := by rw [eh]; positivity
  have d0 : d ≠ 0 := by
    rw [ed]; exact mul_ne_zero (Real.sqrt_pos.mpr f0).ne' (Real.sqrt_pos.mpr h0).ne'
  have dd : d * d = f2 * h2 := by
    rw [ed]
    calc _ = (Real.sqrt f2 * Real.sqrt f2) * (Real.sqrt h2 * Real.sqrt h2) := by ring
      _ = _ := by rw [Real.mul_self_sqrt f0.le, Real.mul_self_sqrt h0.le]
  obtain ⟨q, hq⟩ : ∃ q, q = 1 / d := ⟨_, rfl⟩
  have qq : q * q * (f2 * h2) = 1 := by rw [hq, ← dd]; field_simp
  have qqc : (q : ℂ) * q * (f2 * h2) = 1 := by exact_mod_cast qq
  have efc : (f2 : ℂ) = f * star f := by rw [ef, abssq_eq]
  have ehc : (h2 : ℂ) = f2 * w * w + g * star g := by rw [eh]; push_cast; rw [abssq_eq]
  refine ⟨d0, ?_⟩
  rw [← hq]
  refine ⟨?_, ?_, ?_⟩
  · push_cast
    simp only [star_mul', star_star, star_ofReal]
    linear_combination qqc - q * q * f2 * ehc - q * q * (g * star g) * efc
  · push_cast
    linear_combination -(q * f * u : ℂ) * ehc
  · push_cast
    simp only [star_mul', star_star, star_ofReal]
    linear_combination (q * w * g * u : ℂ) * efc

theorem rotgC1_ok {p : RotPar} (h1 : 0 < p.safmin) (h2 : 0 < p.safmax) (rtmin rtmax : ℝ) {a b : ℂ}
    (ha : a ≠ 0) : ∃ r c s, rotgC1 p rtmin rtmax a b = some (r, c, s) ∧ RotCOK a b r c s := by
  have nn : ∀ z : ℂ, 0 ≤ abssq z := fun z => by
    unfold abssq; nlinarith [mul_self_nonneg z.re, mul_self_nonneg z.im]
  unfold rotgC1
  simp only [pure]
  by_cases hc : max |a.re| |a.im| > rtmin ∧ max |a.re| |a.im| < rtmax ∧ max |b.re| |b.im| > rtmin ∧
      max |b.re| |b.im| < rtmax
  · rw [if_pos hc]
    obtain ⟨d0, ok⟩ := rotC_core (f := a) (g := b) (f2 := abssq a) (h2 := abssq a + abssq b) (w := 1) (u := 1)
      ha one_pos one_pos rfl (by ring) rfl
    simp only [rotgD_eq (nn a) (add_nonneg (nn a) (nn b)), bind_s, dv_ne d0]
    refine ⟨_, _, _, rfl, ?_⟩
    simpa using ok
  · rw [if_neg hc]
    generalize hu : min p.safmax (max p.safmin (max (max |a.re| |a.im|) (max |b.re| |b.im|))) = u
    have u0 : 0 < u := by rw [← hu]; exact lt_min h2 (lt_max_of_lt_left h1)
    have uc : (u : ℂ) ≠ 0 := by exact_mod_cast u0.ne'
    simp only [dv_ne u0.ne', bind_s]
    by_cases hv : max |a.re| |a.im| * (1 / u) < rtmin
    · rw [if_pos hv]
      generalize hv : min p.safmax (max p.safmin (max |a.re| |a.im|)) = v
      have v0 : 0 < v := by rw [← hv]; exact lt_min h2 (lt_max_of_lt_left h1)
      have vc : (v : ℂ) ≠ 0 := by exact_mod_cast v0.ne'
      have fa : a * ((1 / v : ℝ) : ℂ) ≠ 0 := mul_ne_zero ha (by
        have : (1 / v : ℝ) ≠ 0 := by positivity
        exact_mod_cast this)
      obtain ⟨d0, ok⟩ := rotC_core (f := a * ((1 / v : ℝ) : ℂ)) (g := b * ((1 / u : ℝ) : ℂ))
        (f2 := abssq (a * ((1 / v : ℝ) : ℂ))) (w := v * (1 / u)) (u := u) fa u0 (by positivity) rfl rfl rfl
      have hh : 0 ≤ abssq (a * ((1 / v : ℝ) : ℂ)) * (v * (1 / u)) * (v * (1 / u)) + abssq (b * ((1 / u : ℝ) : ℂ)) := by
        have := nn (a * ((1 / v : ℝ) : ℂ)); have := nn (b * ((1 / u : ℝ) : ℂ)); positivity
      simp only [dv_ne v0.ne', bind_s, rotgD_eq (nn _) hh, dv_ne d0]
      refine ⟨_, _, _, rfl, ?_⟩
      convert ok using 1
      · push_cast; field_simp
      · push_cast; field_simp
    · rw [if_neg hv]
      have fa : a * ((1 / u : ℝ) : ℂ) ≠ 0 := mul_ne_zero ha (by
        have : (1 / u : ℝ) ≠ 0 := by positivity
        exact_mod_cast this)
      obtain ⟨d0, ok⟩ := rotC_core (f := a * ((1 / u : ℝ) : ℂ)) (g := b * ((1 / u : ℝ) : ℂ))
        (f2 := abssq (a * ((1 / u : ℝ) : ℂ)))
        (h2 := abssq (a * ((1 / u : ℝ) : ℂ)) + abssq (b * ((1 / u : ℝ) : ℂ)))
        (w := 1) (u := u) fa u0 one_pos rfl (by ring) rfl
      simp only [bind_s, rotgD_eq (nn _) (add_nonneg (nn _) (nn _)), dv_ne d0]
      refine ⟨_, _, _, rfl, ?_⟩
      convert ok using 1
      · push_cast; field_simp
      · push_cast; field_simp

theorem rotgC_ok {p : RotPar} (h1 : 0 < p.safmin) (h2 : 0 < p.safmax) (h3 : 0 < p.ulp) (a b : ℂ) :
    ∃ r c s, rotgC p a b = some (r, c, s) ∧ RotCOK a b r c s := by
  unfold rotgC
  have p1 : 0 ≤ p.safmin / p.ulp := by positivity
  have p2 : 0 ≤ p.safmax * p.ulp := by positivity
  simp only [dv_ne h3.ne', bind_s, sq_nn p1, sq_nn p2, pure]
  by_cases hb : b = 0
  · rw [if_pos hb]
    refine ⟨_, _, _, rfl, by simp, by simp, by simp [hb]⟩
  · rw [if_neg hb]
    by_cases ha : a = 0
    · rw [if_pos ha]
      obtain ⟨r, s, e, ok⟩ := rotgC0_ok h1 h2 (√(p.safmin / p.ulp)) (√(p.safmax * p.ulp)) hb
      exact ⟨r, 0, s, e, by rw [ha]; exact ok⟩
    · rw [if_neg ha]
      exact rotgC1_ok h1 h2 _ _ ha

end TLA.Kernel
