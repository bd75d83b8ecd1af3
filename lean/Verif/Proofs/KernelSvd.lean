import Verif.Proofs.KernelEig

/-! Proofs about 2 by 2 triangular singular values (`singularvalues22`, `svd22`). -/

set_option linter.unusedVariables false

namespace TLA.Kernel

/-- Characterisation of the singular values of `[f g; 0 h]`. -/
def SvPair (f g h smin smax : ℝ) : Prop :=
  0 ≤ smin ∧ smin ≤ smax ∧ smin * smin + smax * smax = f * f + g * g + h * h ∧ smin * smax = |f * h|

theorem sv_main {F N G P Q f g h : ℝ} (hF : 0 < F) (hN : 0 < N) (hNF : N ≤ F)
    (hP : P = Real.sqrt ((F + N) ^ 2 + G ^ 2)) (hQ : Q = Real.sqrt ((F - N) ^ 2 + G ^ 2))
    (e1 : F * F + N * N = f * f + h * h) (e2 : F * N = |f * h|) (e3 : G * G = g * g) :
    0 < P + Q ∧ SvPair f g h (2 * F * N / (P + Q)) ((P + Q) / 2) := by
  have p1 : P * P = (F + N) ^ 2 + G ^ 2 := by rw [hP]; exact Real.mul_self_sqrt (by positivity)
  have q1 : Q * Q = (F - N) ^ 2 + G ^ 2 := by rw [hQ]; exact Real.mul_self_sqrt (by positivity)
  have p0 : 0 < P := by rw [hP]; apply Real.sqrt_pos.mpr; positivity
  have q0 : 0 ≤ Q := by rw [hQ]; exact Real.sqrt_nonneg _
  have pq : 0 < P + Q := by linarith
  have hs : 2 * F * N / (P + Q) = (P - Q) / 2 := by
    rw [div_eq_div_iff pq.ne' two_ne_zero]; linear_combination -p1 + q1
  have qp : Q ≤ P := by
    rw [hP, hQ]; apply Real.sqrt_le_sqrt; nlinarith
  refine ⟨pq, ?_, ?_, ?_, ?_⟩
  · positivity
  · rw [hs]; linarith
  · rw [hs]; linear_combination p1 / 2 + q1 / 2 + e1 + e3
  · rw [← e2]; field_simp

theorem sqrt_div_aux {x y : ℝ} (hy : 0 < y) (hx : 0 ≤ x) : Real.sqrt (x / y ^ 2) = Real.sqrt x / y := by
  rw [Real.sqrt_div hx, Real.sqrt_sq hy.le]

theorem singularvalues22_ok (f g h : ℝ) :
    ∃ smin smax, singularvalues22 f g h = some (smin, smax) ∧ SvPair f g h smin smax := by
  have mm : max |f| |h| * max |f| |h| + min |f| |h| * min |f| |h| = f * f + h * h := by
    rcases le_total |f| |h| with hh | hh
    · rw [max_eq_right hh, min_eq_left hh, abs_mul_abs_self, abs_mul_abs_self]; ring
    · rw [max_eq_left hh, min_eq_right hh, abs_mul_abs_self, abs_mul_abs_self]
  have mp : max |f| |h| * min |f| |h| = |f * h| := by rw [max_mul_min, abs_mul]
  have hle : min |f| |h| ≤ max |f| |h| := min_le_max
  have hN0 : 0 ≤ min |f| |h| := le_min (abs_nonneg _) (abs_nonneg _)
  have hG := abs_nonneg g
  have hGG : |g| * |g| = g * g := abs_mul_abs_self g
  unfold singularvalues22
  simp only [pure]
  generalize max |f| |h| = F at *
  generalize min |f| |h| = N at *
  generalize |g| = G at *
  by_cases hN : N = 0
  · subst hN
    rw [if_pos rfl]
    by_cases hF : F = 0
    · subst hF
      rw [if_pos rfl]
      exact ⟨_, _, rfl, le_refl _, hG, by linear_combination hGG + mm, by rw [← mp]; ring⟩
    · have hF' : 0 < F := lt_of_le_of_ne hle (Ne.symm hF)
      have hM : 0 < max F G := lt_of_lt_of_le hF' (le_max_left _ _)
      have h0 : 0 ≤ 1 + min F G / max F G * (min F G / max F G) := by
        nlinarith [mul_self_nonneg (min F G / max F G)]
      simp only [if_neg hF, dv_ne hM.ne', bind_s, sq_nn h0]
      refine ⟨_, _, rfl, le_refl _, by positivity, ?_, by rw [← mp]; ring⟩
      have e : max F G * max F G + min F G * min F G = F * F + G * G := by
        rcases le_total F G with hh | hh
        · rw [max_eq_right hh, min_eq_left hh]; ring
        · rw [max_eq_left hh, min_eq_right hh]
      have e2 : (Real.sqrt (1 + min F G / max F G * (min F G / max F G))) ^ 2 =
          1 + min F G / max F G * (min F G / max F G) := Real.sq_sqrt h0
      calc _ = max F G * max F G * (Real.sqrt (1 + min F G / max F G * (min F G / max F G))) ^ 2 := by ring
        _ = max F G * max F G + min F G * min F G := by rw [e2]; field_simp
        _ = _ := by rw [e]; linear_combination mm + hGG
  · have hN' : 0 < N := lt_of_le_of_ne hN0 (Ne.symm hN)
    have hF' : 0 < F := lt_of_lt_of_le hN' hle
    obtain ⟨pq, sv⟩ := sv_main (f := f) (g := g) (h := h) (G := G) hF' hN' hle rfl rfl mm mp hGG
    rw [if_neg hN]
    by_cases hc : G < F
    · have a1 : 0 ≤ (1 + N / F) * (1 + N / F) + G / F * (G / F) := by positivity
      have a2 : 0 ≤ (F - N) / F * ((F - N) / F) + G / F * (G / F) := by
        nlinarith [mul_self_nonneg ((F - N) / F), mul_self_nonneg (G / F)]
      have b1 : (1 + N / F) * (1 + N / F) + G / F * (G / F) = ((F + N) ^ 2 + G ^ 2) / F ^ 2 := by
        field_simp
      have b2 : (F - N) / F * ((F - N) / F) + G / F * (G / F) = ((F - N) ^ 2 + G ^ 2) / F ^ 2 := by
        field_simp
      simp only [if_pos hc, dv_ne hF'.ne', bind_s, sq_nn a1, sq_nn a2]
      rw [b1, b2, sqrt_div_aux hF' (by positivity), sqrt_div_aux hF' (by positivity)]
      generalize hP : Real.sqrt ((F + N) ^ 2 + G ^ 2) = P at *
      generalize hQ : Real.sqrt ((F - N) ^ 2 + G ^ 2) = Q at *
      have n1 : P / F + Q / F ≠ 0 := by rw [← add_div]; positivity
      have e1 : 2 / (P / F + Q / F) = 2 * F / (P + Q) := by field_simp
      have n2 : 2 * F / (P + Q) ≠ 0 := by positivity
      simp only [dv_ne n1, bind_s, e1, dv_ne n2]
      refine ⟨_, _, rfl, ?_⟩
      convert sv using 1
      · field_simp
      · field_simp
    · have hG' : 0 < G := lt_of_lt_of_le hF' (not_lt.mp hc)
      have hu : F / G ≠ 0 := by positivity
      have a1 : 0 ≤ 1 + (1 + N / F) * (F / G) * ((1 + N / F) * (F / G)) := by positivity
      have a2 : 0 ≤ 1 + (F - N) / F * (F / G) * ((F - N) / F * (F / G)) := by
        nlinarith [mul_self_nonneg ((F - N) / F * (F / G))]
      have b1 : 1 + (1 + N / F) * (F / G) * ((1 + N / F) * (F / G)) = ((F + N) ^ 2 + G ^ 2) / G ^ 2 := by
        field_simp; ring
      have b2 : 1 + (F - N) / F * (F / G) * ((F - N) / F * (F / G)) = ((F - N) ^ 2 + G ^ 2) / G ^ 2 := by
        field_simp; ring
      simp only [if_neg hc, dv_ne hG'.ne', dv_ne hF'.ne', bind_s, if_neg hu, sq_nn a1, sq_nn a2]
      rw [b1, b2, sqrt_div_aux hG' (by positivity), sqrt_div_aux hG' (by positivity)]
      generalize hP : Real.sqrt ((F + N) ^ 2 + G ^ 2) = P at *
      generalize hQ : Real.sqrt ((F - N) ^ 2 + G ^ 2) = Q at *
      have n1 : P / G + Q / G ≠ 0 := by rw [← add_div]; positivity
      have e1 : 1 / (P / G + Q / G) = G / (P + Q) := by field_simp
      have n2 : G / (P + Q) + G / (P + Q) ≠ 0 := by positivity
      simp only [dv_ne n1, bind_s, e1, dv_ne n2]
      refine ⟨_, _, rfl, ?_⟩
      convert sv using 1
      · field_simp; ring
      · field_simp; ring

/-! ### svd22 -/

theorem sgn_pos {x : ℝ} (h : 0 < x) : sgn x = 1 := by simp [sgn, h, not_lt.mpr h.le]
theorem sgn_neg {x : ℝ} (h : x < 0) : sgn x = -1 := by simp [sgn, h, not_lt.mpr h.le]
@[simp] theorem sgn_zero : sgn 0 = 0 := by simp [sgn]

theorem abs_mul_sgn (x : ℝ) : |x| * sgn x = x := by
  rcases lt_trichotomy x 0 with h | rfl | h
  · rw [sgn_neg h, abs_of_neg h]; ring
  · simp
  · rw [sgn_pos h, abs_of_pos h]; ring

theorem sgn_mul (x y : ℝ) : sgn (x * y) = sgn x * sgn y := by
  rcases lt_trichotomy x 0 with h | rfl | h <;> rcases lt_trichotomy y 0 with h' | rfl | h'
  · rw [sgn_pos (mul_pos_of_neg_of_neg h h'), sgn_neg h, sgn_neg h']; ring
  · simp
  · rw [sgn_neg (mul_neg_of_neg_of_pos h h'), sgn_neg h, sgn_pos h']; ring
  · simp
  · simp
  · simp
  · rw [sgn_neg (mul_neg_of_pos_of_neg h h'), sgn_pos h, sgn_neg h']; ring
  · simp
  · rw [sgn_pos (mul_pos h h'), sgn_pos h, sgn_pos h']; ring

theorem sgn_sgn (x : ℝ) : sgn (sgn x) = sgn x := by
  rcases lt_trichotomy x 0 with h | rfl | h
  · rw [sgn_neg h, sgn_neg (by norm_num)]
  · simp
  · rw [sgn_pos h, sgn_pos (by norm_num)]

theorem sgn_sq {x : ℝ} (h : x ≠ 0) : sgn x * sgn x = 1 := by
  rcases lt_or_gt_of_ne h with h | h
  · rw [sgn_neg h]; ring
  · rw [sgn_pos h]; ring

theorem sgn_inv (x : ℝ) : sgn x⁻¹ = sgn x := by
  rcases lt_trichotomy x 0 with h | rfl | h
  · rw [sgn_neg h, sgn_neg (inv_lt_zero.mpr h)]
  · simp
  · rw [sgn_pos h, sgn_pos (inv_pos.mpr h)]

theorem sgn_div (x y : ℝ) : sgn (x / y) = sgn x * sgn y := by rw [div_eq_mul_inv, sgn_mul, sgn_inv]

/-- The decomposition `[cl sl; -sl cl] [f g; 0 h] [cr -sr; sr cr] = diag(s1, s2)`. -/
structure Svd2 (f g h s1 s2 cl sl cr sr : ℝ) : Prop where
  ul : cl * cl + sl * sl = 1
  ur : cr * cr + sr * sr = 1
  e00 : cl * (f * cr + g * sr) + sl * (h * sr) = s1
  e01 : cl * (g * cr - f * sr) + sl * (h * cr) = 0
  e10 : -sl * (f * cr + g * sr) + cl * (h * sr) = 0
  e11 : -sl * (g * cr - f * sr) + cl * (h * cr) = s2

theorem Svd2.flip {f g h s1 s2 cl sl cr sr : ℝ} (x : Svd2 h g f s1 s2 cl sl cr sr) :
    Svd2 f g h s1 s2 sr cr sl cl := by
  obtain ⟨a, b, c, d, e, k⟩ := x
  exact ⟨by linear_combination b, by linear_combination a, by linear_combination c,
    by linear_combination -e, by linear_combination -d, by linear_combination k⟩

/-- Result of `svd22Main`. -/
structure MainOK (ft gt ht : ℝ) (x : SvdT) : Prop where
  ex : ∃ a, 1 ≤ a ∧ x.ssmin = |ht| / a ∧ x.ssmax = |ft| * a ∧
    Svd2 ft gt ht (ft * a) (ht / a) x.clt x.slt x.crt x.srt
  cr : 0 < x.crt
  cl : 0 < x.clt
  sr : sgn x.srt = sgn gt * sgn ft

theorem svd_poly {f m η a t L : ℝ} (a0 : 0 < a) (L0 : 0 < L) (L2 : L * L = t * t + 4) (hm0 : m ≠ 0)
    (ht' : t * m = 2 * (a * a - 1)) (key : t * t * (a * a - η * η) = 4 * (a * a) * (a * a - 1))
    (ch : a * a * (a * a) + η * η = (1 + η * η + m * m) * (a * a)) :
    Svd2 f (m * f) (η * f) (f * a) (η * f / a) (2 * a / L) (η * (t / L) / a) (2 / L) (t / L) := by
  obtain ⟨i, hi⟩ : ∃ i, i = L⁻¹ := ⟨_, rfl⟩
  obtain ⟨j, hj⟩ : ∃ j, j = a⁻¹ := ⟨_, rfl⟩
  have aj : a * j = 1 := by rw [hj]; exact mul_inv_cancel₀ a0.ne'
  have Li : i * i * (t * t + 4) = 1 := by
    rw [← L2, hi]; field_simp
  have K : t * t * (1 - η * η * j * j) = 4 * (a * a - 1) := by
    linear_combination j * j * key + (t * t * (-a * j - 1) + 4 * (a * a - 1) * (a * j + 1)) * aj
  have hz2 : 4 * a * m - 2 * a * t + 2 * η * η * t * j = 0 := by
    have hz : m * (2 * a ^ 2 * (2 * m - t) + η ^ 2 * 2 * t) = 0 := by
      linear_combination (2 * η ^ 2 - 2 * a ^ 2) * ht' - 4 * ch
    have h := (mul_eq_zero.mp hz).resolve_left hm0
    linear_combination j * h + (-4 * a * m + 2 * a * t) * aj
  simp only [div_eq_mul_inv, ← hi, ← hj]
  refine ⟨?_, ?_, ?_, ?_, ?_, ?_⟩
  · linear_combination Li - i * i * K
  · linear_combination Li
  · linear_combination f * a * Li + f * i * i * 2 * a * ht' - f * i * i * a * K
      - f * i * i * η * η * t * t * j * aj
  · linear_combination f * i * i * hz2
  · linear_combination -f * η * t * i * i * j * ht' - 2 * f * η * t * i * i * a * aj
  · linear_combination f * η * j * Li - 2 * f * η * i * i * j * ht' - 4 * f * η * i * i * a * aj

theorem svd22Main_ok {ft gt ht : ℝ} (hf : ft ≠ 0) (hg : gt ≠ 0) (hle : |ht| ≤ |ft|) :
    ∃ x, svd22Main ft gt ht |ft| |ht| = some x ∧ MainOK ft gt ht x := by
  have fa0 : 0 < |ft| := abs_pos.mpr hf
  have ha0 := abs_nonneg ht
  unfold svd22Main
  simp only [pure]
  -- l
  obtain ⟨l, hl, hl'⟩ : ∃ l, (if |ft| - |ht| = |ft| then some 1 else dv (|ft| - |ht|) |ft|) = some l ∧
      l = 1 - |ht| / |ft| := by
    by_cases h : |ft| - |ht| = |ft|
    · have : |ht| = 0 := by linarith
      exact ⟨1, if_pos h, by rw [this]; simp⟩
    · exact ⟨_, by rw [if_neg h, dv_ne fa0.ne'], by field_simp⟩
  simp only [hl, bind_s, dv_ne hf]
  -- η
  obtain ⟨η, hη⟩ : ∃ η, η = ht / ft := ⟨_, rfl⟩
  have habs : |ht| / |ft| = |η| := by rw [hη, abs_div]
  rw [habs] at hl'
  have hη1 : |η| ≤ 1 := by rw [← habs]; exact div_le_one_of_le₀ hle fa0.le
  have hl0 : 0 ≤ l := by linarith
  obtain ⟨m, hm⟩ : ∃ m, m = gt / ft := ⟨_, rfl⟩
  rw [← hm]
  have hm0 : m ≠ 0 := by rw [hm]; exact div_ne_zero hg hf
  have hmm : 0 < m * m := mul_self_pos.mpr hm0
  have hs0 : 0 ≤ (2 - l) * (2 - l) + m * m := by nlinarith [mul_self_nonneg (2 - l)]
  have hr0 : 0 ≤ l * l + m * m := by positivity
  have hη0 := abs_nonneg η
  obtain ⟨r, hr, hr'⟩ : ∃ r, (if l = 0 then some |m| else sq (l * l + m * m)) = some r ∧
      r = Real.sqrt (l * l + m * m) := by
    by_cases h : l = 0
    · refine ⟨_, if_pos h, ?_⟩
      rw [h, zero_mul, zero_add, Real.sqrt_mul_self_eq_abs]
    · exact ⟨_, by rw [if_neg h, sq_nn hr0], rfl⟩
  simp only [sq_nn hs0, bind_s, hr]
  generalize hs : Real.sqrt ((2 - l) * (2 - l) + m * m) = s
  have s2 : s * s = (2 - l) * (2 - l) + m * m := by rw [← hs]; exact Real.mul_self_sqrt hs0
  have r2 : r * r = l * l + m * m := by rw [hr']; exact Real.mul_self_sqrt hr0
  have spos : 0 < s := by
    rw [← hs]; apply Real.sqrt_pos.mpr; nlinarith [mul_self_nonneg (2 - l)]
  have rpos : 0 < r := by rw [hr']; apply Real.sqrt_pos.mpr; positivity
  have st : 2 - l ≤ s := by
    rw [← hs]; apply Real.le_sqrt_of_sq_le; nlinarith
  have rl : l ≤ r := by
    rw [hr']; apply Real.le_sqrt_of_sq_le; nlinarith
  generalize ha : 1 / 2 * (s + r) = a
  have a1 : 1 ≤ a := by rw [← ha]; linarith
  have a0 : 0 < a := by linarith
  have n1 : s + (2 - l) ≠ 0 := by
    have : 0 ≤ 2 - l := by linarith
    positivity
  have n2 : r + l ≠ 0 := by positivity
  simp only [dv_ne a0.ne', bind_s, if_neg hmm.ne', dv_ne n1, dv_ne n2]
  have hsm : m / (s + (2 - l)) = (s - (2 - l)) / m := by
    rw [div_eq_div_iff n1 hm0]; linear_combination -s2
  have hrm : m / (r + l) = (r - l) / m := by
    rw [div_eq_div_iff n2 hm0]; linear_combination -r2
  have tpos : 0 < (m / (s + (2 - l)) + m / (r + l)) * (1 + a) * m := by
    have p1 : 0 < m * m / (s + (2 - l)) := by
      have : 0 ≤ 2 - l := by linarith
      positivity
    have p2 : 0 < m * m / (r + l) := by positivity
    have : (m / (s + (2 - l)) + m / (r + l)) * (1 + a) * m =
        (m * m / (s + (2 - l)) + m * m / (r + l)) * (1 + a) := by ring
    rw [this]; positivity
  have ht' : (m / (s + (2 - l)) + m / (r + l)) * (1 + a) * m = 2 * (a * a - 1) := by
    rw [hsm, hrm]; field_simp; rw [← ha]; ring
  generalize (m / (s + (2 - l)) + m / (r + l)) * (1 + a) = t at *
  -- characteristic equation
  have hηη : η * η = (1 - l) * (1 - l) := by rw [hl', ← abs_mul_abs_self η]; ring
  have ch : a * a * (a * a) + η * η = (1 + η * η + m * m) * (a * a) := by
    have hb : a * (1 / 2 * (s - r)) = 1 - l := by
      rw [← ha]; linear_combination (s2 - r2) / 4
    have hab : a * a + (1 / 2 * (s - r)) * (1 / 2 * (s - r)) = 1 + η * η + m * m := by
      rw [hηη, ← ha]; linear_combination (s2 + r2) / 2
    rw [← hab, hηη, ← hb]; ring
  have h4 : 0 ≤ t * t + 4 := by nlinarith [mul_self_nonneg t]
  simp only [sq_nn h4, bind_s]
  generalize hL : Real.sqrt (t * t + 4) = L
  have L2 : L * L = t * t + 4 := by rw [← hL]; exact Real.mul_self_sqrt h4
  have L0 : 0 < L := by rw [← hL]; apply Real.sqrt_pos.mpr; nlinarith [mul_self_nonneg t]
  simp only [dv_ne L0.ne', bind_s, dv_ne hf, dv_ne a0.ne', ← hη]
  have clt : (2 / L + t / L * m) / a = 2 * a / L := by
    field_simp; linear_combination ht'
  have key : t * t * (a * a - η * η) = 4 * (a * a) * (a * a - 1) := by
    have h1 : m * m * (t * t) = 4 * (a * a - 1) * (a * a - 1) := by
      have : m * m * (t * t) = (t * m) * (t * m) := by ring
      rw [this, ht']; ring
    have h2 : m * m * (a * a) = (a * a - 1) * (a * a - η * η) := by linear_combination -ch
    have : (m * m) * (t * t * (a * a - η * η) - 4 * (a * a) * (a * a - 1)) = 0 := by
      linear_combination (a * a - η * η) * h1 - 4 * (a * a - 1) * h2
    rcases mul_eq_zero.mp this with h | h
    · exact absurd h hmm.ne'
    · linarith
  have hft : ht = η * ft := by rw [hη]; field_simp
  have hgt : gt = m * ft := by rw [hm]; field_simp
  refine ⟨_, rfl, ⟨a, a1, rfl, rfl, ?_⟩, ?_, ?_, ?_⟩
  · simp only [clt]
    rw [hft, hgt]
    exact svd_poly a0 L0 L2 hm0 ht' key ch
  · positivity
  · rw [clt]; positivity
  · rw [sgn_div, sgn_pos L0, mul_one, ← sgn_div, ← hm]
    have : sgn t * sgn m = 1 := by rw [← sgn_mul]; exact sgn_pos tpos
    have h2 := sgn_sq hm0
    calc sgn t = sgn t * sgn m * sgn m := by rw [mul_assoc, h2, mul_one]
      _ = sgn m := by rw [this, one_mul]

/-- `Svd2` up to an error `δ`. -/
structure Svd2E (δ f g h s1 s2 cl sl cr sr : ℝ) : Prop where
  ul : |cl * cl + sl * sl - 1| ≤ δ
  ur : |cr * cr + sr * sr - 1| ≤ δ
  e00 : |cl * (f * cr + g * sr) + sl * (h * sr) - s1| ≤ δ * |g|
  e01 : |cl * (g * cr - f * sr) + sl * (h * cr)| ≤ δ * |g|
  e10 : |-sl * (f * cr + g * sr) + cl * (h * sr)| ≤ δ * |g|
  e11 : |-sl * (g * cr - f * sr) + cl * (h * cr) - s2| ≤ δ * |g|

theorem Svd2E.flip {δ f g h s1 s2 cl sl cr sr : ℝ} (x : Svd2E δ h g f s1 s2 cl sl cr sr) :
    Svd2E δ f g h s1 s2 sr cr sl cl := by
  obtain ⟨a, b, c, d, e, k⟩ := x
  refine ⟨?_, ?_, ?_, ?_, ?_, ?_⟩
  · convert b using 2; ring
  · convert a using 2; ring
  · convert c using 2; ring
  · rw [← abs_neg] at e; convert e using 2; ring
  · rw [← abs_neg] at d; convert d using 2; ring
  · convert k using 2; ring

theorem tiny_ok {eps f g h : ℝ} (hg : g ≠ 0) (hf : |f| < eps * |g|) (hh : |h| ≤ |f|) (he : eps ≤ 1) :
    Svd2E (2 * eps ^ 2) f g h g (f * h / g) 1 (h / g) (f / g) 1 := by
  obtain ⟨q, hq⟩ : ∃ q, q = f / g := ⟨_, rfl⟩
  obtain ⟨p, hp⟩ : ∃ p, p = h / g := ⟨_, rfl⟩
  have ga : 0 < |g| := abs_pos.mpr hg
  have hq1 : |q| ≤ eps := by
    rw [hq, abs_div]; exact (div_le_iff₀ ga).mpr hf.le
  have hp1 : |p| ≤ eps := by
    rw [hp, abs_div]; exact (div_le_iff₀ ga).mpr (hh.trans hf.le)
  have e0 : 0 ≤ eps := (abs_nonneg _).trans hq1
  have hqq : q * q ≤ eps ^ 2 := by rw [← abs_mul_abs_self, pow_two]; gcongr
  have hpp : p * p ≤ eps ^ 2 := by rw [← abs_mul_abs_self, pow_two]; gcongr
  have hff : f = q * g := by rw [hq]; field_simp
  have hhh : h = p * g := by rw [hp]; field_simp
  rw [← hq, ← hp]
  have e2 : 0 ≤ eps ^ 2 := by positivity
  have hppq : |p * p * q| ≤ eps ^ 2 := by
    rw [abs_mul, abs_of_nonneg (mul_self_nonneg p)]
    calc p * p * |q| ≤ eps ^ 2 * 1 := by
          gcongr; exact hq1.trans he
      _ = eps ^ 2 := mul_one _
  have hqqp : |q * q * p| ≤ eps ^ 2 := by
    rw [abs_mul, abs_of_nonneg (mul_self_nonneg q)]
    calc q * q * |p| ≤ eps ^ 2 * 1 := by
          gcongr; exact hp1.trans he
      _ = eps ^ 2 := mul_one _
  refine ⟨?_, ?_, ?_, ?_, ?_, ?_⟩
  · rw [show 1 * 1 + p * p - 1 = p * p by ring, abs_of_nonneg (mul_self_nonneg p)]; linarith
  · rw [show q * q + 1 * 1 - 1 = q * q by ring, abs_of_nonneg (mul_self_nonneg q)]; linarith
  · rw [show 1 * (f * q + g * 1) + p * (h * 1) - g = (q * q + p * p) * g by rw [hff, hhh]; ring, abs_mul]
    gcongr
    rw [abs_of_nonneg (by nlinarith [mul_self_nonneg p, mul_self_nonneg q])]; linarith
  · rw [show 1 * (g * q - f * 1) + p * (h * q) = p * p * q * g by rw [hff, hhh]; ring, abs_mul]
    gcongr; linarith
  · rw [show -p * (f * q + g * 1) + 1 * (h * 1) = -(q * q * p) * g by rw [hff, hhh]; ring, abs_mul, abs_neg]
    gcongr; linarith
  · rw [show -p * (g * q - f * 1) + 1 * (h * q) - f * h / g = 0 by rw [hff, hhh]; field_simp; ring, abs_zero]
    positivity

/-- The three outcomes of `svd22Body`. -/
inductive BodyOut (eps ft gt ht : ℝ) (p0 : ℕ) : SvdT → ℕ → Prop
  | zero (h : gt = 0) : BodyOut eps ft gt ht p0 ⟨|ht|, |ft|, 1, 0, 1, 0⟩ p0
  | tiny (hg : gt ≠ 0) (h : |ft| < eps * |gt|) (h1 : |ft| < |gt|) :
      BodyOut eps ft gt ht p0 ⟨|ft| * |ht| / |gt|, |gt|, 1, ht / gt, ft / gt, 1⟩ 2
  | main {x : SvdT} {p : ℕ} (hg : gt ≠ 0) (hf : ft ≠ 0) (h : ¬ (|ft| < |gt| ∧ |ft| < eps * |gt|))
      (hp : p = 2 ∨ p = p0) (hx : MainOK ft gt ht x) : BodyOut eps ft gt ht p0 x p

theorem svd22Body_ok {eps ft gt ht : ℝ} (he : 0 < eps) (p0 : ℕ) (hle : |ht| ≤ |ft|) :
    ∃ x p, svd22Body eps ft gt ht |ft| |gt| |ht| p0 = some (x, p) ∧ BodyOut eps ft gt ht p0 x p := by
  unfold svd22Body
  simp only [pure]
  by_cases hg : gt = 0
  · rw [if_pos (by rw [hg, abs_zero])]
    exact ⟨_, _, rfl, .zero hg⟩
  · have ga : 0 < |gt| := abs_pos.mpr hg
    rw [if_neg ga.ne']
    by_cases h1 : |gt| > |ft|
    · rw [if_pos h1]
      simp only [dv_ne ga.ne', bind_s]
      by_cases h2 : |ft| / |gt| < eps
      · simp only [if_pos h2, dv_ne hg, bind_s]
        refine ⟨⟨|ft| * |ht| / |gt|, |gt|, 1, ht / gt, ft / gt, 1⟩, 2, ?_, .tiny hg ((div_lt_iff₀ ga).mp h2) h1⟩
        by_cases h3 : |ht| > 1
        · have h0 : |ht| ≠ 0 := by linarith
          have hq : |gt| / |ht| ≠ 0 := div_ne_zero ga.ne' h0
          simp only [if_pos h3, dv_ne h0, dv_ne hq, bind_s]
          congr 3; field_simp
        · simp only [if_neg h3, bind_s]
          congr 3; ring
      · rw [if_neg h2]
        have hf : ft ≠ 0 := by
          rintro rfl; apply h2; rw [abs_zero, zero_div]; exact he
        obtain ⟨x, e, hx⟩ := svd22Main_ok hf hg hle
        rw [e]
        exact ⟨_, _, rfl, .main hg hf (fun h => h2 ((div_lt_iff₀ ga).mpr h.2)) (Or.inl rfl) hx⟩
    · rw [if_neg h1]
      have hf : ft ≠ 0 := by
        rintro rfl; apply h1; rw [abs_zero]; exact ga
      obtain ⟨x, e, hx⟩ := svd22Main_ok hf hg hle
      rw [e]
      exact ⟨_, _, rfl, .main hg hf (fun h => h1 h.1) (Or.inr rfl) hx⟩

/-- What `svd22` guarantees. -/
structure SvdOK (eps f g h : ℝ) (o : SvdOut) : Prop where
  exact' : eps * |g| ≤ max |f| |h| →
    Svd2 f g h o.ssmax o.ssmin o.csl o.snl o.csr o.snr ∧ |o.ssmin| ≤ |o.ssmax|
  tiny : eps ≤ 1 → max |f| |h| < eps * |g| →
    Svd2E (2 * eps ^ 2) f g h o.ssmax o.ssmin o.csl o.snl o.csr o.snr ∧ |o.ssmin| ≤ |o.ssmax|

/-- Outcome of the body with the signs inserted. -/
theorem BodyOut.fin {eps ft gt ht : ℝ} {p0 p : ℕ} {x : SvdT} (b : BodyOut eps ft gt ht p0 x p)
    (he : 0 < eps) (hle : |ht| ≤ |ft|) {ts : ℝ}
    (h2 : p = 2 → ts = sgn x.srt * sgn x.clt * sgn gt)
    (h0 : p = p0 → p ≠ 2 → ts = sgn x.crt * sgn x.clt * sgn ft) (hp0 : p0 ≠ 2) :
    (eps * |gt| ≤ |ft| → Svd2 ft gt ht (x.ssmax * sgn ts) (x.ssmin * sgn (ts * sgn ft * sgn ht))
        x.clt x.slt x.crt x.srt ∧ |x.ssmin * sgn (ts * sgn ft * sgn ht)| ≤ |x.ssmax * sgn ts|) ∧
    (eps ≤ 1 → |ft| < eps * |gt| → Svd2E (2 * eps ^ 2) ft gt ht (x.ssmax * sgn ts)
        (x.ssmin * sgn (ts * sgn ft * sgn ht)) x.clt x.slt x.crt x.srt ∧
        |x.ssmin * sgn (ts * sgn ft * sgn ht)| ≤ |x.ssmax * sgn ts|) := by
  cases b with
  | zero h =>
    subst h
    have e := h0 rfl hp0
    simp only [sgn_pos one_pos, one_mul] at e
    subst e
    have e1 : |ft| * sgn (sgn ft) = ft := by rw [sgn_sgn, abs_mul_sgn]
    have e2 : |ht| * sgn (sgn ft * sgn ft * sgn ht) = ht := by
      by_cases hf : ft = 0
      · have : ht = 0 := by rw [hf, abs_zero] at hle; exact abs_nonpos_iff.mp hle
        simp [this]
      · rw [sgn_sq hf, one_mul, sgn_sgn, abs_mul_sgn]
    simp only [e1, e2]
    refine ⟨fun _ => ⟨⟨?_, ?_, ?_, ?_, ?_, ?_⟩, hle⟩, fun _ h => ?_⟩
    any_goals ring
    rw [abs_zero, mul_zero] at h
    exact absurd h (not_lt.mpr (abs_nonneg _))
  | tiny hg h h1 =>
    have e := h2 rfl
    simp only [sgn_pos one_pos, one_mul] at e
    subst e
    have ga : 0 < |gt| := abs_pos.mpr hg
    have e1 : |gt| * sgn (sgn gt) = gt := by rw [sgn_sgn, abs_mul_sgn]
    have e2 : |ft| * |ht| / |gt| * sgn (sgn gt * sgn ft * sgn ht) = ft * ht / gt := by
      rw [sgn_mul, sgn_mul, sgn_sgn, sgn_sgn, sgn_sgn]
      have hs : sgn gt * |gt| = gt := by rw [mul_comm, abs_mul_sgn]
      have h3 : |gt| = gt * sgn gt := by
        calc |gt| = sgn gt * sgn gt * |gt| := by rw [sgn_sq hg, one_mul]
          _ = gt * sgn gt := by rw [mul_assoc, hs, mul_comm]
      have h4 : sgn gt ≠ 0 := by intro h4; have := sgn_sq hg; rw [h4] at this; norm_num at this
      calc _ = (|ft| * sgn ft) * (|ht| * sgn ht) * (sgn gt / |gt|) := by ring
        _ = ft * ht * (sgn gt / |gt|) := by rw [abs_mul_sgn, abs_mul_sgn]
        _ = _ := by rw [h3]; field_simp
    simp only [e1, e2]
    refine ⟨fun h' => absurd h (not_lt.mpr h'), fun he1 _ => ⟨tiny_ok hg h hle he1, ?_⟩⟩
    rw [abs_div, abs_mul, div_le_iff₀ ga]
    exact mul_le_mul h1.le (hle.trans h1.le) (abs_nonneg _) ga.le
  | main hg hf h hp hx =>
    obtain ⟨⟨a, a1, es, em, sv⟩, cr, cl, sr⟩ := hx
    have a0 : 0 < a := by linarith
    have hts : ts = sgn ft := by
      by_cases hp2 : p = 2
      · rw [h2 hp2, sr, sgn_pos cl, mul_one]
        calc sgn gt * sgn ft * sgn gt = (sgn gt * sgn gt) * sgn ft := by ring
          _ = sgn ft := by rw [sgn_sq hg, one_mul]
      · rw [h0 (hp.resolve_left hp2) hp2, sgn_pos cl, sgn_pos cr]; ring
    subst hts
    have e1 : x.ssmax * sgn (sgn ft) = ft * a := by
      rw [sgn_sgn, em]
      calc |ft| * a * sgn ft = |ft| * sgn ft * a := by ring
        _ = ft * a := by rw [abs_mul_sgn]
    have e2 : x.ssmin * sgn (sgn ft * sgn ft * sgn ht) = ht / a := by
      rw [sgn_sq hf, one_mul, sgn_sgn, es]
      calc |ht| / a * sgn ht = |ht| * sgn ht / a := by ring
        _ = ht / a := by rw [abs_mul_sgn]
    rw [e1, e2]
    have hsm : |ht / a| ≤ |ft * a| := by
      rw [abs_div, abs_mul, abs_of_pos a0, div_le_iff₀ a0]
      calc |ht| ≤ |ft| * 1 * 1 := by simpa using hle
        _ ≤ |ft| * a * a := by gcongr
    refine ⟨fun _ => ⟨sv, hsm⟩, fun he1 h1 => absurd ⟨?_, h1⟩ h⟩
    calc |ft| < eps * |gt| := h1
      _ ≤ 1 * |gt| := by gcongr
      _ = |gt| := one_mul _

theorem svd22_ok {eps : ℝ} (he : 0 < eps) (f g h : ℝ) :
    ∃ o, svd22 eps f g h = some o ∧ SvdOK eps f g h o := by
  unfold svd22
  simp only [pure]
  by_cases hs : |h| > |f|
  · obtain ⟨x, p, e, b⟩ := svd22Body_ok (gt := g) he 3 hs.le
    simp only [if_pos hs, e, bind_s]
    refine ⟨_, rfl, ?_⟩
    generalize hts : (if p = 1 then sgn x.slt * sgn x.srt * sgn f else if p = 2 then sgn x.clt * sgn x.srt * sgn g
      else sgn x.clt * sgn x.crt * sgn h) = ts
    have hp1 : p ≠ 1 := by
      rcases b with _ | _ | ⟨_, _, _, hp | hp, _⟩ <;> omega
    rw [if_neg hp1] at hts
    obtain ⟨b1, b2⟩ := b.fin he hs.le (ts := ts)
      (by rintro rfl; rw [if_pos rfl] at hts; rw [← hts]; ring)
      (by intro h3 h2; rw [if_neg h2] at hts; rw [← hts]; ring) (by decide)
    rw [show ts * sgn h * sgn f = ts * sgn f * sgn h by ring] at b1 b2
    constructor
    · intro hx
      rw [max_eq_right hs.le] at hx
      exact ⟨(b1 hx).1.flip, (b1 hx).2⟩
    · intro h1 hx
      rw [max_eq_right hs.le] at hx
      exact ⟨(b2 h1 hx).1.flip, (b2 h1 hx).2⟩
  · have hle := not_lt.mp hs
    obtain ⟨x, p, e, b⟩ := svd22Body_ok (gt := g) he 1 hle
    simp only [if_neg hs, e, bind_s]
    refine ⟨_, rfl, ?_⟩
    generalize hts : (if p = 1 then sgn x.crt * sgn x.clt * sgn f else if p = 2 then sgn x.srt * sgn x.clt * sgn g
      else sgn x.srt * sgn x.slt * sgn h) = ts
    obtain ⟨b1, b2⟩ := b.fin he hle (ts := ts)
      (by rintro rfl; rw [if_neg (by decide), if_pos rfl] at hts; rw [← hts])
      (by rintro h3 h2; rw [if_pos h3] at hts; rw [← hts]) (by decide)
    constructor
    · intro hx
      rw [max_eq_left hle] at hx
      exact b1 hx
    · intro h1 hx
      rw [max_eq_left hle] at hx
      exact b2 h1 hx

end TLA.Kernel
