import Verif.Proofs.KernelRotm

/-! Proofs about the nonsymmetric 2 by 2 eigenproblem (`lahqr_eig22`, `lahqr_schur22`). -/

set_option linter.unusedVariables false

namespace TLA.Kernel

/-! ### Eigenvalues -/

theorem csqrt_mul_self (z : ℂ) : csqrt z * csqrt z = z := by
  unfold csqrt
  rw [← pow_two, ← Complex.cpow_nat_mul]
  norm_num

/-- `s1`, `s2` are the eigenvalues of `[a b; c d]` (trace and determinant). -/
def EigC (a b c d s1 s2 : ℂ) : Prop := s1 + s2 = a + d ∧ s1 * s2 = a * d - b * c

theorem eig_core {a b c d s : ℂ} (hs : s ≠ 0) :
    EigC a b c d
      (s * ((a / s + d / s) / 2 + csqrt ((a / s - (a / s + d / s) / 2) * (a / s - (a / s + d / s) / 2) + b / s * (c / s))))
      (s * ((a / s + d / s) / 2 - csqrt ((a / s - (a / s + d / s) / 2) * (a / s - (a / s + d / s) / 2) + b / s * (c / s)))) := by
  have h := csqrt_mul_self ((a / s - (a / s + d / s) / 2) * (a / s - (a / s + d / s) / 2) + b / s * (c / s))
  generalize csqrt ((a / s - (a / s + d / s) / 2) * (a / s - (a / s + d / s) / 2) + b / s * (c / s)) = r at *
  constructor
  · field_simp; ring
  · have e : s * s * (r * r) = ((a - d) / 2) * ((a - d) / 2) + b * c := by
      rw [h]; field_simp; ring
    have e2 : s * ((a / s + d / s) / 2) = (a + d) / 2 := by field_simp
    calc _ = (s * ((a / s + d / s) / 2)) * (s * ((a / s + d / s) / 2)) - s * s * (r * r) := by ring
      _ = _ := by rw [e, e2]; ring

theorem eig22_ok (a b c d : ℝ) : ∃ s1 s2, lahqrEig22 a b c d = some (s1, s2) ∧ EigC a b c d s1 s2 := by
  unfold lahqrEig22
  simp only [pure]
  by_cases hs : |a| + |b| + |c| + |d| = 0
  · rw [if_pos hs]
    have h1 := abs_nonneg a; have h2 := abs_nonneg b; have h3 := abs_nonneg c; have h4 := abs_nonneg d
    have ha : a = 0 := abs_eq_zero.mp (by linarith)
    have hb : b = 0 := abs_eq_zero.mp (by linarith)
    have hd : d = 0 := abs_eq_zero.mp (by linarith)
    exact ⟨_, _, rfl, by simp [ha, hd], by simp [ha, hb]⟩
  · rw [if_neg hs]
    simp only [dv_ne hs, bind_s]
    refine ⟨_, _, rfl, ?_⟩
    have := eig_core (a := a) (b := b) (c := c) (d := d) (s := ((|a| + |b| + |c| + |d| : ℝ) : ℂ))
      (by exact_mod_cast hs)
    push_cast at this ⊢
    exact this

theorem abs1_nonneg (z : ℂ) : 0 ≤ abs1 z := add_nonneg (abs_nonneg _) (abs_nonneg _)

theorem abs1_eq_zero {z : ℂ} (h : abs1 z = 0) : z = 0 := by
  unfold abs1 at h
  have h1 := abs_nonneg z.re; have h2 := abs_nonneg z.im
  exact Complex.ext (abs_eq_zero.mp (by linarith)) (abs_eq_zero.mp (by linarith))

theorem eig22C_ok (a b c d : ℂ) : ∃ s1 s2, lahqrEig22C a b c d = some (s1, s2) ∧ EigC a b c d s1 s2 := by
  unfold lahqrEig22C
  simp only [pure]
  by_cases hs : abs1 a + abs1 b + abs1 c + abs1 d = 0
  · rw [if_pos hs]
    have h1 := abs1_nonneg a; have h2 := abs1_nonneg b; have h3 := abs1_nonneg c; have h4 := abs1_nonneg d
    have ha : a = 0 := abs1_eq_zero (by linarith)
    have hb : b = 0 := abs1_eq_zero (by linarith)
    have hd : d = 0 := abs1_eq_zero (by linarith)
    exact ⟨_, _, rfl, by simp [ha, hd], by simp [ha, hb]⟩
  · rw [if_neg hs]
    simp only [dvC_ne hs, bind_s]
    exact ⟨_, _, rfl, eig_core (by exact_mod_cast hs)⟩

/-! ### Schur form -/

/-- `[cs sn; -sn cs] [a b; c d] [cs -sn; sn cs] = [aa bb; cc dd]` with a rotation `(cs, sn)`. -/
structure SchurSim (a b c d : ℝ) (x : Schur) : Prop where
  unit : x.cs * x.cs + x.sn * x.sn = 1
  e00 : x.cs * (a * x.cs + b * x.sn) + x.sn * (c * x.cs + d * x.sn) = x.a
  e01 : x.cs * (b * x.cs - a * x.sn) + x.sn * (d * x.cs - c * x.sn) = x.b
  e10 : x.cs * (c * x.cs + d * x.sn) - x.sn * (a * x.cs + b * x.sn) = x.c
  e11 : x.cs * (d * x.cs - c * x.sn) - x.sn * (b * x.cs - a * x.sn) = x.d

/-- Quarter of the discriminant of the characteristic polynomial. -/
noncomputable def disc (a b c d : ℝ) : ℝ := ((a - d) / 2) * ((a - d) / 2) + b * c

structure SchurOK (a b c d : ℝ) (x : Schur) : Prop where
  sim : SchurSim a b c d x
  std : x.c = 0 ∨ (x.a = x.d ∧ x.b * x.c ≤ 0)
  strict : disc a b c d ≠ 0 → x.c = 0 ∨ (x.a = x.d ∧ x.b * x.c < 0)

theorem sgn_ne_mul {b c : ℝ} (hb : b ≠ 0) (hc : c ≠ 0) (h : sgn b ≠ sgn c) : b * c < 0 := by
  rcases lt_or_gt_of_ne hb with h1 | h1 <;> rcases lt_or_gt_of_ne hc with h2 | h2
  · rw [sgn_neg h1, sgn_neg h2] at h; exact absurd rfl h
  · exact mul_neg_of_neg_of_pos h1 h2
  · exact mul_neg_of_pos_of_neg h1 h2
  · rw [sgn_pos h1, sgn_pos h2] at h; exact absurd rfl h

theorem sgn_eq_mul {b c : ℝ} (hb : b ≠ 0) (hc : c ≠ 0) (h : sgn b = sgn c) : 0 < b * c := by
  rcases lt_or_gt_of_ne hb with h1 | h1 <;> rcases lt_or_gt_of_ne hc with h2 | h2
  · exact mul_pos_of_neg_of_neg h1 h2
  · rw [sgn_neg h1, sgn_pos h2] at h; norm_num at h
  · rw [sgn_pos h1, sgn_neg h2] at h; norm_num at h
  · exact mul_pos h1 h2

theorem bc_eq (b c : ℝ) : max |b| |c| * (min |b| |c| * (sgn b * sgn c)) = b * c := by
  rw [← mul_assoc, max_mul_min]
  calc |b| * |c| * (sgn b * sgn c) = |b| * sgn b * (|c| * sgn c) := by ring
    _ = b * c := by rw [abs_mul_sgn, abs_mul_sgn]

theorem schurSep_ok {a b c d p scale z : ℝ} (hp : p = 1 / 2 * (a - d)) (hp0 : p ≠ 0) (hc : c ≠ 0)
    (hs : 0 < scale) (hz : z = p / scale * p + max |b| |c| / scale * (min |b| |c| * (sgn b * sgn c)))
    (hz0 : 0 < z) :
    ∃ x, schurSep b c d p (max |b| |c|) (min |b| |c| * (sgn b * sgn c)) scale z = some x ∧
      SchurSim a b c d x ∧ x.c = 0 := by
  have bc := bc_eq b c
  generalize max |b| |c| = M at *
  generalize min |b| |c| * (sgn b * sgn c) = N at *
  unfold schurSep
  simp only [pure, sq_nn hs.le, sq_nn hz0.le, bind_s]
  have hzs : scale * z = p * p + b * c := by
    rw [hz, ← bc]; field_simp
  have hr : Real.sqrt scale * Real.sqrt z = Real.sqrt (p * p + b * c) := by
    rw [← Real.sqrt_mul hs.le, hzs]
  have hD : 0 < p * p + b * c := by rw [← hzs]; positivity
  rw [mul_assoc (sgn p), hr]
  have hrr : Real.sqrt (p * p + b * c) * Real.sqrt (p * p + b * c) = p * p + b * c := Real.mul_self_sqrt hD.le
  have hr0 : 0 ≤ Real.sqrt (p * p + b * c) := Real.sqrt_nonneg _
  generalize Real.sqrt (p * p + b * c) = r at *
  have hZ2 : (p + sgn p * r) * (p + sgn p * r) = 2 * p * (p + sgn p * r) + b * c := by
    linear_combination sgn p * sgn p * hrr + (p * p + b * c) * sgn_sq hp0
  have hZ0 : p + sgn p * r ≠ 0 := by
    rcases lt_or_gt_of_ne hp0 with h | h
    · rw [sgn_neg h]; intro h'; linarith
    · rw [sgn_pos h]; intro h'; linarith
  generalize p + sgn p * r = Z at *
  have ht : 0 < c * c + Z * Z := by
    nlinarith [mul_self_pos.mpr hc, mul_self_nonneg Z]
  have htt : lapy2R c Z * lapy2R c Z = c * c + Z * Z := Real.mul_self_sqrt ht.le
  have ht0 : lapy2R c Z ≠ 0 := (Real.sqrt_pos.mpr ht).ne'
  generalize lapy2R c Z = t at *
  simp only [dv_ne hZ0, dv_ne ht0, bind_s]
  have hdd : d - M / Z * N = a - Z := by
    have : M / Z * N = b * c / Z := by rw [← bc]; ring
    rw [this]; field_simp; rw [hp] at hZ2; linear_combination hZ2
  have hi : ∃ i, i = t⁻¹ := ⟨_, rfl⟩
  obtain ⟨i, hi⟩ := hi
  have hii : i * i * (c * c + Z * Z) = 1 := by rw [← htt, hi]; field_simp
  rw [hp] at hZ2
  refine ⟨_, rfl, ?_, rfl⟩
  rw [hdd]
  simp only [div_eq_mul_inv, ← hi]
  refine ⟨?_, ?_, ?_, ?_, ?_⟩
  · linear_combination hii
  · linear_combination (d + Z) * hii - i * i * Z * hZ2
  · linear_combination (b - c) * hii + i * i * c * hZ2
  · linear_combination i * i * c * hZ2
  · linear_combination (a - Z) * hii + i * i * Z * hZ2

theorem rescale_scale {pr : SchurPar} (hm : 0 < pr.safmn2) (k : ℕ) : ∀ x : ℝ × ℝ,
    ∃ q : ℝ, 0 < q ∧ schurRescale pr k x = (q * x.1, q * x.2) := by
  induction k with
  | zero => intro x; exact ⟨1, one_pos, by simp [schurRescale]⟩
  | succ k ih =>
    rintro ⟨s, t⟩
    unfold schurRescale
    simp only
    split
    · obtain ⟨q, hq, e⟩ := ih (s * pr.safmn2, t * pr.safmn2)
      exact ⟨q * pr.safmn2, by positivity, by rw [e]; simp only [Prod.mk.injEq]; constructor <;> ring⟩
    · split
      · obtain ⟨q, hq, e⟩ := ih (s * (1 / pr.safmn2), t * (1 / pr.safmn2))
        exact ⟨q * (1 / pr.safmn2), by positivity, by rw [e]; simp only [Prod.mk.injEq]; constructor <;> ring⟩
      · exact ⟨1, one_pos, by simp⟩

theorem schurRotate_sim {a b c d cs sn : ℝ} (h : cs * cs + sn * sn = 1) :
    SchurSim a b c d (schurRotate a b c d cs sn) := by
  unfold schurRotate
  exact ⟨h, by ring, by ring, by ring, by ring⟩

theorem schurReal_ok {a b c d : ℝ} {x : Schur} {t : ℝ} (h : SchurSim a b c d x) (h1 : x.a = t) (h2 : x.d = t) :
    ∃ y, schurReal x t = some y ∧ SchurOK a b c d y := by
  unfold schurReal
  simp only [pure]
  have hdisc : disc a b c d = x.b * x.c := by
    obtain ⟨u, e0, e1, e2, e3⟩ := h
    have hdet : a * d - b * c = x.a * x.d - x.b * x.c := by
      rw [← e0, ← e1, ← e2, ← e3]
      linear_combination (-(a * d) + b * c) * (x.cs * x.cs + x.sn * x.sn + 1) * u
    have htr : a + d = x.a + x.d := by
      rw [← e0, ← e3]; linear_combination -(a + d) * u
    unfold disc
    rw [h1, h2] at hdet htr
    linear_combination (a + d + 2 * t) * htr / 4 - hdet
  by_cases hc : x.c ≠ 0 ∧ x.b ≠ 0 ∧ sgn x.b = sgn x.c
  · rw [if_pos hc]
    obtain ⟨c0, b0, sg⟩ := hc
    have hpos := sgn_eq_mul b0 c0 sg
    have hsum : |x.b + x.c| = |x.b| + |x.c| := by
      rcases lt_or_gt_of_ne b0 with hb | hb
      · have hc : x.c < 0 := by
          by_contra hc; nlinarith [not_lt.mp hc]
        rw [abs_of_neg hb, abs_of_neg hc, abs_of_neg (by linarith)]; ring
      · have hc : 0 < x.c := by
          by_contra hc; nlinarith [not_lt.mp hc]
        rw [abs_of_pos hb, abs_of_pos hc, abs_of_pos (by linarith)]
    have hb' := abs_pos.mpr b0
    have hc' := abs_pos.mpr c0
    have n1 : Real.sqrt |x.b + x.c| ≠ 0 := by
      apply (Real.sqrt_pos.mpr _).ne'; rw [hsum]; positivity
    simp only [sq_nn (abs_nonneg _), bind_s, dv_ne n1]
    have q1 := Real.mul_self_sqrt (abs_nonneg x.b)
    have q2 := Real.mul_self_sqrt (abs_nonneg x.c)
    have q3 := Real.mul_self_sqrt (abs_nonneg (x.b + x.c))
    rw [hsum] at q3
    generalize Real.sqrt |x.b| = u at *
    generalize Real.sqrt |x.c| = v at *
    obtain ⟨i, hi⟩ : ∃ i, i = 1 / Real.sqrt |x.b + x.c| := ⟨_, rfl⟩
    rw [← hi]
    have hii : i * i * (u * u + v * v) = 1 := by
      rw [q1, q2, ← q3, ← hsum, hi]; field_simp
    -- sign
    obtain ⟨g, hg, hgb, hgc, hp⟩ : ∃ g : ℝ, g * g = 1 ∧ x.b = g * (u * u) ∧ x.c = g * (v * v) ∧
        (if x.c > 0 then u * v else -u * v) = g * (u * v) := by
      rcases lt_or_gt_of_ne c0 with hcn | hcp
      · have hbn : x.b < 0 := by by_contra hbn; nlinarith [not_lt.mp hbn]
        refine ⟨-1, by norm_num, ?_, ?_, ?_⟩
        · rw [q1, abs_of_neg hbn]; ring
        · rw [q2, abs_of_neg hcn]; ring
        · rw [if_neg (not_lt.mpr hcn.le)]; ring
      · have hbp : 0 < x.b := by by_contra hbn; nlinarith [not_lt.mp hbn]
        refine ⟨1, by norm_num, ?_, ?_, ?_⟩
        · rw [q1, abs_of_pos hbp]; ring
        · rw [q2, abs_of_pos hcp]; ring
        · rw [if_pos hcp]; ring
    rw [hp]
    refine ⟨_, rfl, ?_, Or.inl rfl, fun _ => Or.inl rfl⟩
    obtain ⟨un, e0, e1, e2, e3⟩ := h
    rw [h1] at e0; rw [h2] at e3
    rw [hgb] at e1
    rw [hgc] at e2
    rw [hgb, hgc]
    generalize x.cs = cs at *
    generalize x.sn = sn at *
    have f0 : ∀ y z : ℝ, True := fun _ _ => trivial
    refine ⟨?_, ?_, ?_, ?_, ?_⟩ <;> simp only
    · linear_combination (cs * cs + sn * sn) * hii + un
    · linear_combination i*i*u*u*e0 + i*i*u*v*e1 + i*i*u*v*e2 + i*i*v*v*e3 + (t + g*u*v) * hii
    · linear_combination i*i*u*u*e1 - i*i*u*v*e0 + i*i*u*v*e3 - i*i*v*v*e2 + g*(u*u - v*v) * hii
    · linear_combination i*i*u*u*e2 + i*i*u*v*e3 - i*i*u*v*e0 - i*i*v*v*e1
    · linear_combination i*i*u*u*e3 - i*i*u*v*e2 - i*i*u*v*e1 + i*i*v*v*e0 + (t - g*u*v) * hii
  · rw [if_neg hc]
    refine ⟨_, rfl, h, ?_, ?_⟩
    · by_cases c0 : x.c = 0
      · exact Or.inl c0
      · refine Or.inr ⟨by rw [h1, h2], ?_⟩
        by_cases b0 : x.b = 0
        · rw [b0, zero_mul]
        · exact (sgn_ne_mul b0 c0 (fun hs => hc ⟨c0, b0, hs⟩)).le
    · intro hd
      rw [hdisc] at hd
      have b0 := left_ne_zero_of_mul hd
      have c0 := right_ne_zero_of_mul hd
      exact Or.inr ⟨by rw [h1, h2], sgn_ne_mul b0 c0 (fun hs => hc ⟨c0, b0, hs⟩)⟩

/-- The rotation of the second branch. -/
theorem near_rot {q s0 t0 : ℝ} (hq : 0 < q) (hs : s0 ≠ 0) :
    ∃ tau cs sn, lapy2R (q * s0) (q * t0) = tau ∧ tau ≠ 0 ∧ 0 ≤ 1 / 2 * (1 + |q * s0| / tau) ∧
      Real.sqrt (1 / 2 * (1 + |q * s0| / tau)) = cs ∧ tau * cs ≠ 0 ∧
      -(1 / 2 * (q * t0) / (tau * cs)) * sgn (q * s0) = sn ∧
      cs * cs + sn * sn = 1 ∧ (cs * cs - sn * sn) * t0 + 2 * cs * sn * s0 = 0 ∧
      0 < s0 * ((cs * cs - sn * sn) * s0 - 2 * cs * sn * t0) := by
  have hS : 0 < (q * s0) * (q * s0) + (q * t0) * (q * t0) := by
    nlinarith [mul_self_pos.mpr (mul_ne_zero hq.ne' hs), mul_self_nonneg (q * t0)]
  have tt : lapy2R (q * s0) (q * t0) * lapy2R (q * s0) (q * t0) = (q * s0) * (q * s0) + (q * t0) * (q * t0) :=
    Real.mul_self_sqrt hS.le
  have tp : 0 < lapy2R (q * s0) (q * t0) := Real.sqrt_pos.mpr hS
  generalize lapy2R (q * s0) (q * t0) = tau at *
  have sg := sgn_sq (mul_ne_zero hq.ne' hs)
  have sa : |q * s0| * sgn (q * s0) = q * s0 := abs_mul_sgn _
  have aa : |q * s0| * |q * s0| = q * s0 * (q * s0) := abs_mul_abs_self _
  have ap : 0 < |q * s0| := abs_pos.mpr (mul_ne_zero hq.ne' hs)
  generalize |q * s0| = S at *
  generalize sgn (q * s0) = g at *
  have h0 : 0 < 1 / 2 * (1 + S / tau) := by positivity
  have cc := Real.mul_self_sqrt h0.le
  have cp := Real.sqrt_pos.mpr h0
  generalize hcs : Real.sqrt (1 / 2 * (1 + S / tau)) = cs at *
  have n1 : tau * cs ≠ 0 := by positivity
  refine ⟨tau, cs, _, rfl, tp.ne', h0.le, hcs, n1, rfl, ?_, ?_, ?_⟩
  · have e : -(1 / 2 * (q * t0) / (tau * cs)) * g * (-(1 / 2 * (q * t0) / (tau * cs)) * g) =
        (1 / 4 * (q * t0 * (q * t0)) / (tau * tau * (cs * cs))) * (g * g) := by field_simp; ring
    rw [e, sg, mul_one, cc]
    have e2 : q * t0 * (q * t0) = (tau - S) * (tau + S) := by linear_combination -tt + aa
    rw [e2]
    field_simp
    ring
  · have e1 : cs * (-(1 / 2 * (q * t0) / (tau * cs)) * g) = -(1 / 2 * (q * t0) / tau) * g := by field_simp
    have e : -(1 / 2 * (q * t0) / (tau * cs)) * g * (-(1 / 2 * (q * t0) / (tau * cs)) * g) =
        (1 / 4 * (q * t0 * (q * t0)) / (tau * tau * (cs * cs))) * (g * g) := by field_simp; ring
    have e2 : q * t0 * (q * t0) = (tau - S) * (tau + S) := by linear_combination -tt + aa
    have e3 : 1 / 4 * (q * t0 * (q * t0)) / (tau * tau * (cs * cs)) = 1 / 2 * (1 - S / tau) := by
      rw [e2, cc]; field_simp; ring
    rw [e, sg, mul_one, e3, cc, mul_assoc 2, e1]
    have : S * 1 = q * s0 * g := by rw [← sg, ← mul_assoc, sa]
    field_simp
    linear_combination 2 * t0 * this
  · have e1 : cs * (-(1 / 2 * (q * t0) / (tau * cs)) * g) = -(1 / 2 * (q * t0) / tau) * g := by field_simp
    have e : -(1 / 2 * (q * t0) / (tau * cs)) * g * (-(1 / 2 * (q * t0) / (tau * cs)) * g) =
        (1 / 4 * (q * t0 * (q * t0)) / (tau * tau * (cs * cs))) * (g * g) := by field_simp; ring
    have e2 : q * t0 * (q * t0) = (tau - S) * (tau + S) := by linear_combination -tt + aa
    have e3 : 1 / 4 * (q * t0 * (q * t0)) / (tau * tau * (cs * cs)) = 1 / 2 * (1 - S / tau) := by
      rw [e2, cc]; field_simp; ring
    rw [e, sg, mul_one, e3, cc, mul_assoc 2, e1]
    have h4 : S = q * s0 * g := by rw [← mul_one S, ← sg, ← mul_assoc, sa]
    have h5 : s0 * g = S / q := by rw [h4]; field_simp
    have h6 : s0 * ((1 / 2 * (1 + S / tau) - 1 / 2 * (1 - S / tau)) * s0 - 2 * (-(1 / 2 * (q * t0) / tau) * g) * t0) =
        S / tau * (s0 * s0) + q * (t0 * t0) * (s0 * g) / tau := by field_simp; ring
    rw [h6, h5]
    have := mul_self_pos.mpr hs
    have := mul_self_nonneg t0
    positivity

theorem schurNear_ok {pr : SchurPar} (hm : 0 < pr.safmn2) {a b c d : ℝ} (hs : b + c ≠ 0) :
    ∃ x, schurNear pr a b c d = some x ∧ SchurOK a b c d x := by
  obtain ⟨q, hq, e⟩ := rescale_scale (pr := pr) hm 20 (b + c, a - d)
  unfold schurNear
  simp only [e]
  obtain ⟨tau, cs, sn, e1, n1, h0, e2, n2, e3, un, eq, -⟩ := near_rot (t0 := a - d) hq hs
  simp only [e1, dv_ne n1, bind_s, sq_nn h0, e2, dv_ne n2, e3]
  have sim := schurRotate_sim (a := a) (b := b) (c := c) (d := d) un
  have had : (schurRotate a b c d cs sn).a = (schurRotate a b c d cs sn).d := by
    simp only [schurRotate]; linear_combination eq
  have h1 : 1 / 2 * ((schurRotate a b c d cs sn).a + (schurRotate a b c d cs sn).d) = (schurRotate a b c d cs sn).a := by
    rw [← had]; ring
  refine schurReal_ok ?_ rfl rfl
  rw [h1]
  obtain ⟨u, a0, a1, a2, a3⟩ := sim
  exact ⟨u, a0, a1, a2, by rw [a3, had]⟩

theorem schur22_ok {pr : SchurPar} (he : 0 < pr.eps) (hm : 0 < pr.safmn2) {a b c d : ℝ}
    (h1 : a ≠ d ∨ b * c ≤ 0) (h2 : a = d ∨ c = 0 ∨ b + c ≠ 0) :
    ∃ x, schur22 pr a b c d = some x ∧ SchurOK a b c d x := by
  unfold schur22
  simp only [pure]
  by_cases hc : c = 0
  · rw [if_pos hc]
    subst hc
    exact ⟨_, rfl, ⟨by ring, by ring, by ring, by ring, by ring⟩, Or.inl rfl, fun _ => Or.inl rfl⟩
  · rw [if_neg hc]
    by_cases hb : b = 0
    · rw [if_pos hb]
      subst hb
      exact ⟨_, rfl, ⟨by ring, by ring, by ring, by ring, by ring⟩, Or.inl rfl, fun _ => Or.inl rfl⟩
    · rw [if_neg hb]
      by_cases had : a - d = 0 ∧ sgn b ≠ sgn c
      · rw [if_pos had]
        have hn := sgn_ne_mul hb hc had.2
        have hd : a = d := by linarith [had.1]
        exact ⟨_, rfl, ⟨by ring, by ring, by ring, by ring, by ring⟩, Or.inr ⟨hd, hn.le⟩,
          fun _ => Or.inr ⟨hd, hn⟩⟩
      · rw [if_neg had]
        have hne : a ≠ d := by
          intro hd
          have hbc := h1.resolve_left (fun h => h hd)
          apply had
          refine ⟨by rw [hd]; ring, fun hs => ?_⟩
          exact absurd (sgn_eq_mul hb hc hs) (not_lt.mpr hbc)
        have hsum : b + c ≠ 0 := (h2.resolve_left hne).resolve_left hc
        have hp0 : 1 / 2 * (a - d) ≠ 0 := by
          intro h; apply hne; linarith
        have hsc : 0 < max |1 / 2 * (a - d)| (max |b| |c|) := lt_max_of_lt_left (abs_pos.mpr hp0)
        simp only [dv_ne hsc.ne', bind_s]
        split
        · rename_i hz
          obtain ⟨x, e, sim, h0⟩ := schurSep_ok (a := a) (b := b) (c := c) (d := d) rfl hp0 hc hsc rfl
            (lt_of_lt_of_le (by positivity) hz)
          exact ⟨x, e, sim, Or.inl h0, fun _ => Or.inl h0⟩
        · exact schurNear_ok hm hsum

/-- The eigenvalues returned by `lahqr_schur22`. -/
theorem lahqrSchur22_ok {pr : SchurPar} {a b c d : ℝ} {x : Schur} (e : schur22 pr a b c d = some x)
    (hx : SchurOK a b c d x) :
    ∃ s1 s2, lahqrSchur22 pr a b c d = some (x, s1, s2) ∧ EigC a b c d s1 s2 := by
  obtain ⟨⟨u, e0, e1, e2, e3⟩, std, -⟩ := hx
  have hdet : a * d - b * c = x.a * x.d - x.b * x.c := by
    rw [← e0, ← e1, ← e2, ← e3]
    linear_combination (-(a * d) + b * c) * (x.cs * x.cs + x.sn * x.sn + 1) * u
  have htr : a + d = x.a + x.d := by
    rw [← e0, ← e3]; linear_combination -(a + d) * u
  have hdet' : (a : ℂ) * d - b * c = x.a * x.d - x.b * x.c := by exact_mod_cast hdet
  have htr' : (a : ℂ) + d = x.a + x.d := by exact_mod_cast htr
  unfold lahqrSchur22
  simp only [e, bind_s, pure]
  by_cases hc : x.c = 0
  · rw [if_neg (by simpa using hc)]
    refine ⟨_, _, rfl, htr'.symm, ?_⟩
    rw [hdet', hc]; simp
  · rw [if_pos hc]
    obtain ⟨had, hbc⟩ := std.resolve_left hc
    simp only [sq_nn (abs_nonneg _), bind_s]
    refine ⟨_, _, rfl, ?_, ?_⟩
    · rw [htr']; apply Complex.ext <;> simp
    · rw [hdet']
      have hq : (Real.sqrt |x.b| * Real.sqrt |x.c|) * (Real.sqrt |x.b| * Real.sqrt |x.c|) = -(x.b * x.c) := by
        calc _ = (Real.sqrt |x.b| * Real.sqrt |x.b|) * (Real.sqrt |x.c| * Real.sqrt |x.c|) := by ring
          _ = |x.b| * |x.c| := by rw [Real.mul_self_sqrt (abs_nonneg _), Real.mul_self_sqrt (abs_nonneg _)]
          _ = -(x.b * x.c) := by rw [← abs_mul, abs_of_nonpos hbc]
      rw [had]
      apply Complex.ext
      · simp; linear_combination hq
      · simp; ring

/-- Equal diagonal entries and off-diagonal entries of the same sign: division by zero. -/
theorem schur22_eq_diag {pr : SchurPar} {a b c : ℝ} (hbc : 0 < b * c)
    (hz : 4 * pr.eps ≤ min |b| |c|) : schur22 pr a b c a = none := by
  have hb := left_ne_zero_of_mul hbc.ne'
  have hc := right_ne_zero_of_mul hbc.ne'
  have sg : sgn b * sgn c = 1 := by rw [← sgn_mul]; exact sgn_pos hbc
  have sge : sgn b = sgn c := by
    rcases lt_or_gt_of_ne hb with h | h
    · have : c < 0 := by by_contra h'; nlinarith [not_lt.mp h']
      rw [sgn_neg h, sgn_neg this]
    · have : 0 < c := by by_contra h'; nlinarith [not_lt.mp h']
      rw [sgn_pos h, sgn_pos this]
  unfold schur22
  simp only [pure, sub_self, mul_zero, abs_zero]
  rw [if_neg hc, if_neg hb, if_neg (by rintro ⟨-, h⟩; exact h sge)]
  have hM : 0 < max |b| |c| := lt_max_of_lt_left (abs_pos.mpr hb)
  have hm : 0 < min |b| |c| := lt_min (abs_pos.mpr hb) (abs_pos.mpr hc)
  rw [max_eq_right hM.le]
  simp only [dv_ne hM.ne', bind_s, sg, mul_one]
  have e : 0 + max |b| |c| / max |b| |c| * min |b| |c| = min |b| |c| := by
    rw [div_self hM.ne']; ring
  rw [e, if_pos hz]
  unfold schurSep
  simp only [sq_nn hM.le, sq_nn hm.le, bind_s, sgn_zero, zero_mul, add_zero, dv_zero]
  rfl

/-- In these cases the discriminant is not positive and the second branch is taken. -/
theorem schur22_near {pr : SchurPar} (he : 0 < pr.eps) {a b c d : ℝ} (hb : b ≠ 0) (hc : c ≠ 0) (had : a ≠ d)
    (hz : disc a b c d ≤ 0) : schur22 pr a b c d = schurNear pr a b c d := by
  unfold schur22
  simp only [pure]
  have hp0 : 1 / 2 * (a - d) ≠ 0 := by
    intro h; apply had; linarith
  have hsc : 0 < max |1 / 2 * (a - d)| (max |b| |c|) := lt_max_of_lt_left (abs_pos.mpr hp0)
  rw [if_neg hc, if_neg hb, if_neg (by rintro ⟨h, -⟩; apply had; linarith)]
  simp only [dv_ne hsc.ne', bind_s]
  rw [if_neg]
  rw [not_le]
  have bc := bc_eq b c
  have : 1 / 2 * (a - d) / max |1 / 2 * (a - d)| (max |b| |c|) * (1 / 2 * (a - d)) +
      max |b| |c| / max |1 / 2 * (a - d)| (max |b| |c|) * (min |b| |c| * (sgn b * sgn c)) =
      disc a b c d / max |1 / 2 * (a - d)| (max |b| |c|) := by
    unfold disc
    rw [← bc]; ring
  rw [this]
  calc disc a b c d / max |1 / 2 * (a - d)| (max |b| |c|) ≤ 0 := div_nonpos_of_nonpos_of_nonneg hz hsc.le
    _ < 4 * pr.eps := by positivity

/-- Opposite off-diagonal entries and distinct diagonal entries: `(cs, sn)` is not a rotation. -/
theorem schur22_skew {pr : SchurPar} (hm : 0 < pr.safmn2) {a b d : ℝ} (hb : b ≠ 0) (had : a ≠ d)
    (he : 0 < pr.eps) (hz : |a - d| ≤ 2 * |b|) :
    ∃ x, schur22 pr a b (-b) d = some x ∧ x.cs * x.cs + x.sn * x.sn = 1 / 2 := by
  have hdisc : disc a b (-b) d ≤ 0 := by
    unfold disc
    have h1 : (a - d) / 2 * ((a - d) / 2) = |a - d| * |a - d| / 4 := by rw [abs_mul_abs_self]; ring
    have h2 : b * -b = -(|b| * |b|) := by rw [abs_mul_abs_self]; ring
    rw [h1, h2]
    have := mul_self_le_mul_self (abs_nonneg (a - d)) hz
    linarith
  rw [schur22_near he hb (neg_ne_zero.mpr hb) had hdisc]
  obtain ⟨q, hq, e⟩ := rescale_scale (pr := pr) hm 20 (b + -b, a - d)
  simp only [add_neg_cancel, mul_zero] at e
  unfold schurNear
  simp only [add_neg_cancel, e, abs_zero, sgn_zero]
  have hqd : q * (a - d) ≠ 0 := mul_ne_zero hq.ne' (sub_ne_zero.mpr had)
  have ht : lapy2R 0 (q * (a - d)) ≠ 0 := by
    unfold lapy2R
    apply (Real.sqrt_pos.mpr _).ne'
    have := mul_self_pos.mpr hqd; linarith
  generalize lapy2R 0 (q * (a - d)) = tau at *
  have h0 : (0:ℝ) ≤ 1 / 2 * (1 + 0 / tau) := by rw [zero_div]; norm_num
  have hcs : Real.sqrt (1 / 2 * (1 + 0 / tau)) * Real.sqrt (1 / 2 * (1 + 0 / tau)) = 1 / 2 := by
    rw [Real.mul_self_sqrt h0, zero_div]; norm_num
  simp only [dv_ne ht, bind_s, sq_nn h0]
  generalize Real.sqrt (1 / 2 * (1 + 0 / tau)) = cs at *
  have hc0 : cs ≠ 0 := by rintro rfl; norm_num at hcs
  simp only [dv_ne (mul_ne_zero ht hc0), bind_s]
  unfold schurReal
  simp only [pure]
  rw [if_neg]
  · exact ⟨_, rfl, by simp only [schurRotate]; linear_combination hcs⟩
  · simp only [schurRotate, mul_zero, add_zero, neg_mul, neg_zero, zero_add]
    rintro ⟨-, h2, h3⟩
    have hbb : b * cs * cs = b * (1 / 2) := by rw [mul_assoc, hcs]
    rw [hbb] at h3
    have h5 : sgn (-(b * (1 / 2))) = sgn (b * (1 / 2)) := by
      rw [h3]
    rcases lt_or_gt_of_ne hb with h | h
    · rw [sgn_pos (by linarith), sgn_neg (by linarith)] at h5; norm_num at h5
    · rw [sgn_neg (by linarith), sgn_pos (by linarith)] at h5; norm_num at h5

/-- A defective matrix with `|b| < |c|`: the result is lower, not upper, triangular. -/
theorem schur22_defective {pr : SchurPar} (hm : 0 < pr.safmn2) {a b c d : ℝ} (hb : b ≠ 0)
    (he : 0 < pr.eps) (hz : disc a b c d = 0) (hbc : |b| < |c|) :
    ∃ x, schur22 pr a b c d = some x ∧ x.b = 0 ∧ x.c ≠ 0 := by
  have hc : c ≠ 0 := by rintro rfl; rw [abs_zero] at hbc; exact absurd hbc (not_lt.mpr (abs_nonneg _))
  have hp : b * c < 0 := by
    have h1 : b * c ≤ 0 := by
      unfold disc at hz
      nlinarith [mul_self_nonneg ((a - d) / 2)]
    exact lt_of_le_of_ne h1 (mul_ne_zero hb hc)
  have had : a ≠ d := by
    rintro rfl
    unfold disc at hz
    rw [sub_self] at hz
    have : b * c = 0 := by linear_combination hz
    exact mul_ne_zero hb hc this
  have hs : b + c ≠ 0 := by
    intro h
    have : b = -c := by linarith
    rw [this, abs_neg] at hbc; exact lt_irrefl _ hbc
  rw [schur22_near he hb hc had hz.le]
  obtain ⟨q, hq, e⟩ := rescale_scale (pr := pr) hm 20 (b + c, a - d)
  unfold schurNear
  simp only [e]
  obtain ⟨tau, cs, sn, e1, n1, h0, e2, n2, e3, un, eq, pos⟩ := near_rot (t0 := a - d) hq hs
  simp only [e1, dv_ne n1, bind_s, sq_nn h0, e2, dv_ne n2, e3]
  have sum : 0 < (b + c) * ((schurRotate a b c d cs sn).b + (schurRotate a b c d cs sn).c) := by
    convert pos using 1
    simp only [schurRotate]; ring
  have dif : (schurRotate a b c d cs sn).b - (schurRotate a b c d cs sn).c = b - c := by
    simp only [schurRotate]; linear_combination (b - c) * un
  have prod : (schurRotate a b c d cs sn).b * (schurRotate a b c d cs sn).c = 0 := by
    have had' : (schurRotate a b c d cs sn).a = (schurRotate a b c d cs sn).d := by
      simp only [schurRotate]; linear_combination eq
    obtain ⟨-, f0, f1, f2, f3⟩ := schurRotate_sim (a := a) (b := b) (c := c) (d := d) un
    simp only [show (schurRotate a b c d cs sn).cs = cs from rfl,
      show (schurRotate a b c d cs sn).sn = sn from rfl] at f0 f1 f2 f3
    have hdet : a * d - b * c = (schurRotate a b c d cs sn).a * (schurRotate a b c d cs sn).d -
        (schurRotate a b c d cs sn).b * (schurRotate a b c d cs sn).c := by
      rw [← f0, ← f1, ← f2, ← f3]
      linear_combination (-(a * d) + b * c) * (cs * cs + sn * sn + 1) * un
    have htr : a + d = (schurRotate a b c d cs sn).a + (schurRotate a b c d cs sn).d := by
      rw [← f0, ← f3]; linear_combination -(a + d) * un
    rw [← had'] at hdet htr
    unfold disc at hz
    generalize (schurRotate a b c d cs sn).a = t at *
    linear_combination hz - (a + d + 2 * t) * htr / 4 + hdet
  have hc0 : (schurRotate a b c d cs sn).c ≠ 0 := by
    intro h
    rw [h, add_zero] at sum
    rw [h, sub_zero] at dif
    rw [dif] at sum
    have : (b + c) * (b - c) = |b| * |b| - |c| * |c| := by rw [abs_mul_abs_self, abs_mul_abs_self]; ring
    rw [this] at sum
    have := mul_self_lt_mul_self (abs_nonneg b) hbc
    linarith
  have hb0 := (mul_eq_zero.mp prod).resolve_right hc0
  unfold schurReal
  simp only [pure]
  rw [if_neg (by rintro ⟨-, h, -⟩; exact h hb0)]
  exact ⟨_, rfl, hb0, hc0⟩

end TLA.Kernel
