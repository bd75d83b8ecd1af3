import Verif.Proofs.KernelDiv

/-! Proofs about the symmetric 2 by 2 eigenproblem (`lae2`, `laev2`). -/

namespace TLA.Kernel

theorem laeRt_eq {x y : ℝ} (hx : 0 ≤ x) (hy : 0 ≤ y) : laeRt x y = some (Real.sqrt (x * x + y * y)) := by
  have aux : ∀ u v : ℝ, 0 < u → 0 ≤ v → u * Real.sqrt (1 + v / u * (v / u)) = Real.sqrt (u * u + v * v) := by
    intro u v hu hv
    have : u * u + v * v = u ^ 2 * (1 + v / u * (v / u)) := by field_simp
    rw [this, Real.sqrt_mul (by positivity), Real.sqrt_sq hu.le]
  unfold laeRt
  simp only [pure]
  by_cases h1 : x > y
  · have hx' : 0 < x := lt_of_le_of_lt hy h1
    have h0 : 0 ≤ 1 + y / x * (y / x) := by positivity
    simp only [if_pos h1, dv_ne hx'.ne', bind_s, sq_nn h0, aux x y hx' hy]
  · rw [if_neg h1]
    by_cases h2 : x < y
    · have hy' : 0 < y := lt_of_le_of_lt hx h2
      have h0 : 0 ≤ 1 + x / y * (x / y) := by positivity
      simp only [if_pos h2, dv_ne hy'.ne', bind_s, sq_nn h0, aux y x hy' hx]
      rw [add_comm]
    · have hxy : x = y := le_antisymm (not_lt.mp h1) (not_lt.mp h2)
      subst hxy
      have : x * x + x * x = x ^ 2 * 2 := by ring
      simp only [if_neg h2, sq_nn (show (0:ℝ) ≤ 2 by norm_num), bind_s, this]
      rw [Real.sqrt_mul (by positivity), Real.sqrt_sq hx]

/-- `rt` in `lae2`/`laev2`. -/
theorem rt_facts (a b c : ℝ) {rt : ℝ} (h : rt = Real.sqrt (|a - c| * |a - c| + |b + b| * |b + b|)) :
    0 ≤ rt ∧ rt * rt = (a - c) ^ 2 + 4 * b ^ 2 := by
  subst h
  refine ⟨Real.sqrt_nonneg _, ?_⟩
  rw [Real.mul_self_sqrt (by positivity), abs_mul_abs_self, abs_mul_abs_self]; ring

/-- What the two eigenvalues satisfy. -/
def EigPair (a b c s1 s2 : ℝ) : Prop := s1 + s2 = a + c ∧ s1 * s2 = a * c - b * b ∧ |s2| ≤ |s1|

theorem eig_neg {a b c rt : ℝ} (h0 : 0 ≤ rt) (h1 : rt * rt = (a - c) ^ 2 + 4 * b ^ 2) (hs : a + c < 0) :
    (1 / 2 * (a + c - rt)) ≠ 0 ∧
    EigPair a b c (1 / 2 * (a + c - rt)) ((a * c - b * b) / (1 / 2 * (a + c - rt))) := by
  have hn : 1 / 2 * (a + c - rt) < 0 := by linarith
  have e : (a * c - b * b) / (1 / 2 * (a + c - rt)) = 1 / 2 * (a + c + rt) := by
    rw [div_eq_iff hn.ne]; linear_combination 1/4 * h1
  refine ⟨hn.ne, ?_, ?_, ?_⟩
  · rw [e]; ring
  · rw [mul_comm]; exact div_mul_cancel₀ _ (by first | exact hn.ne | exact hn.ne')
  · rw [e, abs_of_neg hn, abs_le]; constructor <;> linarith

theorem eig_pos {a b c rt : ℝ} (h0 : 0 ≤ rt) (h1 : rt * rt = (a - c) ^ 2 + 4 * b ^ 2) (hs : 0 < a + c) :
    (1 / 2 * (a + c + rt)) ≠ 0 ∧
    EigPair a b c (1 / 2 * (a + c + rt)) ((a * c - b * b) / (1 / 2 * (a + c + rt))) := by
  have hn : 0 < 1 / 2 * (a + c + rt) := by linarith
  have e : (a * c - b * b) / (1 / 2 * (a + c + rt)) = 1 / 2 * (a + c - rt) := by
    rw [div_eq_iff hn.ne']; linear_combination 1/4 * h1
  refine ⟨hn.ne', ?_, ?_, ?_⟩
  · rw [e]; ring
  · rw [mul_comm]; exact div_mul_cancel₀ _ (by first | exact hn.ne | exact hn.ne')
  · rw [e, abs_of_pos hn, abs_le]; constructor <;> linarith

theorem acm_mul (a c s b : ℝ) (hs : s ≠ 0) :
    (if |a| > |c| then (a, c) else (c, a)).1 / s * (if |a| > |c| then (a, c) else (c, a)).2 - b / s * b
      = (a * c - b * b) / s := by
  split <;> field_simp

theorem laev2Vals_ok {a b c rt : ℝ} (h0 : 0 ≤ rt) (h1 : rt * rt = (a - c) ^ 2 + 4 * b ^ 2) :
    ∃ s1 s2 sg, laev2Vals a b c rt = some (s1, s2, sg) ∧ EigPair a b c s1 s2 ∧
      ((sg = -1 ∧ s1 = 1 / 2 * (a + c - rt) ∧ s2 = 1 / 2 * (a + c + rt)) ∨
       (sg = 1 ∧ s1 = 1 / 2 * (a + c + rt) ∧ s2 = 1 / 2 * (a + c - rt))) := by
  unfold laev2Vals
  simp only [pure]
  by_cases hn : a + c < 0
  · obtain ⟨e0, e1⟩ := eig_neg (a := a) (b := b) (c := c) h0 h1 hn
    have e2 : (a * c - b * b) / (1 / 2 * (a + c - rt)) = 1 / 2 * (a + c + rt) := by
      rw [div_eq_iff e0]; linear_combination 1/4 * h1
    simp only [if_pos hn, dv_ne e0, bind_s, acm_mul _ _ _ _ e0]
    exact ⟨_, _, _, rfl, e1, Or.inl ⟨rfl, rfl, e2⟩⟩
  · by_cases hp : 0 < a + c
    · obtain ⟨e0, e1⟩ := eig_pos (a := a) (b := b) (c := c) h0 h1 hp
      have e2 : (a * c - b * b) / (1 / 2 * (a + c + rt)) = 1 / 2 * (a + c - rt) := by
        rw [div_eq_iff e0]; linear_combination 1/4 * h1
      simp only [if_neg hn, gt_iff_lt, if_pos hp, dv_ne e0, bind_s]
      refine ⟨_, _, _, rfl, ?_, Or.inr ⟨rfl, rfl, ?_⟩⟩
      · have := acm_mul a c _ b e0
        simp only [gt_iff_lt] at this
        rw [this]; exact e1
      · have := acm_mul a c _ b e0
        simp only [gt_iff_lt] at this
        rw [this]; exact e2
    · have hz : a + c = 0 := le_antisymm (not_lt.mp hp) (not_lt.mp hn)
      rw [if_neg hn, if_neg hp]
      refine ⟨_, _, _, rfl, ⟨?_, ?_, ?_⟩, Or.inr ⟨rfl, by rw [hz]; ring, by rw [hz]; ring⟩⟩
      · rw [hz]; ring
      · have : c = -a := by linarith
        subst this; linear_combination -1/4 * h1
      · rw [neg_mul, abs_neg]

theorem lae2_ok (a b c : ℝ) : ∃ s1 s2, lae2 a b c = some (s1, s2) ∧ EigPair a b c s1 s2 := by
  obtain ⟨h0, h1⟩ := rt_facts a b c rfl
  obtain ⟨s1, s2, sg, e, ep, -⟩ := laev2Vals_ok (b := b) h0 h1
  refine ⟨s1, s2, ?_, ep⟩
  unfold lae2
  simp only [laeRt_eq (abs_nonneg _) (abs_nonneg _), bind_s]
  generalize Real.sqrt (|a - c| * |a - c| + |b + b| * |b + b|) = rt at *
  unfold laev2Vals at e
  simp only [pure] at e ⊢
  by_cases hn : a + c < 0
  · rw [if_pos hn] at e ⊢
    generalize 1 / 2 * (a + c - rt) = x at *
    revert e
    rcases dv _ x with _ | y <;> rcases dv b x with _ | z <;> simp
    rintro rfl rfl -; simp
  · by_cases hp : a + c > 0
    · rw [if_neg hn, if_pos hp] at e ⊢
      generalize 1 / 2 * (a + c + rt) = x at *
      revert e
      rcases dv _ x with _ | y <;> rcases dv b x with _ | z <;> simp
      rintro rfl rfl -; simp
    · rw [if_neg hn, if_neg hp] at e ⊢
      simp only [Option.some.injEq, Prod.mk.injEq] at e ⊢
      exact ⟨e.1, e.2.1⟩

theorem laev2Rot_ok (x tb : ℝ) :
    ∃ cs sn, laev2Rot x tb |tb| = some (cs, sn) ∧ cs * cs + sn * sn = 1 ∧ cs * x + sn * tb = 0 := by
  unfold laev2Rot
  simp only [pure]
  have unit : ∀ t : ℝ, Real.sqrt (1 + t * t) ≠ 0 ∧
      1 / Real.sqrt (1 + t * t) * (1 / Real.sqrt (1 + t * t)) * (1 + t * t) = 1 := by
    intro t
    have h : (0:ℝ) < 1 + t * t := by nlinarith [mul_self_nonneg t]
    have h2 := Real.sqrt_pos.mpr h
    refine ⟨h2.ne', ?_⟩
    rw [div_mul_div_comm, Real.mul_self_sqrt h.le]; field_simp
  by_cases h1 : |x| > |tb|
  · have hx : x ≠ 0 := by
      rintro rfl; rw [abs_zero] at h1; exact absurd h1 (not_lt.mpr (abs_nonneg _))
    have h0 : 0 ≤ 1 + -tb / x * (-tb / x) := by nlinarith [mul_self_nonneg (-tb / x)]
    obtain ⟨n1, n2⟩ := unit (-tb / x)
    simp only [if_pos h1, dv_ne hx, bind_s, sq_nn h0, dv_ne n1]
    refine ⟨_, _, rfl, ?_, ?_⟩
    · linear_combination n2
    · field_simp; ring
  · rw [if_neg h1]
    by_cases h2 : |tb| = 0
    · rw [if_pos h2]
      have h3 : |x| ≤ 0 := by rw [← h2]; exact not_lt.mp h1
      have hx : x = 0 := abs_nonpos_iff.mp h3
      exact ⟨_, _, rfl, by ring, by rw [hx]; ring⟩
    · have ht : tb ≠ 0 := by simpa using h2
      have h0 : 0 ≤ 1 + -x / tb * (-x / tb) := by nlinarith [mul_self_nonneg (-x / tb)]
      obtain ⟨n1, n2⟩ := unit (-x / tb)
      simp only [if_neg h2, dv_ne ht, bind_s, sq_nn h0, dv_ne n1]
      refine ⟨_, _, rfl, ?_, ?_⟩
      · linear_combination n2
      · field_simp; ring

/-- The rotation `(C, S)` diagonalises `[a b; b c]` to `diag(s1, s2)`. -/
def Diag2 (a b c s1 s2 C S : ℝ) : Prop :=
  C * C + S * S = 1 ∧ C * C * a + 2 * C * S * b + S * S * c = s1 ∧
  -C * S * a + (C * C - S * S) * b + C * S * c = 0 ∧ S * S * a - 2 * C * S * b + C * C * c = s2

theorem diag_core {a b c x cs sn l : ℝ} (hx : x * x = 2 * x * (a - c) + 4 * b * b)
    (hl : l = a - x / 2) (h1 : cs * cs + sn * sn = 1) (h2 : cs * x + sn * (b + b) = 0)
    (hd : x = 0 → b = 0 → a = c) : Diag2 a b c l (a + c - l) cs sn := by
  subst hl
  by_cases h0 : x = 0 ∧ b = 0
  · obtain ⟨rfl, rfl⟩ := h0
    have := hd rfl rfl; subst this
    refine ⟨h1, ?_, by ring, ?_⟩ <;> linear_combination a * h1
  · have hN : 0 < x * x + (b + b) * (b + b) := by
      rcases not_and_or.mp h0 with h | h
      · have := mul_self_pos.mpr h; nlinarith [mul_self_nonneg (b + b)]
      · have h' : b + b ≠ 0 := by intro h'; apply h; linarith
        have := mul_self_pos.mpr h'; nlinarith [mul_self_nonneg x]
    obtain ⟨k, hk1, hk2⟩ : ∃ k, cs = -k * (b + b) ∧ sn = k * x := by
      generalize hM : x * x + (b + b) * (b + b) = M at hN
      have hM0 : M ≠ 0 := hN.ne'
      refine ⟨(sn * x - cs * (b + b)) / M, ?_, ?_⟩
      · field_simp; linear_combination x * h2 - cs * hM
      · field_simp; linear_combination (b + b) * h2 - sn * hM
    have hk : k * k * (x * x + 4 * b * b) = 1 := by rw [hk1, hk2] at h1; linear_combination h1
    refine ⟨h1, ?_, ?_, ?_⟩
    · rw [hk1, hk2]
      linear_combination (a - x / 2) * hk + k * k * x * hx / 2
    · rw [hk1, hk2]
      linear_combination -(k * k * b) * hx
    · rw [hk1, hk2]
      linear_combination (c + x / 2) * hk - k * k * x * hx / 2

theorem diag_swap {a b c s1 s2 C S : ℝ} (h : Diag2 a b c s1 s2 C S) : Diag2 a b c s2 s1 (-S) C := by
  obtain ⟨h1, h2, h3, h4⟩ := h
  exact ⟨by linear_combination h1, by linear_combination h4, by linear_combination -h3,
    by linear_combination h2⟩

theorem laev2_ok (a b c : ℝ) : ∃ s1 s2 cs sn, laev2 a b c = some ((s1, s2), (cs, sn)) ∧
    EigPair a b c s1 s2 ∧ Diag2 a b c s1 s2 cs sn := by
  obtain ⟨h0, h1⟩ := rt_facts a b c rfl
  unfold laev2
  simp only [laeRt_eq (abs_nonneg _) (abs_nonneg _), bind_s]
  generalize Real.sqrt (|a - c| * |a - c| + |b + b| * |b + b|) = rt at *
  obtain ⟨s1, s2, sg, e, ep, hsg⟩ := laev2Vals_ok (b := b) h0 h1
  simp only [e, bind_s]
  obtain ⟨x, sg2, hx, hxs⟩ : ∃ x sg2, (if a - c ≥ 0 then (a - c + rt, 1) else (a - c - rt, -1) : ℝ × ℤ) = (x, sg2)
      ∧ ((sg2 = 1 ∧ 0 ≤ a - c ∧ x = a - c + rt) ∨ (sg2 = -1 ∧ a - c < 0 ∧ x = a - c - rt)) := by
    by_cases h : a - c ≥ 0
    · exact ⟨_, _, if_pos h, Or.inl ⟨rfl, h, rfl⟩⟩
    · exact ⟨_, _, if_neg h, Or.inr ⟨rfl, not_le.mp h, rfl⟩⟩
  simp only [hx]
  obtain ⟨cs, sn, er, u1, u2⟩ := laev2Rot_ok x (b + b)
  simp only [er, bind_s, pure]
  have hxx : x * x = 2 * x * (a - c) + 4 * b * b := by
    rcases hxs with ⟨-, -, rfl⟩ | ⟨-, -, rfl⟩ <;> linear_combination h1
  have hd : x = 0 → b = 0 → a = c := by
    rintro hx0 -
    rcases hxs with ⟨-, p, q⟩ | ⟨-, p, q⟩ <;> linarith
  have core := diag_core hxx rfl u1 u2 hd
  rcases hxs with ⟨rfl, p, q⟩ | ⟨rfl, p, q⟩ <;> rcases hsg with ⟨rfl, e1, e2⟩ | ⟨rfl, e1, e2⟩
  · rw [if_neg (by decide)]
    refine ⟨_, _, _, _, rfl, ep, ?_⟩
    convert core using 1 <;> rw [q] <;> linarith
  · rw [if_pos rfl]
    refine ⟨_, _, _, _, rfl, ep, diag_swap ?_⟩
    convert core using 1 <;> rw [q] <;> linarith
  · rw [if_pos rfl]
    refine ⟨_, _, _, _, rfl, ep, diag_swap ?_⟩
    convert core using 1 <;> rw [q] <;> linarith
  · rw [if_neg (by decide)]
    refine ⟨_, _, _, _, rfl, ep, ?_⟩
    convert core using 1 <;> rw [q] <;> linarith

end TLA.Kernel
