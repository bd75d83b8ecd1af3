import Verif.Proofs.KernelRot

/-! Proofs about modified rotations (`rotmg`). -/

set_option linter.unusedVariables false

namespace TLA.Kernel

section While
variable {σ : Type} {c : σ → Prop} {f : σ → σ} {s : σ}

theorem whileLoop_stop (h : ¬ c s) : whileLoop c f s = some s := by
  classical
  unfold whileLoop
  have hx : ∃ k, ¬ c (f^[k] s) := ⟨0, h⟩
  rw [dif_pos hx]
  have : Nat.find hx = 0 := (Nat.find_eq_zero hx).mpr h
  rw [this]; rfl

theorem whileLoop_step (h : c s) : whileLoop c f s = whileLoop c f (f s) := by
  classical
  unfold whileLoop
  by_cases hx : ∃ k, ¬ c (f^[k] s)
  · have hy : ∃ k, ¬ c (f^[k] (f s)) := by
      obtain ⟨k, hk⟩ := hx
      cases k with
      | zero => exact absurd h hk
      | succ k => exact ⟨k, by simpa [Function.iterate_succ] using hk⟩
    rw [dif_pos hx, dif_pos hy]
    have hxs : ∃ k, ¬ c (f^[k + 1] s) := by
      obtain ⟨k, hk⟩ := hy
      exact ⟨k, by simpa [Function.iterate_succ] using hk⟩
    have e : Nat.find hx = Nat.find hy + 1 := by
      rw [Nat.find_eq_iff]
      refine ⟨by rw [Function.iterate_succ]; exact Nat.find_spec hy, ?_⟩
      intro n hn
      cases n with
      | zero => simpa using h
      | succ n =>
        rw [Function.iterate_succ]
        exact Nat.find_min hy (by omega)
    rw [e, Function.iterate_succ]; rfl
  · have hy : ¬ ∃ k, ¬ c (f^[k] (f s)) := by
      rintro ⟨k, hk⟩
      exact hx ⟨k + 1, by simpa [Function.iterate_succ] using hk⟩
    rw [dif_neg hx, dif_neg hy]

end While

/-- The matrix `H` encoded by `flag` and `h` (documentation of `rotmg`). -/
def hmat (x : RotmSt) : ℝ × ℝ × ℝ × ℝ :=
  if x.flag = -1 then (x.h0, x.h1, x.h2, x.h3)
  else if x.flag = 0 then (1, x.h1, x.h2, 1)
  else if x.flag = 1 then (x.h0, -1, 1, x.h3)
  else (1, 0, 0, 1)

/-- `H (a, b) = (a', 0)` and `Hᵀ D' H = D`: `√D' H √D⁻¹` is a rotation eliminating `b`. -/
structure RotmOK (d1 d2 a b : ℝ) (x : RotmSt) : Prop where
  top : (hmat x).1 * a + (hmat x).2.2.1 * b = x.a
  bot : (hmat x).2.1 * a + (hmat x).2.2.2 * b = 0
  o00 : x.d1 * (hmat x).1 * (hmat x).1 + x.d2 * (hmat x).2.1 * (hmat x).2.1 = d1
  o01 : x.d1 * (hmat x).1 * (hmat x).2.2.1 + x.d2 * (hmat x).2.1 * (hmat x).2.2.2 = 0
  o11 : x.d1 * (hmat x).2.2.1 * (hmat x).2.2.1 + x.d2 * (hmat x).2.2.2 * (hmat x).2.2.2 = d2

/-- The weights before rescaling. -/
noncomputable def weights (d1 d2 a b : ℝ) : ℝ × ℝ :=
  if |d2 * b * b| < |d1 * a * a| then
    (d1 / (1 + d2 * b * b / (d1 * a * a)), d2 / (1 + d2 * b * b / (d1 * a * a)))
  else (d2 / (1 + d1 * a * a / (d2 * b * b)), d1 / (1 + d1 * a * a / (d2 * b * b)))

theorem rotmgBase_ok {d1 d2 a b : ℝ} (h1 : 0 < d1) (h2 : d2 * b ≠ 0)
    (hq : |d2 * b * b| < |d1 * a * a| ∨ 0 ≤ d2 * b * b) :
    ∃ x, rotmgBase d1 d2 a b = some x ∧ RotmOK d1 d2 a b x ∧ (x.flag = 0 ∨ x.flag = 1) ∧
      (x.d1, x.d2) = weights d1 d2 a b ∧ 0 < x.d1 ∧ x.d2 ≠ 0 := by
  have hd2 : d2 ≠ 0 := left_ne_zero_of_mul h2
  have hb : b ≠ 0 := right_ne_zero_of_mul h2
  unfold rotmgBase weights
  simp only [pure]
  by_cases hc : |d2 * b * b| < |d1 * a * a|
  · have ha : a ≠ 0 := by
      rintro rfl; rw [mul_zero, abs_zero] at hc; exact absurd hc (not_lt.mpr (abs_nonneg _))
    have hda : d1 * a ≠ 0 := mul_ne_zero h1.ne' ha
    have hpos : 0 < d1 * a * a := by
      have := mul_self_pos.mpr ha
      rw [mul_assoc]; positivity
    have e : 1 - d2 * b / (d1 * a) * (-b / a) = 1 + d2 * b * b / (d1 * a * a) := by
      field_simp; ring
    have hu : 0 < 1 + d2 * b * b / (d1 * a * a) := by
      have : -(d2 * b * b) < d1 * a * a := lt_of_le_of_lt (neg_le_abs _) (by rwa [abs_of_pos hpos] at hc)
      have : 0 < (d1 * a * a + d2 * b * b) / (d1 * a * a) := div_pos (by linarith) hpos
      rwa [add_div, div_self hpos.ne'] at this
    simp only [gt_iff_lt, if_pos hc, dv_ne ha, dv_ne hda, bind_s, e, if_pos hu, dv_ne hu.ne']
    generalize hU : 1 + d2 * b * b / (d1 * a * a) = u at *
    have hu' : d2 * (b * b) = (u - 1) * (d1 * (a * a)) := by rw [← hU]; field_simp; ring
    refine ⟨_, rfl, ?_, Or.inl rfl, rfl, by positivity, div_ne_zero hd2 hu.ne'⟩
    constructor <;> simp only [hmat] <;> norm_num
    · field_simp; linear_combination hu'
    · field_simp; ring
    · field_simp; linear_combination hu'
    · field_simp; ring
    · field_simp; linear_combination hu'
  · have hq2 : 0 ≤ d2 * b * b := hq.resolve_left hc
    have hq2' : 0 < d2 * b * b := lt_of_le_of_ne hq2 (Ne.symm (mul_ne_zero h2 hb))
    have hd : 0 < d2 := by
      have := mul_self_pos.mpr hb
      rw [mul_assoc] at hq2'
      exact pos_of_mul_pos_left hq2' this.le
    have hq1 : 0 ≤ d1 * a * a := by rw [mul_assoc]; exact mul_nonneg h1.le (mul_self_nonneg a)
    have e : 1 + d1 * a / (d2 * b) * (a / b) = 1 + d1 * a * a / (d2 * b * b) := by
      field_simp
    have hu : 0 < 1 + d1 * a * a / (d2 * b * b) := by positivity
    simp only [gt_iff_lt, if_neg hc, if_neg (not_lt.mpr hq2), dv_ne h2, dv_ne hb, bind_s, e, dv_ne hu.ne']
    generalize hU : 1 + d1 * a * a / (d2 * b * b) = u at *
    have hu' : d1 * (a * a) = (u - 1) * (d2 * (b * b)) := by rw [← hU]; field_simp; ring
    refine ⟨_, rfl, ?_, Or.inr rfl, rfl, by positivity, by positivity⟩
    constructor <;> simp only [hmat] <;> norm_num
    · field_simp; linear_combination hu'
    · field_simp; ring
    · field_simp; linear_combination hu'
    · field_simp; ring
    · field_simp; linear_combination hu'

theorem hmat_expl {x : RotmSt} (h : x.flag = 0 ∨ x.flag = 1) :
    (rotmgExpl x).flag = -1 ∧ ((rotmgExpl x).h0, (rotmgExpl x).h1, (rotmgExpl x).h2, (rotmgExpl x).h3) = hmat x ∧
      (rotmgExpl x).d1 = x.d1 ∧ (rotmgExpl x).d2 = x.d2 ∧ (rotmgExpl x).a = x.a := by
  unfold rotmgExpl hmat
  rcases h with h | h <;> simp [h]

theorem expl_d (x : RotmSt) : (rotmgExpl x).d1 = x.d1 ∧ (rotmgExpl x).d2 = x.d2 ∧ (rotmgExpl x).flag = -1 := by
  unfold rotmgExpl; split <;> simp

theorem step1_d (x : RotmSt) : (rotmgStep1 x).d1 = (if x.d1 ≤ 1 / (4096 * 4096) then x.d1 * (4096 * 4096)
    else x.d1 / (4096 * 4096)) ∧ (rotmgStep1 x).d2 = x.d2 ∧ (rotmgStep1 x).flag = -1 := by
  obtain ⟨e1, e2, e3⟩ := expl_d x
  unfold rotmgStep1
  simp only [e1]
  split <;> simp [e1, e2, e3]

theorem step2_d (x : RotmSt) : (rotmgStep2 x).d2 = (if |x.d2| ≤ 1 / (4096 * 4096) then x.d2 * (4096 * 4096)
    else x.d2 / (4096 * 4096)) ∧ (rotmgStep2 x).d1 = x.d1 ∧ (rotmgStep2 x).flag = -1 := by
  obtain ⟨e1, e2, e3⟩ := expl_d x
  unfold rotmgStep2
  simp only [e2]
  split <;> simp [e1, e2, e3]

theorem step1_ok {d1 d2 a b : ℝ} {x : RotmSt} (h : x.flag = 0 ∨ x.flag = 1) (hx : RotmOK d1 d2 a b x) :
    RotmOK d1 d2 a b (rotmgStep1 x) := by
  obtain ⟨f, hm, e1, e2, e3⟩ := hmat_expl h
  obtain ⟨t, bo, p, q, r⟩ := hx
  rw [← hm] at t bo p q r
  rw [← e1, ← e2] at p q r
  rw [← e3] at t
  simp only at t bo p q r
  unfold rotmgStep1
  generalize rotmgExpl x = y at *
  simp only
  split
  · constructor <;> simp only [hmat, f, if_true]
    · linear_combination t / 4096
    · linear_combination bo
    · linear_combination p
    · linear_combination q
    · linear_combination r
  · constructor <;> simp only [hmat, f, if_true]
    · linear_combination t * 4096
    · linear_combination bo
    · linear_combination p
    · linear_combination q
    · linear_combination r

theorem step2_ok {d1 d2 a b : ℝ} {x : RotmSt} (h : x.flag = 0 ∨ x.flag = 1) (hx : RotmOK d1 d2 a b x) :
    RotmOK d1 d2 a b (rotmgStep2 x) := by
  obtain ⟨f, hm, e1, e2, e3⟩ := hmat_expl h
  obtain ⟨t, bo, p, q, r⟩ := hx
  rw [← hm] at t bo p q r
  rw [← e1, ← e2] at p q r
  rw [← e3] at t
  simp only at t bo p q r
  unfold rotmgStep2
  generalize rotmgExpl x = y at *
  simp only
  split
  · constructor <;> simp only [hmat, f, if_true]
    · linear_combination t
    · linear_combination bo / 4096
    · linear_combination p
    · linear_combination q
    · linear_combination r
  · constructor <;> simp only [hmat, f, if_true]
    · linear_combination t
    · linear_combination bo * 4096
    · linear_combination p
    · linear_combination q
    · linear_combination r

/-- A weight in the range that needs no rescaling. -/
def InR (w : ℝ) : Prop := 1 / (4096 * 4096) < |w| ∧ |w| < 4096 * 4096

/-- A weight that one rescaling pass brings into range. -/
def InR1 (w : ℝ) : Prop := 1 / (4096 * 4096 * (4096 * 4096)) < |w| ∧ |w| < 4096 * 4096 * (4096 * 4096)

theorem InR.mul {w : ℝ} (h : InR1 w) (h2 : |w| ≤ 1 / (4096 * 4096)) : InR (w * (4096 * 4096)) := by
  unfold InR InR1 at *
  rw [abs_mul, abs_of_pos (show (0:ℝ) < 4096 * 4096 by norm_num)]
  constructor <;> linarith

theorem InR.div {w : ℝ} (h : InR1 w) (h2 : 4096 * 4096 ≤ |w|) : InR (w / (4096 * 4096)) := by
  unfold InR InR1 at *
  rw [abs_div, abs_of_pos (show (0:ℝ) < 4096 * 4096 by norm_num)]
  constructor
  · rw [lt_div_iff₀ (by norm_num)]; linarith
  · rw [div_lt_iff₀ (by norm_num)]; linarith

/-- Repeated rescaling of one weight ends. -/
theorem rescale_ends {σ : Type} (g : σ → ℝ) (f : σ → σ) (c : σ → Prop)
    (hf : ∀ s, c s → g (f s) = if g s ≤ 1 / (4096 * 4096) then g s * (4096 * 4096) else g s / (4096 * 4096))
    (hc : ∀ s, c s ↔ (g s ≤ 1 / (4096 * 4096) ∨ g s ≥ 4096 * 4096)) (P : σ → Prop)
    (hP : ∀ s, P s → P (f s)) (s : σ) (h0 : 0 < g s) (hs : P s) :
    ∃ r, whileLoop c f s = some r ∧ InR (g r) ∧ 0 < g r ∧ P r := by
  have fin : ∀ s, 0 < g s → P s → ¬ c s → ∃ r, whileLoop c f s = some r ∧ InR (g r) ∧ 0 < g r ∧ P r := by
    intro s h0 hs h
    refine ⟨s, whileLoop_stop h, ?_, h0, hs⟩
    rw [hc, not_or] at h
    unfold InR
    rw [abs_of_pos h0]
    exact ⟨not_le.mp h.1, not_le.mp h.2⟩
  have up : ∀ n : ℕ, ∀ s, 0 < g s → P s → 1 / (4096 * 4096) < g s → g s < (4096 * 4096) ^ (n + 1) →
      ∃ r, whileLoop c f s = some r ∧ InR (g r) ∧ 0 < g r ∧ P r := by
    intro n
    induction n with
    | zero =>
      intro s h0 hs h1 h2
      apply fin s h0 hs
      rw [hc, not_or]
      exact ⟨not_le.mpr h1, not_le.mpr (by simpa using h2)⟩
    | succ n ih =>
      intro s h0 hs h1 h2
      by_cases h : c s
      · rw [whileLoop_step h]
        have e := hf s h
        rw [if_neg (not_le.mpr h1)] at e
        have hge : 4096 * 4096 ≤ g s := by
          rcases (hc s).mp h with h' | h'
          · exact absurd h' (not_le.mpr h1)
          · exact h'
        apply ih
        · rw [e]; positivity
        · exact hP s hs
        · rw [e, lt_div_iff₀ (by norm_num)]; linarith
        · rw [e, div_lt_iff₀ (by norm_num), ← pow_succ]; exact h2
      · exact fin s h0 hs h
  have dn : ∀ n : ℕ, ∀ s, 0 < g s → P s → g s < 4096 * 4096 → 1 < g s * (4096 * 4096) ^ (n + 1) →
      ∃ r, whileLoop c f s = some r ∧ InR (g r) ∧ 0 < g r ∧ P r := by
    intro n
    induction n with
    | zero =>
      intro s h0 hs h1 h2
      apply fin s h0 hs
      rw [hc, not_or]
      refine ⟨not_le.mpr ?_, not_le.mpr h1⟩
      rw [div_lt_iff₀ (by norm_num)]; simpa using h2
    | succ n ih =>
      intro s h0 hs h1 h2
      by_cases h : c s
      · rw [whileLoop_step h]
        have hle : g s ≤ 1 / (4096 * 4096) := by
          rcases (hc s).mp h with h' | h'
          · exact h'
          · exact absurd h1 (not_lt.mpr h')
        have e := hf s h
        rw [if_pos hle] at e
        apply ih
        · rw [e]; positivity
        · exact hP s hs
        · rw [e]; rw [le_div_iff₀ (by norm_num)] at hle; linarith
        · rw [e, mul_assoc, ← pow_succ']; exact h2
      · exact fin s h0 hs h
  by_cases h1 : 1 / (4096 * 4096) < g s
  · obtain ⟨n, hn⟩ := pow_unbounded_of_one_lt (g s) (show (1:ℝ) < 4096 * 4096 by norm_num)
    refine up n s h0 hs h1 (hn.trans_le ?_)
    exact pow_le_pow_right₀ (by norm_num) (by omega)
  · obtain ⟨n, hn⟩ := pow_unbounded_of_one_lt (1 / g s) (show (1:ℝ) < 4096 * 4096 by norm_num)
    refine dn n s h0 hs (lt_of_le_of_lt (not_lt.mp h1) (by norm_num)) ?_
    rw [div_lt_iff₀ h0] at hn
    calc (1:ℝ) < (4096 * 4096) ^ n * g s := hn
      _ = g s * (4096 * 4096) ^ n := mul_comm _ _
      _ ≤ g s * (4096 * 4096) ^ (n + 1) := by
        gcongr
        · norm_num
        · omega

theorem loop1_ends {x : RotmSt} (h : 0 < x.d1) :
    ∃ y, rotmgLoop1 x = some y ∧ InR y.d1 ∧ 0 < y.d1 ∧ y.d2 = x.d2 := by
  unfold rotmgLoop1
  rw [if_pos h.ne']
  exact rescale_ends (fun y : RotmSt => y.d1) rotmgStep1 _ (fun s _ => (step1_d s).1) (fun s => Iff.rfl)
    (fun y => y.d2 = x.d2) (fun s hs => by rw [(step1_d s).2.1, hs]) x h rfl

theorem loop2_ends {x : RotmSt} (h : x.d2 ≠ 0) :
    ∃ y, rotmgLoop2 x = some y ∧ InR y.d2 ∧ y.d1 = x.d1 := by
  unfold rotmgLoop2
  rw [if_pos h]
  obtain ⟨r, e, ir, -, h1⟩ := rescale_ends (fun y : RotmSt => |y.d2|) rotmgStep2
    (fun y => |y.d2| ≤ 1 / (4096 * 4096) ∨ |y.d2| ≥ 4096 * 4096)
    (fun s _ => by
      beta_reduce
      rw [(step2_d s).1]
      split
      · rw [abs_mul, abs_of_pos (show (0:ℝ) < 4096 * 4096 by norm_num)]
      · rw [abs_div, abs_of_pos (show (0:ℝ) < 4096 * 4096 by norm_num)])
    (fun s => Iff.rfl) (fun y => y.d1 = x.d1) (fun s hs => by rw [(step2_d s).2.1, hs]) x (abs_pos.mpr h) rfl
  refine ⟨r, e, ?_, h1⟩
  unfold InR at ir ⊢
  rwa [abs_abs] at ir

theorem inR_stop1 {x : RotmSt} (h0 : 0 < x.d1) (h : InR x.d1) : rotmgLoop1 x = some x := by
  unfold rotmgLoop1
  rw [if_pos h0.ne', whileLoop_stop]
  unfold InR at h
  rw [abs_of_pos h0] at h
  rw [not_or]; exact ⟨not_le.mpr h.1, not_le.mpr h.2⟩

theorem inR_stop2 {x : RotmSt} (h0 : x.d2 ≠ 0) (h : InR x.d2) : rotmgLoop2 x = some x := by
  unfold rotmgLoop2
  rw [if_pos h0, whileLoop_stop]
  rw [not_or]; exact ⟨not_le.mpr h.1, not_le.mpr h.2⟩

theorem loop1_once {d1 d2 a b : ℝ} {x : RotmSt} (h0 : 0 < x.d1) (h : InR1 x.d1) (hf : x.flag = 0 ∨ x.flag = 1)
    (hx : RotmOK d1 d2 a b x) :
    ∃ y, rotmgLoop1 x = some y ∧ RotmOK d1 d2 a b y ∧ InR y.d1 ∧ y.d2 = x.d2 := by
  by_cases hr : InR x.d1
  · exact ⟨x, inR_stop1 h0 hr, hx, hr, rfl⟩
  · have hc : x.d1 ≤ 1 / (4096 * 4096) ∨ x.d1 ≥ 4096 * 4096 := by
      by_contra hc
      rw [not_or] at hc
      apply hr; unfold InR; rw [abs_of_pos h0]; exact ⟨not_le.mp hc.1, not_le.mp hc.2⟩
    have hi : InR (rotmgStep1 x).d1 ∧ 0 < (rotmgStep1 x).d1 := by
      rw [(step1_d x).1]
      split
      · rename_i hle
        exact ⟨InR.mul h (by rwa [abs_of_pos h0]), by positivity⟩
      · rename_i hle
        exact ⟨InR.div h (by rw [abs_of_pos h0]; exact hc.resolve_left hle), by positivity⟩
    refine ⟨rotmgStep1 x, ?_, step1_ok hf hx, hi.1, (step1_d x).2.1⟩
    have := inR_stop1 hi.2 hi.1
    unfold rotmgLoop1 at this ⊢
    rw [if_pos hi.2.ne'] at this
    rw [if_pos h0.ne', whileLoop_step (s := x) hc, this]

theorem loop2_once {d1 d2 a b : ℝ} {x : RotmSt} (h0 : x.d2 ≠ 0) (h : InR1 x.d2) (hf : x.flag = 0 ∨ x.flag = 1)
    (hx : RotmOK d1 d2 a b x) :
    ∃ y, rotmgLoop2 x = some y ∧ RotmOK d1 d2 a b y ∧ InR y.d2 ∧ y.d1 = x.d1 := by
  by_cases hr : InR x.d2
  · exact ⟨x, inR_stop2 h0 hr, hx, hr, rfl⟩
  · have hc : |x.d2| ≤ 1 / (4096 * 4096) ∨ |x.d2| ≥ 4096 * 4096 := by
      by_contra hc
      rw [not_or] at hc
      apply hr; exact ⟨not_le.mp hc.1, not_le.mp hc.2⟩
    have hi : InR (rotmgStep2 x).d2 ∧ (rotmgStep2 x).d2 ≠ 0 := by
      rw [(step2_d x).1]
      split
      · rename_i hle
        exact ⟨InR.mul h hle, mul_ne_zero h0 (by norm_num)⟩
      · rename_i hle
        exact ⟨InR.div h (hc.resolve_left hle), div_ne_zero h0 (by norm_num)⟩
    refine ⟨rotmgStep2 x, ?_, step2_ok hf hx, hi.1, (step2_d x).2.1⟩
    have := inR_stop2 hi.2 hi.1
    unfold rotmgLoop2 at this ⊢
    rw [if_pos hi.2] at this
    rw [if_pos h0, whileLoop_step (s := x) hc, this]

theorem rotmg_ok {d1 d2 a b : ℝ} (h1 : 0 < d1) (h2 : d2 * b ≠ 0)
    (hq : |d2 * b * b| < |d1 * a * a| ∨ 0 ≤ d2 * b * b)
    (hw : (InR (weights d1 d2 a b).1 ∧ InR1 (weights d1 d2 a b).2) ∨
      (InR1 (weights d1 d2 a b).1 ∧ InR (weights d1 d2 a b).2)) :
    ∃ x, rotmg d1 d2 a b = some x ∧ RotmOK d1 d2 a b x ∧ InR x.d1 ∧ InR x.d2 := by
  obtain ⟨x, e, ok, hf, ew, p1, p2⟩ := rotmgBase_ok h1 h2 hq
  rw [← ew] at hw
  unfold rotmg
  rw [if_neg (not_le.mpr h1), if_neg h2]
  simp only [e, bind_s]
  rcases hw with ⟨w1, w2⟩ | ⟨w1, w2⟩
  · simp only [inR_stop1 p1 w1, bind_s]
    obtain ⟨y, ey, oy, iy, e1⟩ := loop2_once p2 w2 hf ok
    exact ⟨y, ey, oy, by rw [e1]; exact w1, iy⟩
  · obtain ⟨y, ey, oy, iy, e2⟩ := loop1_once p1 w1 hf ok
    simp only [ey, bind_s]
    rw [inR_stop2 (by rw [e2]; exact p2) (by rw [e2]; exact w2)]
    exact ⟨y, rfl, oy, iy, by rw [e2]; exact w2⟩

theorem rotmg_ends {d1 d2 a b : ℝ} (h1 : 0 < d1) (h2 : d2 * b ≠ 0)
    (hq : |d2 * b * b| < |d1 * a * a| ∨ 0 ≤ d2 * b * b) :
    ∃ x, rotmg d1 d2 a b = some x ∧ InR x.d1 ∧ InR x.d2 := by
  obtain ⟨x, e, ok, hf, ew, p1, p2⟩ := rotmgBase_ok h1 h2 hq
  obtain ⟨y, ey, i1, -, e2⟩ := loop1_ends p1
  obtain ⟨z, ez, i2, e1⟩ := loop2_ends (x := y) (by rw [e2]; exact p2)
  refine ⟨z, ?_, by rw [e1]; exact i1, i2⟩
  unfold rotmg
  rw [if_neg (not_le.mpr h1), if_neg h2]
  simp only [e, bind_s, ey, ez]

/-- Both weights need one rescaling pass: the second pass overwrites `h12` and `h21`. -/
theorem rotmg_two_passes : rotmg (1 / 2 ^ 30) (1 / 2 ^ 30) 2 1 =
    some ⟨-1, 1 / 80, 1 / 80, 5 / 8192, 1 / 4096, -1 / 4096, 1, 1 / 4096⟩ := by
  have base : rotmgBase (1 / 2 ^ 30) (1 / 2 ^ 30) 2 1 = some ⟨0, 4 / 5 / 2 ^ 30, 4 / 5 / 2 ^ 30, 5 / 2, 0, -1 / 2, 1 / 2, 0⟩ := by
    unfold rotmgBase
    simp only [dv, pure]
    norm_num [abs_of_pos, bind_s]
  have l1 : rotmgLoop1 ⟨0, 4 / 5 / 2 ^ 30, 4 / 5 / 2 ^ 30, 5 / 2, 0, -1 / 2, 1 / 2, 0⟩ =
      some ⟨-1, 1 / 80, 4 / 5 / 2 ^ 30, 5 / 8192, 1 / 4096, -1 / 2, 1 / 8192, 1⟩ := by
    unfold rotmgLoop1
    rw [if_pos (by norm_num), whileLoop_step (by left; norm_num)]
    have : rotmgStep1 ⟨0, 4 / 5 / 2 ^ 30, 4 / 5 / 2 ^ 30, 5 / 2, 0, -1 / 2, 1 / 2, 0⟩ =
        ⟨-1, 1 / 80, 4 / 5 / 2 ^ 30, 5 / 8192, 1 / 4096, -1 / 2, 1 / 8192, 1⟩ := by
      unfold rotmgStep1 rotmgExpl; norm_num
    rw [this, whileLoop_stop]
    norm_num
  have l2 : rotmgLoop2 ⟨-1, 1 / 80, 4 / 5 / 2 ^ 30, 5 / 8192, 1 / 4096, -1 / 2, 1 / 8192, 1⟩ =
      some ⟨-1, 1 / 80, 1 / 80, 5 / 8192, 1 / 4096, -1 / 4096, 1, 1 / 4096⟩ := by
    unfold rotmgLoop2
    rw [if_pos (by norm_num), whileLoop_step (by left; norm_num [abs_of_pos])]
    have : rotmgStep2 ⟨-1, 1 / 80, 4 / 5 / 2 ^ 30, 5 / 8192, 1 / 4096, -1 / 2, 1 / 8192, 1⟩ =
        ⟨-1, 1 / 80, 1 / 80, 5 / 8192, 1 / 4096, -1 / 4096, 1, 1 / 4096⟩ := by
      unfold rotmgStep2 rotmgExpl; norm_num [abs_of_pos]
    rw [this, whileLoop_stop]
    norm_num [abs_of_pos]
  unfold rotmg
  rw [if_neg (by norm_num), if_neg (by norm_num)]
  simp only [base, l1, l2, bind_s]

end TLA.Kernel
