import Verif.Model.House
import Verif.Proofs.LuRec

/-! lassq, nrm2, lapy2, lapy3 in exact arithmetic. -/

set_option linter.unusedSectionVars false

namespace TLA
open Finset
variable {L 𝕜 : Type} [DecidableEq L] [RCLike 𝕜] [DecidableEq 𝕜]

/-- Parameters of the exact scalar: is the type real, the overflow test of rscl, and the constants
of base/constants.hpp. -/
structure HhPar where
  isReal : Bool
  isinf : ℝ → Bool
  safeMin : ℝ
  safeMax : ℝ
  tsml : ℝ
  tbig : ℝ
  ssml : ℝ
  sbig : ℝ
  hmin : ℝ

/-- Exact scalar operations over the reals or the complex numbers. -/
@[reducible] noncomputable def hhOps (p : HhPar) : HhOps 𝕜 ℝ where
  toLuOps := luOps p.isReal p.isinf p.safeMin p.safeMax
  absR x := ‖x‖
  sqrtR := Real.sqrt
  isnanR _ := false
  tsml := p.tsml
  tbig := p.tbig
  ssml := p.ssml
  sbig := p.sbig
  hmin := p.hmin

/-- What the constants have to satisfy: `safe_min * safe_max = 1`, positive scaling factors,
`0 < safe_min/eps <= 1 <= blue_max`. -/
structure HhLaws (𝕜 : Type) [RCLike 𝕜] (p : HhPar) : Prop extends LuLaws 𝕜 p.isReal p.safeMin p.safeMax where
  ssml_pos : 0 < p.ssml
  sbig_pos : 0 < p.sbig
  tbig_one : 1 ≤ p.tbig
  hmin_pos : 0 < p.hmin
  hmin_one : p.hmin ≤ 1

variable {p : HhPar}

/-- The sum lassq computes from absolute values `f 0, .., f (n-1)`: everything, unless some value
exceeds `tbig`, in which case the values below `tsml` are left out. -/
noncomputable def blueSum (p : HhPar) (n : Nat) (f : Nat → ℝ) : ℝ :=
  open Classical in
  if ∃ i, i < n ∧ p.tbig < f i then ∑ i ∈ range n, (if f i < p.tsml ∧ f i ≤ p.tbig then 0 else f i ^ 2)
  else ∑ i ∈ range n, f i ^ 2

/-- The accumulators hold the three partial sums. -/
structure AccInv (p : HhPar) (f : Nat → ℝ) (k : Nat) (a : Acc ℝ) : Prop where
  big : a.big = p.sbig ^ 2 * ∑ i ∈ range k, (if p.tbig < f i then f i ^ 2 else 0)
  med : a.med = ∑ i ∈ range k, (if p.tbig < f i then 0 else if f i < p.tsml then 0 else f i ^ 2)
  sml : (∀ i, i < k → f i ≤ p.tbig) → a.sml = p.ssml ^ 2 *
    ∑ i ∈ range k, (if p.tbig < f i then 0 else if f i < p.tsml then f i ^ 2 else 0)

theorem AccInv.start (f : Nat → ℝ) : AccInv p f 0 ⟨0, 0, 0⟩ := ⟨by simp, by simp, by simp⟩

theorem AccInv.big_eq {f : Nat → ℝ} {k : Nat} {a : Acc ℝ} (h : AccInv p f k a) (h0 : 0 < p.sbig)
    (hb : 1 ≤ p.tbig) : (a.big = 0 ↔ ∀ i, i < k → f i ≤ p.tbig) ∧ 0 ≤ a.big := by
  have hn : ∀ i ∈ range k, 0 ≤ (if p.tbig < f i then f i ^ 2 else 0) := fun i _ => by
    split <;> positivity
  have hs := Finset.sum_nonneg hn
  constructor
  · rw [h.big, mul_eq_zero, or_iff_right (by positivity), Finset.sum_eq_zero_iff_of_nonneg hn]
    constructor
    · intro hz i hi
      by_contra hc
      have := hz i (mem_range.2 hi)
      rw [if_pos (not_le.1 hc)] at this
      have h1 : f i = 0 := by simpa using this
      rw [h1] at hc
      linarith
    · intro hz i hi
      rw [if_neg (not_lt.2 (hz i (mem_range.1 hi)))]
  · rw [h.big]; positivity

theorem AccInv.step {f : Nat → ℝ} {k : Nat} {a : Acc ℝ} (h : AccInv p f k a) (h0 : 0 < p.sbig)
    (hb : 1 ≤ p.tbig) : AccInv p f (k + 1) (a.add (hhOps p : HhOps 𝕜 ℝ) (f k)) := by
  have hbe := (h.big_eq h0 hb).1
  unfold Acc.add
  simp only [hhOps, gt_iff_lt]
  split
  · rename_i hc
    refine ⟨?_, ?_, fun hz => absurd (hz k (by omega)) (not_le.2 hc)⟩
    · simp only [sum_range_succ, h.big, if_pos hc]; ring
    · simp only [sum_range_succ, h.med, if_pos hc]; ring
  · rename_i hc
    by_cases hs : f k < p.tsml
    · rw [if_pos hs]
      by_cases hz : a.big = 0
      · rw [if_pos hz]
        refine ⟨?_, ?_, fun hz => ?_⟩
        · simp only [sum_range_succ, h.big, if_neg hc]; ring
        · simp only [sum_range_succ, h.med, if_neg hc, if_pos hs]; ring
        · simp only [sum_range_succ, h.sml (fun i hi => hz i (by omega)), if_neg hc, if_pos hs]; ring
      · rw [if_neg hz]
        refine ⟨?_, ?_, fun hz' => absurd (hbe.2 (fun i hi => hz' i (by omega))) hz⟩
        · simp only [sum_range_succ, h.big, if_neg hc]; ring
        · simp only [sum_range_succ, h.med, if_neg hc, if_pos hs]; ring
    · rw [if_neg hs]
      refine ⟨?_, ?_, fun hz => ?_⟩
      · simp only [sum_range_succ, h.big, if_neg hc]; ring
      · simp only [sum_range_succ, h.med, if_neg hc, if_neg hs]; ring
      · simp only [sum_range_succ, h.sml (fun i hi => hz i (by omega)), if_neg hc, if_neg hs]; ring

theorem Acc.prior_eq {a : Acc ℝ} {s q : ℝ} (hq : 0 ≤ q) (hb : 1 ≤ p.tbig) :
    a.prior (hhOps p : HhOps 𝕜 ℝ) s q = a.add (hhOps p : HhOps 𝕜 ℝ) (s * Real.sqrt q) := by
  unfold Acc.prior Acc.add
  simp only [hhOps, gt_iff_lt]
  by_cases h : 0 < q
  · rw [if_pos h]
    have hsq : ∀ c : ℝ, s * √q * c * (s * √q * c) = s * (s * (c * (c * q))) := fun c => by
      calc s * √q * c * (s * √q * c) = s * s * (c * c) * (√q * √q) := by ring
        _ = _ := by rw [Real.mul_self_sqrt hq]; ring
    have hsq1 : s * √q * (s * √q) = s * (s * q) := by
      have := hsq 1; simpa using this
    rw [hsq, hsq, hsq1]
    have e1 : ∀ c : ℝ, s * c * (s * c * q) = s * (s * (c * (c * q))) := fun c => by ring
    simp only [e1, ite_self]
  · obtain rfl : q = 0 := le_antisymm (not_lt.1 h) hq
    rw [if_neg h]
    simp only [Real.sqrt_zero, mul_zero, zero_mul, add_zero, ite_self]

theorem Acc.combine_eq {a : Acc ℝ} {f : Nat → ℝ} {k : Nat} (h : AccInv p f k a) (h0 : 0 < p.sbig)
    (h1 : 0 < p.ssml) (hb : 1 ≤ p.tbig) :
    0 ≤ (a.combine (hhOps p : HhOps 𝕜 ℝ)).1 ∧ 0 ≤ (a.combine (hhOps p : HhOps 𝕜 ℝ)).2 ∧
    (a.combine (hhOps p : HhOps 𝕜 ℝ)).1 ^ 2 * (a.combine (hhOps p : HhOps 𝕜 ℝ)).2 = blueSum p k f := by
  obtain ⟨hz, hp⟩ := h.big_eq h0 hb
  have hmed : 0 ≤ a.med := by
    rw [h.med]; exact Finset.sum_nonneg fun i _ => by split_ifs <;> positivity
  unfold Acc.combine blueSum
  simp only [hhOps, gt_iff_lt]
  by_cases hpos : 0 < a.big
  · have hex : ∃ i, i < k ∧ p.tbig < f i := by
      by_contra hc
      push Not at hc
      exact hpos.ne' (hz.2 hc)
    rw [if_pos hpos, if_pos hex]
    have e : (if 0 < a.med ∨ false = true then a.big + a.med * p.sbig * p.sbig else a.big) =
        a.big + a.med * p.sbig * p.sbig := by
      split
      · rfl
      · rename_i hc
        have : a.med = 0 := le_antisymm (not_lt.1 (fun h => hc (Or.inl h))) hmed
        rw [this]; ring
    simp only [e]
    refine ⟨by positivity, by positivity, ?_⟩
    have e2 : (1 / p.sbig) ^ 2 * (a.big + a.med * p.sbig * p.sbig) = a.big / p.sbig ^ 2 + a.med := by
      field_simp
    rw [e2, h.big, h.med, mul_div_cancel_left₀ _ (by positivity), ← Finset.sum_add_distrib]
    refine Finset.sum_congr rfl fun i _ => ?_
    by_cases hc : p.tbig < f i
    · rw [if_pos hc, if_pos hc, if_neg (fun h => absurd h.2 (not_le.2 hc))]; ring
    · rw [if_neg hc, if_neg hc]
      by_cases hs : f i < p.tsml
      · rw [if_pos hs, if_pos ⟨hs, not_lt.1 hc⟩]; ring
      · rw [if_neg hs, if_neg (fun h => hs h.1)]; ring
  · have hall : ∀ i, i < k → f i ≤ p.tbig := hz.1 (le_antisymm (not_lt.1 hpos) hp)
    rw [if_neg hpos, if_neg (c := ∃ i, i < k ∧ p.tbig < f i) (fun ⟨i, hi, hc⟩ => absurd (hall i hi) (not_le.2 hc))]
    have hsml := h.sml hall
    have htot : a.sml / p.ssml ^ 2 + a.med = ∑ i ∈ range k, f i ^ 2 := by
      rw [hsml, h.med, mul_div_cancel_left₀ _ (by positivity), ← Finset.sum_add_distrib]
      refine Finset.sum_congr rfl fun i hi => ?_
      have hc := not_lt.2 (hall i (mem_range.1 hi))
      rw [if_neg hc, if_neg hc]
      split <;> ring
    have hsn : 0 ≤ a.sml := by
      rw [hsml]
      refine mul_nonneg (by positivity) (Finset.sum_nonneg fun i _ => by split_ifs <;> positivity)
    by_cases hs : 0 < a.sml
    · rw [if_pos hs]
      by_cases hm : 0 < a.med
      · rw [if_pos (Or.inl hm)]
        have key : ∀ u v : ℝ, 0 < u → 0 < v →
            (if u > v then u else v) * (if u > v then u else v) *
              (1 + (if u > v then v else u) / (if u > v then u else v) *
                ((if u > v then v else u) / (if u > v then u else v))) = u ^ 2 + v ^ 2 := by
          intro u v hu hv
          split <;> (field_simp; try ring)
        have e := key (√a.sml / p.ssml) (√a.med) (by positivity) (by positivity)
        simp only [gt_iff_lt] at e
        refine ⟨zero_le_one, ?_, ?_⟩
        · simp only [e]; positivity
        · simp only [e]
          rw [one_pow, one_mul, div_pow, Real.sq_sqrt hsn, Real.sq_sqrt hmed, htot]
      · rw [if_neg (by simpa using hm)]
        have : a.med = 0 := le_antisymm (not_lt.1 hm) hmed
        refine ⟨by positivity, hsn, ?_⟩
        rw [← htot, this, add_zero, div_pow, one_pow, div_mul_eq_mul_div, one_mul]
    · rw [if_neg hs]
      have : a.sml = 0 := le_antisymm (not_lt.1 hs) hsn
      exact ⟨zero_le_one, hmed, by rw [← htot, this]; simp⟩

/-- The prior contribution as an extra element. -/
noncomputable def withPrior (n : Nat) (f : Nat → ℝ) (s : ℝ) : Nat → ℝ := fun i => if i < n then f i else s

theorem wp_lassqF (hl : HhLaws 𝕜 p) (g : 𝕜 → ℝ) (x : VecV L) (s q : ℝ) (hs : 0 ≤ s) (hq : 0 ≤ q) (μ : Store L 𝕜)
    (hx : 0 < x.n) :
    wp (lassqF (hhOps p) g x s q) μ (fun r ν => ν = μ ∧ 0 ≤ r.1 ∧ 0 ≤ r.2 ∧
      r.1 ^ 2 * r.2 = blueSum p (x.n + 1) (withPrior x.n (fun i => g (ventry μ x i)) (s * Real.sqrt q))) := by
  unfold lassqF
  simp only [hhOps]
  rw [if_neg (by simp), if_neg (by omega)]
  simp only [wp_bind]
  set f := withPrior x.n (fun i => g (ventry μ x i)) (s * Real.sqrt q) with hf
  refine wp_forUp (fun k a ν => ν = μ ∧ AccInv p f k a) (Nat.zero_le _) ⟨rfl, AccInv.start f⟩ ?_ ?_
  · rintro i a ν _ hi ⟨rfl, ha⟩
    simp only [wp_bind]
    rw [wp_vget]
    refine ⟨hi, ?_⟩
    rw [wp_pure]
    refine ⟨rfl, ?_⟩
    have e : f i = g (ν (x.cell i)) := by rw [hf]; unfold withPrior; rw [if_pos hi]; rfl
    have := ha.step (𝕜 := 𝕜) hl.sbig_pos hl.tbig_one
    rw [e] at this
    exact this
  · rintro a ν ⟨rfl, ha⟩
    rw [wp_pure]
    have e : f x.n = s * Real.sqrt q := by rw [hf]; unfold withPrior; rw [if_neg (by omega)]
    have h1 := ha.step (𝕜 := 𝕜) hl.sbig_pos hl.tbig_one
    have hnn : (if (if q = 0 then (1 : ℝ) else s) = 0 then (0 : ℝ) else q) = 0 ∨ True := Or.inr trivial
    have e2 : a.prior (hhOps p : HhOps 𝕜 ℝ)
        (if (if q = 0 then (1 : ℝ) else s) = 0 then 1 else if q = 0 then 1 else s)
        (if (if q = 0 then (1 : ℝ) else s) = 0 then 0 else q) = a.add (hhOps p : HhOps 𝕜 ℝ) (f x.n) := by
      rw [Acc.prior_eq _ hl.tbig_one]
      · rw [e]
        congr 1
        by_cases h0 : q = 0
        · subst h0; simp
        · simp only [if_neg h0]
          by_cases h0' : s = 0
          · subst h0'; simp
          · simp [h0']
      · have : ∀ c : Prop, ∀ [Decidable c], 0 ≤ (if c then (0 : ℝ) else q) := fun c _ => by
          split
          · exact le_refl _
          · exact hq
        exact this _
    have h2 := Acc.combine_eq (𝕜 := 𝕜) h1 hl.sbig_pos hl.ssml_pos hl.tbig_one
    rw [← e2] at h2
    exact ⟨rfl, h2⟩

theorem wp_lassq (hl : HhLaws 𝕜 p) (x : VecV L) (s q : ℝ) (hs : 0 ≤ s) (hq : 0 ≤ q) (μ : Store L 𝕜)
    (hx : 0 < x.n) :
    wp (lassq (hhOps p) x s q) μ (fun r ν => ν = μ ∧ 0 ≤ r.1 ∧ 0 ≤ r.2 ∧
      r.1 ^ 2 * r.2 = blueSum p (x.n + 1) (withPrior x.n (fun i => ‖ventry μ x i‖) (s * Real.sqrt q))) :=
  wp_lassqF hl _ x s q hs hq μ hx

theorem blueSum_exact {n : Nat} {f : Nat → ℝ}
    (h : (∀ i, i < n → f i ≤ p.tbig) ∨ (∀ i, i < n → f i = 0 ∨ p.tsml ≤ f i)) :
    blueSum p n f = ∑ i ∈ range n, f i ^ 2 := by
  unfold blueSum
  split
  · rename_i hex
    rcases h with h | h
    · obtain ⟨i, hi, hc⟩ := hex
      exact absurd (h i hi) (not_le.2 hc)
    · refine Finset.sum_congr rfl fun i hi => ?_
      split
      · rename_i hc
        rcases h i (mem_range.1 hi) with h | h
        · simp [h]
        · exact absurd hc.1 (not_lt.2 h)
      · rfl
  · rfl

/-- The entries are such that Blue's algorithm drops nothing: none is above `blue_max`, or every
nonzero one is at least `blue_min`. -/
def NoDrop (p : HhPar) (n : Nat) (x : Nat → 𝕜) : Prop :=
  (∀ i, i < n → ‖x i‖ ≤ p.tbig) ∨ (∀ i, i < n → x i = 0 ∨ p.tsml ≤ ‖x i‖)

theorem wp_nrm2_blue (hl : HhLaws 𝕜 p) (x : VecV L) (μ : Store L 𝕜) :
    wp (nrm2 (hhOps p) x) μ (fun r ν => ν = μ ∧
      r = Real.sqrt (blueSum p x.n (fun i => ‖ventry μ x i‖))) := by
  unfold nrm2
  simp only [wp_bind]
  by_cases hx : x.n = 0
  · have : wp (lassq (hhOps p) x 1 0) μ (fun r ν => ν = μ ∧ r = (1, 0)) := by
      unfold lassq lassqF
      simp only [hhOps]
      rw [if_neg (by simp), if_pos hx, wp_pure]
      simp
    refine wp_conseq this ?_
    rintro _ ν ⟨rfl, rfl⟩
    rw [wp_pure]
    refine ⟨rfl, ?_⟩
    simp [hx, blueSum, hhOps]
  · refine wp_conseq (wp_lassq hl x 1 0 zero_le_one le_rfl μ (by omega)) ?_
    rintro ⟨s, q⟩ ν ⟨rfl, hs, hq, e⟩
    rw [wp_pure]
    refine ⟨rfl, ?_⟩
    have e1 : blueSum p (x.n + 1) (withPrior x.n (fun i => ‖ventry ν x i‖) (1 * Real.sqrt 0)) =
        blueSum p x.n (fun i => ‖ventry ν x i‖) := by
      unfold blueSum
      have hiff : (∃ i, i < x.n + 1 ∧ p.tbig < withPrior x.n (fun i => ‖ventry ν x i‖) (1 * Real.sqrt 0) i) ↔
          ∃ i, i < x.n ∧ p.tbig < ‖ventry ν x i‖ := by
        constructor
        · rintro ⟨i, hi, h⟩
          unfold withPrior at h
          by_cases hi' : i < x.n
          · rw [if_pos hi'] at h; exact ⟨i, hi', h⟩
          · rw [if_neg hi'] at h
            have := hl.tbig_one
            simp at h; linarith
        · rintro ⟨i, hi, h⟩
          exact ⟨i, by omega, by unfold withPrior; rw [if_pos hi]; exact h⟩
      have hw : ∀ i ∈ range x.n, withPrior x.n (fun i => ‖ventry ν x i‖) (1 * Real.sqrt 0) i = ‖ventry ν x i‖ :=
        fun i hi => if_pos (mem_range.1 hi)
      have hw0 : withPrior x.n (fun i => ‖ventry ν x i‖) (1 * Real.sqrt 0) x.n = 0 := by
        unfold withPrior; rw [if_neg (by omega)]; simp
      rw [sum_range_succ, sum_range_succ, hw0]
      simp only [hiff]
      rw [Finset.sum_congr rfl (fun i hi => by rw [hw i hi]), Finset.sum_congr (s₁ := range x.n)
        (f := fun i => withPrior x.n (fun i => ‖ventry ν x i‖) (1 * Real.sqrt 0) i ^ 2) rfl
        (fun i hi => by rw [hw i hi])]
      simp
    rw [e1] at e
    simp only at e hs
    rw [← e]
    simp only [hhOps]
    rw [Real.sqrt_mul (by positivity), Real.sqrt_sq hs]

theorem wp_nrm2 (hl : HhLaws 𝕜 p) (x : VecV L) (μ : Store L 𝕜) (hd : NoDrop p x.n (ventry μ x)) :
    wp (nrm2 (hhOps p) x) μ (fun r ν => ν = μ ∧ r = Real.sqrt (∑ i ∈ range x.n, ‖ventry μ x i‖ ^ 2)) := by
  refine wp_conseq (wp_nrm2_blue hl x μ) ?_
  rintro _ ν ⟨rfl, rfl⟩
  refine ⟨rfl, ?_⟩
  rw [blueSum_exact]
  rcases hd with h | h
  · exact Or.inl h
  · exact Or.inr fun i hi => (h i hi).imp_left (by simp [·])

theorem lapy2_eq (x y : ℝ) : lapy2 Real.sqrt x y = Real.sqrt (x ^ 2 + y ^ 2) := by
  unfold lapy2
  have key : ∀ w z : ℝ, 0 ≤ z → z ≤ w → (if z = 0 then w else w * √(1 + z / w * (z / w))) = √(w ^ 2 + z ^ 2) := by
    intro w z hz hzw
    by_cases h0 : z = 0
    · rw [if_pos h0, h0]
      simp [Real.sqrt_sq (hz.trans hzw)]
    · have hw : 0 < w := lt_of_lt_of_le (lt_of_le_of_ne hz (Ne.symm h0)) hzw
      rw [if_neg h0]
      conv_lhs => rw [← Real.sqrt_sq hw.le, ← Real.sqrt_mul (by positivity)]
      congr 1
      rw [Real.sqrt_sq hw.le]
      field_simp
  by_cases h : |x| > |y|
  · simp only [if_pos h]
    rw [key _ _ (abs_nonneg _) h.le, sq_abs, sq_abs]
  · simp only [if_neg h]
    rw [key _ _ (abs_nonneg _) (not_lt.1 h), sq_abs, sq_abs, add_comm]

theorem lapy3_eq (x y z : ℝ) : lapy3 Real.sqrt x y z = Real.sqrt (x ^ 2 + y ^ 2 + z ^ 2) := by
  unfold lapy3
  have h0 : 0 ≤ max |x| (max |y| |z|) := le_max_of_le_left (abs_nonneg _)
  by_cases h : max |x| (max |y| |z|) = 0
  · simp only [if_pos h]
    have hx : |x| = 0 := le_antisymm (h ▸ le_max_left _ _) (abs_nonneg _)
    have hy : |y| = 0 := le_antisymm (h ▸ (le_max_left _ _).trans (le_max_right _ _)) (abs_nonneg _)
    have hz : |z| = 0 := le_antisymm (h ▸ (le_max_right _ _).trans (le_max_right _ _)) (abs_nonneg _)
    rw [hx, hy, hz, ← sq_abs x, ← sq_abs y, ← sq_abs z, hx, hy, hz]
    simp
  · simp only [if_neg h]
    have hw : 0 < max |x| (max |y| |z|) := lt_of_le_of_ne h0 (Ne.symm h)
    conv_lhs => rw [← Real.sqrt_sq hw.le, ← Real.sqrt_mul (by positivity)]
    congr 1
    rw [Real.sqrt_sq hw.le]
    field_simp
    simp only [sq_abs]

end TLA
