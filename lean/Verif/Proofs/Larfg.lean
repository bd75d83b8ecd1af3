import Verif.Proofs.HouseScalar

/-! larfg in exact arithmetic. -/

set_option linter.unusedSectionVars false

namespace TLA
open Finset
variable {L 𝕜 : Type} [DecidableEq L] [RCLike 𝕜] [DecidableEq 𝕜] {p : HhPar}

/-- The number larfg calls beta, for `alpha` and `N = ‖x‖²`. -/
noncomputable def betaOf (alpha : 𝕜) (N : ℝ) : ℝ :=
  (if RCLike.re alpha < 0 then 1 else -1) * Real.sqrt (‖alpha‖ ^ 2 + N)

theorem larfgBeta_eq (hl : HhLaws 𝕜 p) (alpha : 𝕜) {N : ℝ} (hN : 0 ≤ N) :
    larfgBeta (hhOps p) alpha (Real.sqrt N) = betaOf alpha N := by
  unfold larfgBeta betaOf
  have hn : ‖alpha‖ ^ 2 = RCLike.re alpha ^ 2 + RCLike.im alpha ^ 2 := by
    rw [← RCLike.normSq_eq_def', RCLike.normSq_apply]; ring
  have e : (if (hhOps p : HhOps 𝕜 ℝ).isReal = true then
      lapy2 (hhOps p : HhOps 𝕜 ℝ).sqrtR ((hhOps p : HhOps 𝕜 ℝ).reR alpha) √N
      else lapy3 (hhOps p : HhOps 𝕜 ℝ).sqrtR ((hhOps p : HhOps 𝕜 ℝ).reR alpha) ((hhOps p : HhOps 𝕜 ℝ).imR alpha) √N)
      = √(‖alpha‖ ^ 2 + N) := by
    split
    · rename_i h
      have him := hl.real h alpha
      rw [show (hhOps p : HhOps 𝕜 ℝ).sqrtR = Real.sqrt from rfl, lapy2_eq, Real.sq_sqrt hN, hn, him]
      simp [luOps]
    · rw [show (hhOps p : HhOps 𝕜 ℝ).sqrtR = Real.sqrt from rfl, lapy3_eq, Real.sq_sqrt hN, hn]
      simp [luOps]
  simp only [e]
  show (if RCLike.re alpha < 0 then _ else _) = _
  split <;> ring

theorem betaOf_scale (alpha : 𝕜) {N s : ℝ} (hs : 0 < s) :
    betaOf (alpha * (s : 𝕜)) (s ^ 2 * N) = s * betaOf alpha N := by
  unfold betaOf
  have h1 : RCLike.re (alpha * (s : 𝕜)) = RCLike.re alpha * s := by
    rw [mul_comm, RCLike.re_ofReal_mul, mul_comm]
  have h2 : ‖alpha * (s : 𝕜)‖ = ‖alpha‖ * s := by
    rw [norm_mul, RCLike.norm_ofReal, abs_of_pos hs]
  rw [h1, h2]
  have h3 : (RCLike.re alpha * s < 0) ↔ RCLike.re alpha < 0 := by
    constructor
    · intro h; by_contra hc; exact absurd h (not_lt.2 (mul_nonneg (not_lt.1 hc) hs.le))
    · intro h; exact mul_neg_of_neg_of_pos h hs
  simp only [h3]
  rw [show (‖alpha‖ * s) ^ 2 + s ^ 2 * N = s ^ 2 * (‖alpha‖ ^ 2 + N) by ring,
    Real.sqrt_mul (by positivity), Real.sqrt_sq hs.le]
  ring

theorem betaOf_sq (alpha : 𝕜) {N : ℝ} (hN : 0 ≤ N) : betaOf alpha N ^ 2 = ‖alpha‖ ^ 2 + N := by
  unfold betaOf
  rw [mul_pow, Real.sq_sqrt (by positivity)]
  split <;> simp

theorem betaOf_abs (alpha : 𝕜) (N : ℝ) : |betaOf alpha N| = Real.sqrt (‖alpha‖ ^ 2 + N) := by
  unfold betaOf
  rw [abs_mul, abs_of_nonneg (Real.sqrt_nonneg _)]
  split <;> simp

theorem betaOf_sign (alpha : 𝕜) (N : ℝ) : RCLike.re alpha * betaOf alpha N ≤ 0 := by
  unfold betaOf
  have := Real.sqrt_nonneg (‖alpha‖ ^ 2 + N)
  split
  · rename_i h
    nlinarith
  · rename_i h
    have := not_lt.1 h
    nlinarith

theorem betaOf_ne (alpha : 𝕜) {N : ℝ} (hN : 0 ≤ N) (h : 0 < N ∨ RCLike.im alpha ≠ 0) :
    betaOf alpha N ≠ 0 := by
  have h1 : 0 < ‖alpha‖ ^ 2 + N := by
    rcases h with h | h
    · positivity
    · have : alpha ≠ 0 := fun h0 => h (by rw [h0]; simp)
      have := norm_pos_iff.2 this
      positivity
  intro h0
  have := betaOf_sq alpha hN
  rw [h0] at this
  norm_num at this
  linarith

theorem sub_betaOf_ne (alpha : 𝕜) {N : ℝ} (hb : betaOf alpha N ≠ 0) :
    alpha - ((betaOf alpha N : ℝ) : 𝕜) ≠ 0 := by
  intro h0
  have h1 : RCLike.re alpha = betaOf alpha N := by
    have := congrArg RCLike.re h0
    simp only [map_sub, RCLike.ofReal_re, map_zero] at this
    linarith
  have h2 := betaOf_sign alpha N
  rw [h1] at h2
  have : 0 < betaOf alpha N * betaOf alpha N := mul_self_pos.2 hb
  linarith

theorem wp_larfgScale (hl : HhLaws 𝕜 p) {x : VecV L} (hx : x.Inj) {μ0 : Store L 𝕜} :
    ∀ (fuel knt : Nat) (beta : ℝ) (alpha : 𝕜) (g : Nat → 𝕜) (ν : Store L 𝕜),
      VState x μ0 g ν → |beta| < 1 →
      wp (larfgScale (hhOps p) x fuel knt beta alpha) ν (fun r ν' => ∃ j : Nat, r.1 = knt + j ∧
        r.2.1 = beta * (1 / p.hmin) ^ j ∧ r.2.2 = alpha * (((1 / p.hmin) ^ j : ℝ) : 𝕜) ∧
        VState x μ0 (fun i => (((1 / p.hmin) ^ j : ℝ) : 𝕜) * g i) ν' ∧ |r.2.1| < 1) := by
  intro fuel
  induction fuel with
  | zero =>
    intro knt beta alpha g ν h hb
    unfold larfgScale
    rw [wp_pure]
    exact ⟨0, rfl, by simp, by simp, h.congr (fun i _ => by simp), hb⟩
  | succ fuel ih =>
    intro knt beta alpha g ν h hb
    unfold larfgScale
    split
    · rename_i hc
      simp only [wp_bind]
      refine wp_conseq (wp_scal hx h) ?_
      intro _ ν1 h1
      have hb1 : |beta * (1 / p.hmin)| < 1 := by
        have hp := hl.hmin_pos
        rw [abs_mul, abs_of_pos (show 0 < 1 / p.hmin by positivity), mul_one_div, div_lt_one hp]
        exact hc
      refine wp_conseq (ih (knt + 1) _ _ _ ν1 h1 hb1) ?_
      rintro r ν' ⟨j, e1, e2, e3, e4, e5⟩
      refine ⟨j + 1, by omega, by rw [e2]; ring, ?_, ?_, e5⟩
      · rw [e3]
        show alpha * (((1 / p.hmin : ℝ)) : 𝕜) * _ = _
        rw [mul_assoc, ← RCLike.ofReal_mul]
        congr 2
        ring
      · refine e4.congr (fun i _ => ?_)
        show _ = _ * (g i * (((1 / p.hmin : ℝ)) : 𝕜))
        rw [mul_comm (g i), ← mul_assoc, ← RCLike.ofReal_mul]
        congr 2
    · rw [wp_pure]
      exact ⟨0, rfl, by simp, by simp, h.congr (fun i _ => by simp), hb⟩

theorem wp_larfgFinish (hl : HhLaws 𝕜 p) {store : StoreV} {alpha : 𝕜} {x : VecV L} (hx : x.Inj)
    {μ0 ν : Store L 𝕜} {g : Nat → 𝕜} {beta : ℝ} (j : Nat)
    (hν : VState x μ0 (fun i => (((1 / p.hmin) ^ j : ℝ) : 𝕜) * g i) ν)
    (hne : alpha - (beta : 𝕜) ≠ 0) :
    wp (larfgFinish (hhOps p) store (alpha * (((1 / p.hmin) ^ j : ℝ) : 𝕜)) x ((1 / p.hmin) ^ j * beta) j) ν
      (fun r ν' => r.1 = (beta : 𝕜) ∧
        r.2 = (if store = .Rowwise then star (((beta : 𝕜) - alpha) / (beta : 𝕜)) else ((beta : 𝕜) - alpha) / (beta : 𝕜)) ∧
        VState x μ0 (fun i => g i / (alpha - (beta : 𝕜))) ν') := by
  have hp := hl.hmin_pos
  have hsp : (0 : ℝ) < (1 / p.hmin) ^ j := by positivity
  obtain ⟨s, hs⟩ : ∃ s : ℝ, s = (1 / p.hmin) ^ j := ⟨_, rfl⟩
  have hsh : s * p.hmin ^ j = 1 := by
    rw [hs, ← mul_pow, one_div_mul_cancel hp.ne', one_pow]
  rw [← hs] at hν hsp ⊢
  have hs𝕜 : (s : 𝕜) ≠ 0 := by simpa using hsp.ne'
  unfold larfgFinish
  simp only [wp_bind]
  have e1 : alpha * (s : 𝕜) - (hhOps p : HhOps 𝕜 ℝ).emb (s * beta) = (s : 𝕜) * (alpha - (beta : 𝕜)) := by
    show alpha * (s : 𝕜) - ((s * beta : ℝ) : 𝕜) = _
    rw [RCLike.ofReal_mul]; ring
  rw [e1]
  refine wp_conseq (wp_rscl_exact hl.toLuLaws hx (mul_ne_zero hs𝕜 hne)) ?_
  intro _ ν1 h1
  refine wp_forUp (fun k b ν' => ν' = ν1 ∧ b = s * beta * p.hmin ^ k) (Nat.zero_le _) ⟨rfl, by simp⟩ ?_ ?_
  · rintro i b ν' _ _ ⟨rfl, rfl⟩
    rw [wp_pure]
    exact ⟨rfl, by rw [pow_succ]; ring⟩
  · rintro b ν' ⟨rfl, rfl⟩
    rw [wp_pure]
    have e2 : s * beta * p.hmin ^ j = beta := by
      calc s * beta * p.hmin ^ j = s * p.hmin ^ j * beta := by ring
        _ = beta := by rw [hsh, one_mul]
    rw [e2]
    have e3 : ((hhOps p : HhOps 𝕜 ℝ).emb (s * beta) - alpha * (s : 𝕜)) / (hhOps p : HhOps 𝕜 ℝ).emb (s * beta)
        = ((beta : 𝕜) - alpha) / (beta : 𝕜) := by
      show (((s * beta : ℝ) : 𝕜) - alpha * (s : 𝕜)) / ((s * beta : ℝ) : 𝕜) = _
      rw [RCLike.ofReal_mul, show (s : 𝕜) * (beta : 𝕜) - alpha * (s : 𝕜) = (s : 𝕜) * ((beta : 𝕜) - alpha) by ring,
        mul_div_mul_left _ _ hs𝕜]
    rw [e3]
    refine ⟨rfl, rfl, fun i hi => ?_, fun l hl' => (h1.frame l hl').trans (hν.frame l hl')⟩
    have := h1.val i hi
    rw [this, show ventry ν x i = _ from hν.val i hi, mul_div_mul_left _ _ hs𝕜]

/-- Result of larfg on `alpha` and `x`. -/
structure LarfgRes (store : StoreV) (alpha : 𝕜) (n : Nat) (x : Nat → 𝕜) (r : 𝕜 × 𝕜) (y : Nat → 𝕜) : Prop where
  beta : r.1 = ((if (∀ i, i < n → x i = 0) ∧ RCLike.im alpha = 0 then RCLike.re alpha
    else betaOf alpha (∑ i ∈ range n, ‖x i‖ ^ 2) : ℝ) : 𝕜)
  triv : (∀ i, i < n → x i = 0) → RCLike.im alpha = 0 → r.2 = 0 ∧ ∀ i, i < n → y i = x i
  gen : ¬ ((∀ i, i < n → x i = 0) ∧ RCLike.im alpha = 0) →
    r.1 ≠ 0 ∧ alpha - r.1 ≠ 0 ∧
    r.2 = (if store = .Rowwise then star ((r.1 - alpha) / r.1) else (r.1 - alpha) / r.1) ∧
    ∀ i, i < n → y i = x i / (alpha - r.1)

theorem wp_larfg (hl : HhLaws 𝕜 p) {store : StoreV} {alpha : 𝕜} {x : VecV L} (hx : x.Inj)
    {μ : Store L 𝕜} (hd : NoDrop p x.n (ventry μ x)) :
    wp (larfg (hhOps p) store alpha x) μ
      (fun r ν => OnlyV x μ ν ∧ LarfgRes store alpha x.n (ventry μ x) r (ventry ν x)) := by
  obtain ⟨N, hN⟩ : ∃ N : ℝ, N = ∑ i ∈ range x.n, ‖ventry μ x i‖ ^ 2 := ⟨_, rfl⟩
  have hN0 : 0 ≤ N := by rw [hN]; exact Finset.sum_nonneg fun i _ => by positivity
  have hz : N = 0 ↔ ∀ i, i < x.n → ventry μ x i = 0 := by
    rw [hN, Finset.sum_eq_zero_iff_of_nonneg fun i _ => by positivity]
    simp
  unfold larfg
  simp only [wp_bind]
  refine wp_conseq (wp_nrm2 hl x μ hd) ?_
  rintro _ ν ⟨rfl, rfl⟩
  rw [← hN]
  have hc : (Real.sqrt N > 0 ∨ (hhOps p : HhOps 𝕜 ℝ).imR alpha ≠ 0) ↔
      ¬ ((∀ i, i < x.n → ventry ν x i = 0) ∧ RCLike.im alpha = 0) := by
    show (Real.sqrt N > 0 ∨ RCLike.im alpha ≠ 0) ↔ _
    rw [← hz, not_and_or]
    refine or_congr ?_ Iff.rfl
    rw [gt_iff_lt, Real.sqrt_pos]
    exact ⟨fun h => h.ne', fun h => lt_of_le_of_ne hN0 (Ne.symm h)⟩
  by_cases hcase : (∀ i, i < x.n → ventry ν x i = 0) ∧ RCLike.im alpha = 0
  · rw [if_neg (fun h => hc.1 h hcase), wp_pure]
    refine ⟨fun _ _ => rfl, ?_, fun _ _ => ⟨rfl, fun _ _ => rfl⟩, fun h => absurd hcase h⟩
    rw [if_pos hcase]
    have := RCLike.re_add_im alpha
    rw [hcase.2] at this
    simpa using this.symm
  rw [if_pos (hc.2 hcase)]
  have hbne : betaOf alpha N ≠ 0 := betaOf_ne alpha hN0 (by
    rcases not_and_or.1 hcase with h | h
    · exact Or.inl (lt_of_le_of_ne hN0 (fun h0 => h (hz.1 h0.symm)))
    · exact Or.inr h)
  have hsne := sub_betaOf_ne alpha hbne
  simp only [larfgBeta_eq hl alpha hN0]
  have fin : ∀ (r : 𝕜 × 𝕜) (ν' : Store L 𝕜), (r.1 = ((betaOf alpha N : ℝ) : 𝕜) ∧
        r.2 = (if store = .Rowwise then star ((((betaOf alpha N : ℝ) : 𝕜) - alpha) / ((betaOf alpha N : ℝ) : 𝕜))
          else (((betaOf alpha N : ℝ) : 𝕜) - alpha) / ((betaOf alpha N : ℝ) : 𝕜)) ∧
        VState x ν (fun i => ventry ν x i / (alpha - ((betaOf alpha N : ℝ) : 𝕜))) ν') →
      OnlyV x ν ν' ∧ LarfgRes store alpha x.n (ventry ν x) r (ventry ν' x) := by
    rintro r ν' ⟨e1, e2, e3⟩
    refine ⟨e3.frame, ?_, fun h1 h2 => absurd ⟨h1, h2⟩ hcase, fun _ => ?_⟩
    · rw [if_neg hcase, e1, hN]
    · rw [e1]
      exact ⟨by simpa using hbne, hsne, e2, e3.val⟩
  have h0 : VState x ν (ventry ν x) ν := VState.init x ν _ (fun _ _ => rfl)
  split
  · rename_i hsm
    simp only [wp_bind]
    have hsm' : |betaOf alpha N| < 1 := lt_of_lt_of_le hsm hl.hmin_one
    refine wp_conseq (wp_larfgScale hl hx 20 0 (betaOf alpha N) alpha _ ν h0 hsm') ?_
    rintro ⟨knt, b, a⟩ ν1 ⟨j, e1, e2, e3, e4, e5⟩
    simp only at e1 e2 e3 e5
    obtain rfl : knt = j := by omega
    have hp := hl.hmin_pos
    have hsp : (0 : ℝ) < (1 / p.hmin) ^ knt := by positivity
    have hsum : ∑ i ∈ range x.n, ‖ventry ν1 x i‖ ^ 2 = ((1 / p.hmin) ^ knt) ^ 2 * N := by
      rw [hN, Finset.mul_sum]
      refine Finset.sum_congr rfl fun i hi => ?_
      rw [show ventry ν1 x i = _ from e4.val i (mem_range.1 hi), norm_mul, RCLike.norm_ofReal,
        abs_of_pos hsp, mul_pow]
    have hnd : NoDrop p x.n (ventry ν1 x) := by
      left
      intro i hi
      have h1 : ‖ventry ν1 x i‖ ^ 2 ≤ ((1 / p.hmin) ^ knt) ^ 2 * N := by
        rw [← hsum]
        exact Finset.single_le_sum (f := fun i => ‖ventry ν1 x i‖ ^ 2) (fun _ _ => by positivity) (mem_range.2 hi)
      have h2 : ‖ventry ν1 x i‖ ^ 2 ≤ |b| ^ 2 := by
        rw [e2, sq_abs, mul_pow, betaOf_sq alpha hN0]
        have : 0 ≤ ‖alpha‖ ^ 2 * ((1 / p.hmin) ^ knt) ^ 2 := by positivity
        linarith
      have h3 : ‖ventry ν1 x i‖ ≤ |b| := by
        exact le_of_sq_le_sq h2 (abs_nonneg _)
      have := hl.tbig_one
      linarith
    refine wp_conseq (wp_nrm2 hl x ν1 hnd) ?_
    rintro _ ν2 ⟨rfl, rfl⟩
    rw [larfgBeta_eq hl _ (by rw [hsum]; positivity), hsum]
    simp only [e3]
    rw [betaOf_scale alpha hsp]
    exact wp_conseq (wp_larfgFinish hl hx knt e4 hsne) fin
  · have h1 : VState x ν (fun i => (((1 / p.hmin) ^ 0 : ℝ) : 𝕜) * ventry ν x i) ν :=
      h0.congr (fun i _ => by simp)
    have := wp_larfgFinish (store := store) hl hx 0 h1 hsne
    rw [pow_zero, one_mul, RCLike.ofReal_one, mul_one] at this
    exact wp_conseq this fin

end TLA
