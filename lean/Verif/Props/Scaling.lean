import Verif.Proofs.Region
import Verif.Props.Region
import Mathlib.Algebra.Order.Archimedean.Basic
import Mathlib.Tactic.FieldSimp
import Mathlib.Tactic.Ring
import Mathlib.Tactic.Positivity
import Mathlib.Tactic.LinearCombination
import Mathlib.Data.Complex.Basic

/-! # C26 lascl, C27 rscl -/

set_option linter.unusedTactic false
set_option linter.unreachableTactic false
set_option linter.unusedSectionVars false

namespace TLA
variable {L T : Type} [DecidableEq L]

section lascl
variable [Field T] {R : Type} [Field R] [LinearOrder R] [IsStrictOrderedRing R]

/-- One pass multiplies the region by `c`. -/
theorem wp_scaleRegion (c : T) (A : MatV L) (hA : A.Inj) (lo hi : Nat → Nat)
    (hhi : ∀ j, j < A.n → lo j < hi j → hi j ≤ A.m) {μ0 μ : Store L T} {G : Nat → Nat → T}
    (h : MState A μ0 G μ) :
    wp (scaleRegion c A lo hi) μ (fun _ ν => MState A μ0 (fun i j =>
      if lo j ≤ i ∧ i < hi j then G i j * c else G i j) ν) := by
  unfold scaleRegion
  refine wp_conseq (wp_region (fun i j => G i j * c) h hA (le_refl _)
    (fun j _ hj hl => hhi j hj hl) ?_) ?_
  · intro j i ν _ hj h1 h2 hν
    have := hhi j hj (by omega)
    simp only [wp_modify]
    refine ⟨⟨by omega, hj⟩, ?_⟩
    rw [hν.at i j (by omega) hj (v := G i j) (by rw [if_neg (by omega)])]
  · intro _ ν hν
    exact hν.congr (fun i j _ hj => if_congr (by omega) rfl rfl)

/-- The factors chosen by the loop multiply to `a/b`. -/
theorem wp_lasclLoop [Archimedean R] (emb : R →+* T) (small big b : R) (hs0 : 0 < small)
    (hs1 : small < 1) (hsb : small * big = 1) (hb : b ≠ 0)
    (A : MatV L) (P : Nat → Nat → Prop) [∀ i j, Decidable (P i j)] (pass : T → M L T Unit)
    (μ0 : Store L T)
    (hpass : ∀ (c : T) (G : Nat → Nat → T) (μ : Store L T), MState A μ0 G μ →
      wp (pass c) μ (fun _ ν => MState A μ0 (fun i j => if P i j then G i j * c else G i j) ν))
    (fuel : Nat) :
    ∀ (a_ b_ q : R) (G : Nat → Nat → T) (μ : Store L T), MState A μ0 G μ →
      (b_ = b ∧ (|a_| * small ^ (fuel - 2) ≤ |b| ∧ 2 ≤ fuel) ∨ b_ = b * small ∧ 1 ≤ fuel) →
      a_ / b_ = q →
      wp (lasclLoop emb pass small big b fuel a_ b_) μ (fun _ ν => MState A μ0 (fun i j =>
        if P i j then G i j * emb q else G i j) ν) := by
  have hbig : big = small⁻¹ := eq_inv_of_mul_eq_one_right hsb
  have hsn : small ≠ 0 := hs0.ne'
  have hbs : b * small ≠ b := by
    intro e
    have : small = 1 := mul_left_cancel₀ hb (by rw [e, mul_one])
    exact absurd this hs1.ne
  induction fuel with
  | zero =>
    rintro a_ b_ q G μ h (⟨_, _, h2⟩ | ⟨_, h2⟩) _ <;> omega
  | succ fuel ih =>
    intro a_ b_ q G μ h hst hq
    have hfin : wp (do
        pass (emb (a_ / b_))
        if true = true then pure () else lasclLoop emb pass small big b fuel a_ b_) μ
        (fun _ ν => MState A μ0 (fun i j => if P i j then G i j * emb q else G i j) ν) := by
      simp only [wp_bind, if_true, wp_pure]
      rw [hq]
      exact hpass _ G μ h
    unfold lasclLoop lasclStep
    rcases hst with ⟨rfl, hle, h2⟩ | ⟨rfl, h2⟩
    · simp only [hbs, if_false]
      by_cases h1 : a_ / big = a_
      · simp only [h1, if_true]
        have ha : a_ = 0 := by
          rw [hbig, div_inv_eq_mul] at h1
          by_contra hne
          exact absurd (mul_left_cancel₀ hne (by rw [h1, mul_one]) : small = 1) hs1.ne
        subst ha
        simp only [wp_bind, if_true, wp_pure]
        refine wp_conseq (hpass _ G μ h) (fun _ ν hν => hν.congr (fun i j _ _ => ?_))
        rw [← hq, zero_div]
      · simp only [h1, if_false]
        by_cases h3 : |b_ * small| > |a_| ∧ a_ ≠ 0
        · simp only [h3, if_true, ne_eq, not_false_eq_true, and_self]
          simp only [wp_bind]
          refine wp_conseq (hpass _ G μ h) (fun _ ν hν => ?_)
          simp only [Bool.false_eq_true, if_false]
          refine wp_conseq (ih a_ (b_ * small) (q / small) _ ν hν (Or.inr ⟨rfl, by omega⟩)
            (by rw [← hq]; field_simp)) (fun _ ν hν => hν.congr (fun i j _ _ => ?_))
          by_cases hP : P i j
          · simp only [hP, if_true]
            rw [mul_assoc, ← map_mul]; congr 2; field_simp
          · simp only [hP, if_false]
        · simp only [h3, if_false]
          by_cases h4 : |a_ / big| > |b_|
          · simp only [h4, if_true]
            simp only [wp_bind]
            refine wp_conseq (hpass _ G μ h) (fun _ ν hν => ?_)
            simp only [Bool.false_eq_true, if_false]
            have hab : a_ / big = a_ * small := by rw [hbig, div_inv_eq_mul]
            have habs : |a_ / big| = |a_| * small := by rw [hab, abs_mul, abs_of_pos hs0]
            have hf : 3 ≤ fuel + 1 := by
              by_contra hlt
              have e1 : fuel + 1 - 2 = 0 := by omega
              rw [e1, pow_zero, mul_one] at hle
              rw [habs] at h4
              have := mul_le_of_le_one_right (abs_nonneg a_) hs1.le
              exact absurd (lt_of_lt_of_le h4 (this.trans hle)) (lt_irrefl _)
            refine wp_conseq (ih (a_ / big) b_ (q * small) _ ν hν (Or.inl ⟨rfl, ?_, by omega⟩)
              (by rw [← hq, hab]; field_simp)) (fun _ ν hν => hν.congr (fun i j _ _ => ?_))
            · rw [habs, mul_assoc, ← pow_succ', show fuel - 2 + 1 = fuel + 1 - 2 by omega]
              exact hle
            · by_cases hP : P i j
              · simp only [hP, if_true]
                rw [mul_assoc, ← map_mul, hbig]; congr 2; field_simp
              · simp only [hP, if_false]
          · simp only [h4, if_false]
            exact hfin
    · simp only [if_true]
      exact hfin

/-- A number of passes after which lascl is certainly done. -/
theorem lascl_fuel [Archimedean R] (small a b : R) (hs0 : 0 < small) (hs1 : small < 1) (hb : b ≠ 0) :
    ∃ N, ∀ fuel, N ≤ fuel → |a| * small ^ (fuel - 2) ≤ |b| ∧ 2 ≤ fuel := by
  obtain ⟨k, hk⟩ := exists_pow_lt_of_lt_one (show (0 : R) < |b| / (|a| + 1) by positivity) hs1
  refine ⟨k + 2, fun fuel hf => ⟨?_, by omega⟩⟩
  have h1 : small ^ (fuel - 2) ≤ small ^ k := pow_le_pow_of_le_one hs0.le hs1.le (by omega)
  have h2 : small ^ (fuel - 2) ≤ |b| / (|a| + 1) := h1.trans hk.le
  have h3 : (0 : R) < |a| + 1 := by positivity
  calc |a| * small ^ (fuel - 2) ≤ (|a| + 1) * small ^ (fuel - 2) := by
        apply mul_le_mul_of_nonneg_right (by linarith [abs_nonneg a]) (by positivity)
    _ ≤ (|a| + 1) * (|b| / (|a| + 1)) := mul_le_mul_of_nonneg_left h2 h3.le
    _ = |b| := mul_div_cancel₀ _ h3.ne'

/-- The bounds of each pass describe the selected part. -/
theorem wp_lasclPass (uplo : Uplo) (c : T) (A : MatV L) (hA : A.Inj)
    (hH : uplo = .UpperHessenberg → A.n < A.m ∨ A.m = 0)
    {μ0 μ : Store L T} {G : Nat → Nat → T} (h : MState A μ0 G μ) :
    wp (lasclPass uplo c A) μ (fun _ ν => MState A μ0 (fun i j =>
      if inTri uplo i j then G i j * c else G i j) ν) := by
  have main : ∀ lo hi : Nat → Nat, (∀ j, j < A.n → lo j < hi j → hi j ≤ A.m) →
      (∀ i j, i < A.m → j < A.n → ((lo j ≤ i ∧ i < hi j) ↔ inTri uplo i j)) →
      wp (scaleRegion c A lo hi) μ (fun _ ν => MState A μ0 (fun i j =>
        if inTri uplo i j then G i j * c else G i j) ν) := by
    intro lo hi h1 h2
    exact wp_conseq (wp_scaleRegion c A hA lo hi h1 h) (fun _ ν hν =>
      hν.congr (fun i j hi hj => if_congr (h2 i j hi hj).symm rfl rfl))
  unfold lasclPass
  cases uplo <;> refine main _ _ ?_ ?_
  all_goals first
    | (intro j hj h; omega)
    | (intro i j hi hj; simp only [inTri, iff_true]; omega)
    | (intro i j hi hj; simp only [inTri]; omega)
    | (intro j hj h
       rcases hH rfl with hm | hm
       · rw [if_pos (by omega)]; omega
       · rw [if_neg (by omega)])
    | (intro j hj h; split at h <;> split <;> omega)
    | (intro i j hi hj; simp only [inTri]; split <;> omega)

/-- **C26** lascl terminates and multiplies exactly the selected part by `a/b`, whatever the sizes
of `a` and `b` and however many passes that takes.  `fuel` bounds the number of passes; some bound
always suffices.  (`UpperHessenberg` needs more rows than columns, see C26_hessenberg_out_of_range.)
-/
theorem C26_lascl [Archimedean R] (emb : R →+* T) (small big : R) (hs0 : 0 < small)
    (hs1 : small < 1) (hsb : small * big = 1) (uplo : Uplo) (b a : R) (hb : b ≠ 0)
    (A : MatV L) (hA : A.Inj) (hH : uplo = .UpperHessenberg → A.n < A.m ∨ A.m = 0)
    (μ : Store L T) :
    ∃ N, ∀ fuel, N ≤ fuel → ∃ ν, lascl emb small big fuel uplo b a A μ = (.ok 0, ν) ∧
      (∀ i j, i < A.m → j < A.n → entry ν A i j =
        if inTri uplo i j then entry μ A i j * emb (a / b) else entry μ A i j) ∧
      ∀ l, ¬ A.Owns l → ν l = μ l := by
  obtain ⟨N, hN⟩ := lascl_fuel small a b hs0 hs1 hb
  refine ⟨N, fun fuel hf => ?_⟩
  have main : wp (lascl emb small big fuel uplo b a A) μ (fun r ν => r = 0 ∧
      MState A μ (fun i j => if inTri uplo i j then entry μ A i j * emb (a / b)
        else entry μ A i j) ν) := by
    have h0 : MState A μ (entry μ A) μ := MState.init A μ _ (fun _ _ _ _ => rfl)
    unfold lascl
    simp only [wp_bind, wp_check, hb, decide_false, Bool.not_false, if_true]
    split
    · refine ⟨rfl, h0.congr (fun i j hi hj => by omega)⟩
    · simp only [wp_bind, wp_pure, true_and]
      exact wp_lasclLoop emb small big b hs0 hs1 hsb hb A (inTri uplo) _ μ
        (fun c G μ h => wp_lasclPass uplo c A hA hH h) fuel a b (a / b) _ μ h0
        (Or.inl ⟨rfl, hN fuel hf⟩) rfl
  obtain ⟨r, ν, e, rfl, h⟩ := wp_iff.1 main
  exact ⟨ν, e, fun i j hi hj => h.val i j hi hj, h.frame⟩

/-- **C26** the BandAccess version multiplies exactly the band. -/
theorem C26_band [Archimedean R] (emb : R →+* T) (small big : R) (hs0 : 0 < small)
    (hs1 : small < 1) (hsb : small * big = 1) (kl ku : Nat) (b a : R) (hb : b ≠ 0)
    (A : MatV L) (hkl : kl < A.m) (hku : ku < A.n) (hA : A.Inj)
    (μ : Store L T) :
    ∃ N, ∀ fuel, N ≤ fuel → ∃ ν, lasclBand emb small big fuel kl ku b a A μ = (.ok 0, ν) ∧
      (∀ i j, i < A.m → j < A.n →
        (inBand kl ku i j → entry ν A i j = entry μ A i j * emb (a / b)) ∧
        (¬ inBand kl ku i j → entry ν A i j = entry μ A i j)) ∧
      ∀ l, ¬ A.Owns l → ν l = μ l := by
  classical
  obtain ⟨N, hN⟩ := lascl_fuel small a b hs0 hs1 hb
  refine ⟨N, fun fuel hf => ?_⟩
  have main : wp (lasclBand emb small big fuel kl ku b a A) μ (fun r ν => r = 0 ∧
      MState A μ (fun i j => if inBand kl ku i j then entry μ A i j * emb (a / b)
        else entry μ A i j) ν) := by
    have h0 : MState A μ (entry μ A) μ := MState.init A μ _ (fun _ _ _ _ => rfl)
    have hc : ¬ (kl ≥ A.m ∨ ku ≥ A.n) := by omega
    unfold lasclBand
    simp only [wp_bind, wp_check, hb, hc, decide_false, Bool.not_false, if_true]
    rw [if_neg (by omega)]
    simp only [wp_bind, wp_pure, true_and]
    refine wp_lasclLoop emb small big b hs0 hs1 hsb hb A (inBand kl ku) _ μ
        (fun c G μ h => ?_) fuel a b (a / b) _ μ h0
        (Or.inl ⟨rfl, hN fuel hf⟩) rfl
    refine wp_conseq (wp_scaleRegion c A hA _ _ (fun j _ _ => Nat.min_le_left _ _) h)
      (fun _ ν hν => hν.congr (fun i j hi hj => if_congr ?_ rfl rfl))
    unfold inBand
    split <;> omega
  obtain ⟨r, ν, e, rfl, h⟩ := wp_iff.1 main
  refine ⟨ν, e, fun i j hi hj => ⟨fun hin => ?_, fun hin => ?_⟩, h.frame⟩
  · have := h.val i j hi hj
    simp only [hin, if_true] at this
    exact this
  · have := h.val i j hi hj
    simp only [hin, if_false] at this
    exact this

/-- **C26** a zero denominator is rejected with nothing written. -/
theorem C26_rejected (emb : R → T) (small big a : R) (fuel : Nat) (uplo : Uplo) (A : MatV L)
    (μ : Store L T) : lascl emb small big fuel uplo 0 a A μ = (.error .check, μ) := by
  unfold lascl
  simp [check, bind, M.bind, M.fail]

/-- **C26 (deviation)** with `UpperHessenberg` and at least as many columns as rows the code
accesses entry `(m, m-1)`, one row past the end: the call never ends normally. -/
theorem C26_hessenberg_out_of_range (emb : R → T) (small big b a : R) (hb : b ≠ 0) (fuel : Nat)
    (A : MatV L) (hm : 0 < A.m) (hmn : A.m ≤ A.n) (μ : Store L T) :
    ∃ ν, lascl emb small big (fuel + 1) .UpperHessenberg b a A μ = (.error .ub, ν) := by
  have key : ∀ (c : T) (μ : Store L T), wp (lasclPass .UpperHessenberg c A) μ (fun _ _ => False)
      (fun e _ => e = .ub) := by
    intro c μ
    show wp (scaleRegion c A _ _) μ _ _
    unfold scaleRegion
    refine wp_forUp_' (fun j _ => j ≤ A.m - 1) (by omega) ?_ ?_
    · intro j ν _ hj hjm
      beta_reduce
      rw [if_pos (by omega)]
      refine wp_forUp_' (fun k _ => k ≤ A.m) (by omega) ?_ ?_
      · intro i ν' _ hi hk
        unfold MatV.modify
        simp only [wp_bind, wp_get_full]
        split
        · rename_i hin
          unfold wp MatV.set
          simp only [hin, and_self, if_true]
          omega
        · trivial
      · intro ν' hk; omega
    · intro ν hjm; omega
  have main : wp (lascl emb small big (fuel + 1) .UpperHessenberg b a A) μ (fun _ _ => False)
      (fun e _ => e = .ub) := by
    unfold lascl
    simp only [wp_bind, wp_check, hb, decide_false, Bool.not_false, if_true]
    rw [if_neg (by omega)]
    simp only [wp_bind]
    unfold lasclLoop
    simp only [wp_bind]
    exact wp_mono (key _ μ) (fun _ _ h => h.elim) (fun _ _ h => h)
  unfold wp at main
  rcases hx : lascl emb small big (fuel + 1) .UpperHessenberg b a A μ with ⟨r, ν⟩
  rw [hx] at main
  cases r with
  | ok a => exact main.elim
  | error e' => exact ⟨ν, by rw [show e' = .ub from main]⟩

end lascl

/-! ### rscl -/

section rscl
variable [Field T] {R : Type} [Field R] [LinearOrder R] [IsStrictOrderedRing R]

theorem wp_rsclReal (emb : R →+* T) (safeMin safeMax alpha : R) (hs : safeMin * safeMax = 1)
    (ha : alpha ≠ 0) (x : VecV L) (hx : x.Inj) (μ : Store L T) :
    wp (rsclReal emb safeMin safeMax alpha x) μ
      (fun _ ν => VState x μ (fun i => ventry μ x i / emb alpha) ν) := by
  have h0 : VState x μ (ventry μ x) μ := VState.init x μ _ (fun _ _ => rfl)
  have hem : emb alpha ≠ 0 := by simpa using ha
  unfold rsclReal
  simp only
  split
  · simp only [wp_bind]
    refine wp_conseq (wp_scal hx h0) (fun _ ν h => wp_conseq (wp_scal hx h)
      (fun _ ν h => h.congr (fun i _ => ?_)))
    rw [mul_assoc, ← map_mul, eq_comm, eq_div_iff hem, mul_assoc, ← map_mul,
      show safeMin * (safeMax / alpha) * alpha = 1 by rw [mul_assoc, div_mul_cancel₀ _ ha, hs],
      map_one, mul_one]
  · split
    · simp only [wp_bind]
      refine wp_conseq (wp_scal hx h0) (fun _ ν h => wp_conseq (wp_scal hx h)
        (fun _ ν h => h.congr (fun i _ => ?_)))
      rw [mul_assoc, ← map_mul, eq_comm, eq_div_iff hem, mul_assoc, ← map_mul,
        show safeMin / alpha * safeMax * alpha = 1 by
          rw [mul_right_comm, div_mul_cancel₀ _ ha, hs],
        map_one, mul_one]
    · refine wp_conseq (wp_scal hx h0) (fun _ ν h => h.congr (fun i _ => ?_))
      rw [map_div₀, map_one, mul_one_div]

/-- **C27** rscl with a real `alpha ≠ 0` overwrites `x` by `x/alpha`, whichever branch is taken;
nothing else is written. -/
theorem C27_rscl_real (emb : R →+* T) (safeMin safeMax alpha : R) (hs : safeMin * safeMax = 1)
    (ha : alpha ≠ 0) (x : VecV L) (hx : x.Inj) (μ : Store L T) :
    ∃ ν, rsclReal emb safeMin safeMax alpha x μ = (.ok (), ν) ∧
      (∀ i, i < x.n → ventry ν x i = ventry μ x i / emb alpha) ∧
      ∀ l, ¬ x.Owns l → ν l = μ l := by
  obtain ⟨ν, e, h⟩ := wp_unit (wp_rsclReal emb safeMin safeMax alpha hs ha x hx μ)
  exact ⟨ν, e, h.val, h.frame⟩

/-- **C27** rscl with a complex `alpha = aR + aI·I ≠ 0` overwrites `x` by `x/alpha`, whichever
branch is taken and whatever the overflow tests answer; nothing else is written. -/
theorem C27_rscl_complex (emb : R →+* T) (I : T) (hI : I * I = -1) (isinf : R → Bool)
    (safeMin safeMax : R) (hs : safeMin * safeMax = 1) (aR aI : R) (ha : aR ≠ 0 ∨ aI ≠ 0)
    (x : VecV L) (hx : x.Inj) (μ : Store L T) :
    ∃ ν, rsclComplex emb (fun r i => emb r + emb i * I) isinf safeMin safeMax aR aI x μ = (.ok (), ν) ∧
      (∀ i, i < x.n → ventry ν x i = ventry μ x i / (emb aR + emb aI * I)) ∧
      ∀ l, ¬ x.Owns l → ν l = μ l := by
  have h0 : VState x μ (ventry μ x) μ := VState.init x μ _ (fun _ _ => rfl)
  have hsm : safeMin ≠ 0 := left_ne_zero_of_mul_eq_one hs
  have hN : aR * aR + aI * aI ≠ 0 := by
    rcases ha with h | h
    · have := mul_self_pos.2 h
      have := mul_self_nonneg aI
      positivity
    · have := mul_self_pos.2 h
      have := mul_self_nonneg aR
      positivity
  have halpha : emb aR + emb aI * I ≠ 0 := by
    intro e
    have : (emb aR + emb aI * I) * (emb aR - emb aI * I) = emb (aR * aR + aI * aI) := by
      rw [map_add, map_mul, map_mul]
      linear_combination (- emb aI * emb aI) * hI
    rw [e, zero_mul, eq_comm, map_eq_zero] at this
    exact hN this
  -- one product in the complex numbers
  have key : ∀ u v s : R, u * aR - v * aI = s → u * aI + v * aR = 0 →
      (emb u + emb v * I) * (emb aR + emb aI * I) = emb s := by
    intro u v s h1 h2
    rw [← h1]
    have h2' : emb u * emb aI + emb v * emb aR = 0 := by rw [← map_mul, ← map_mul, ← map_add, h2, map_zero]
    rw [map_sub, map_mul, map_mul]
    linear_combination (emb v * emb aI) * hI + I * h2'
  have one_step : ∀ c : T, c * (emb aR + emb aI * I) = 1 →
      wp (scal c x) μ (fun _ ν => VState x μ (fun i => ventry μ x i / (emb aR + emb aI * I)) ν) := by
    intro c hc
    refine wp_conseq (wp_scal hx h0) (fun _ ν h => h.congr (fun i _ => ?_))
    rw [eq_comm, eq_div_iff halpha, mul_assoc, hc, mul_one]
  have two_step : ∀ c d : T, c * d * (emb aR + emb aI * I) = 1 →
      wp (scal c x >>= fun _ => scal d x) μ
        (fun _ ν => VState x μ (fun i => ventry μ x i / (emb aR + emb aI * I)) ν) := by
    intro c d hc
    simp only [wp_bind]
    refine wp_conseq (wp_scal hx h0) (fun _ ν h => wp_conseq (wp_scal hx h)
      (fun _ ν h => h.congr (fun i _ => ?_)))
    rw [eq_comm, eq_div_iff halpha, mul_assoc, mul_assoc, ← mul_assoc c, hc, mul_one]
  have main : wp (rsclComplex emb (fun r i => emb r + emb i * I) isinf safeMin safeMax aR aI x) μ
      (fun _ ν => VState x μ (fun i => ventry μ x i / (emb aR + emb aI * I)) ν) := by
    unfold rsclComplex
    simp only
    split
    · rename_i h
      subst h
      have : aR ≠ 0 := by rcases ha with h | h <;> simp_all
      simpa using wp_rsclReal emb safeMin safeMax aR hs this x hx μ
    · rename_i haI
      split
      · rename_i h
        subst h
        split
        · refine two_step _ _ ?_
          rw [mul_assoc, key _ _ safeMax (by field_simp; ring) (by ring), ← map_mul, hs, map_one]
        · split
          · refine two_step _ _ ?_
            rw [mul_right_comm, key _ _ safeMin (by field_simp; ring) (by ring), ← map_mul, hs, map_one]
          · refine one_step _ ?_
            rw [key _ _ 1 (by field_simp; ring) (by ring), map_one]
      · rename_i haR
        have hN' : aR ^ 2 + aI ^ 2 ≠ 0 := by simpa [pow_two] using hN
        have hN'' : aI ^ 2 + aR ^ 2 ≠ 0 := by rwa [add_comm]
        have ea : aR + aI * (aI / aR) = (aR ^ 2 + aI ^ 2) / aR := by field_simp
        have eb : aI + aR * (aR / aI) = (aR ^ 2 + aI ^ 2) / aI := by field_simp; ring
        have gen : ∀ s : R, (emb (s / ((aR ^ 2 + aI ^ 2) / aR)) + emb (-s / ((aR ^ 2 + aI ^ 2) / aI)) * I)
            * (emb aR + emb aI * I) = emb s := by
          intro s
          refine key _ _ s ?_ ?_
          · field_simp; ring
          · field_simp; ring
        rw [ea, eb]
        split
        · refine two_step _ _ ?_
          rw [mul_right_comm, gen, ← map_mul, hs, map_one]
        · split
          · split
            · refine one_step _ ?_
              rw [gen, map_one]
            · split
              · split
                · refine two_step _ _ ?_
                  rw [show safeMin * aR + safeMin * (aI * (aI / aR))
                      = safeMin * ((aR ^ 2 + aI ^ 2) / aR) by rw [← ea]; ring,
                    show safeMin * aI + aR * (safeMin * aR / aI)
                      = safeMin * ((aR ^ 2 + aI ^ 2) / aI) by rw [← eb]; ring,
                    ← div_div, ← div_div, mul_assoc, neg_div, gen, ← map_mul, mul_one_div,
                    div_self hsm, map_one]
                · refine two_step _ _ ?_
                  rw [show safeMin * aR + aI * (safeMin * aI / aR)
                      = safeMin * ((aR ^ 2 + aI ^ 2) / aR) by rw [← ea]; ring,
                    show safeMin * aI + safeMin * (aR * (aR / aI))
                      = safeMin * ((aR ^ 2 + aI ^ 2) / aI) by rw [← eb]; ring,
                    ← div_div, ← div_div, mul_assoc, neg_div, gen, ← map_mul, mul_one_div,
                    div_self hsm, map_one]
              · refine two_step _ _ ?_
                rw [mul_assoc, gen, ← map_mul, hs, map_one]
          · refine one_step _ ?_
            rw [gen, map_one]
  obtain ⟨ν, e, h⟩ := wp_unit main
  exact ⟨ν, e, h.val, h.frame⟩

end rscl

/-- The hypotheses are met over ℝ ⊂ ℂ. -/
example : (0 : ℝ) < 1/8 ∧ (1/8 : ℝ) < 1 ∧ (1/8 : ℝ) * 8 = 1 ∧ Complex.I * Complex.I = -1 ∧
    (mkM 0 3 2).Inj ∧ (mkV 0 3).Inj := by
  refine ⟨by norm_num, by norm_num, by norm_num, Complex.I_mul_I, ?_, ?_⟩ <;> adm

end TLA
