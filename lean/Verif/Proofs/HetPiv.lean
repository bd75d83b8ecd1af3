import Verif.Proofs.HetCol
set_option linter.unusedTactic false
set_option linter.unusedVariables false
set_option linter.unusedSimpArgs false
set_option linter.unreachableTactic false
set_option linter.unusedSectionVars false

/-! # hetf3: the pivot search -/

namespace TLA
open Finset
variable {L 𝕜 : Type} [DecidableEq L] [RCLike 𝕜] [DecidableEq 𝕜]

/-- `abs1`. -/
noncomputable def ab1 (x : 𝕜) : ℝ := |RCLike.re x| + |RCLike.im x|

/-- The scalar operations of hetrf in exact arithmetic; `iamax` compares by `abs1`. -/
noncomputable def hetOps (isReal : Bool) (isinf : ℝ → Bool) (safeMin safeMax : ℝ) : LuOps 𝕜 ℝ :=
  { luOps isReal isinf safeMin safeMax with absf := fun x => .fin (ab1 x), absQ := fun x => .fin (ab1 x / 4) }

variable {isReal : Bool} {isinf : ℝ → Bool} {safeMin safeMax : ℝ}

theorem ab1_nonneg (x : 𝕜) : 0 ≤ ab1 x := add_nonneg (abs_nonneg _) (abs_nonneg _)

theorem norm_le_ab1 (x : 𝕜) : ‖x‖ ≤ ab1 x := by
  have h : ‖x‖ ^ 2 = |RCLike.re x| ^ 2 + |RCLike.im x| ^ 2 := by
    rw [sq_abs, sq_abs, RCLike.norm_sq_eq_def]; ring
  refine (abs_le_of_sq_le_sq' ?_ (ab1_nonneg x)).2
  rw [h]; unfold ab1
  nlinarith [mul_nonneg (abs_nonneg (RCLike.re x)) (abs_nonneg (RCLike.im x))]

theorem ab1_sq_le (x : 𝕜) : ab1 x ^ 2 ≤ 2 * ‖x‖ ^ 2 := by
  have h : ‖x‖ ^ 2 = |RCLike.re x| ^ 2 + |RCLike.im x| ^ 2 := by
    rw [sq_abs, sq_abs, RCLike.norm_sq_eq_def]; ring
  rw [h]; unfold ab1
  nlinarith [sq_nonneg (|RCLike.re x| - |RCLike.im x|)]

theorem ab1_eq_zero {x : 𝕜} : ab1 x = 0 ↔ x = 0 := by
  constructor
  · intro h
    exact norm_le_zero_iff.1 (h ▸ norm_le_ab1 x)
  · rintro rfl; simp [ab1]

theorem ab1_cj (x : 𝕜) {herm : Bool} : ab1 (cjH 𝕜 herm x) = ab1 x := by
  cases herm
  · rfl
  · rw [cjH_true]; unfold ab1
    rw [show star x = (starRingEnd 𝕜) x from rfl, RCLike.conj_re, RCLike.conj_im, abs_neg]

theorem hetOps_iamaxLaws : IamaxLaws (hetOps (𝕜 := 𝕜) isReal isinf safeMin safeMax).toIamaxOps
    (fun x => ab1 x) (fun x => ab1 x / 4) (fun _ => False) where
  nan_abs _ h := by simp [luOps, hetOps] at h
  inf_abs _ _ _ h := h.elim
  fin_abs x _ _ _ := ⟨rfl, lt_of_lt_of_le (by simp [luOps, hetOps]) (ab1_nonneg x)⟩
  quarter_abs _ _ _ := rfl
  real_no_overflow _ _ h := h
  mono _ _ _ _ _ _ _ h := h.elim

theorem wp_iamaxD {x : VecV L} {μ : Store L 𝕜} (hn : 0 < x.n) :
    wp (iamaxD (hetOps (𝕜 := 𝕜) isReal isinf safeMin safeMax) x) μ
      (fun k ν => μ = ν ∧ k < x.n ∧ ∀ i, i < x.n → ab1 (ventry μ x i) ≤ ab1 (ventry μ x k)) := by
  obtain ⟨k, e, hs, hk⟩ := C20_iamax_ec (hetOps_iamaxLaws (𝕜 := 𝕜) (isReal := isReal) (isinf := isinf)
    (safeMin := safeMin) (safeMax := safeMax)) x μ
  unfold iamaxD
  rw [wp_bind]
  refine wp_of_eq e ?_
  refine ⟨rfl, hk hn, ?_⟩
  cases hs with
  | empty h => omega
  | nan k h => exact absurd h.2.1 (by simp [luOps, hetOps])
  | inf k _ h => exact absurd h.2.1 (by simp [luOps, hetOps])
  | overflow k _ h => exact h.2.1.elim
  | finite k _ h => exact fun i hi => h.2.2.1 i hi trivial

variable {A W : MatV L} {n nb : Nat} {herm : Bool} {a w : Nat → Nat → 𝕜} {ν : Store L 𝕜}

theorem schurF_congr {j : Nat} {w' : Nat → Nat → 𝕜} (h : ∀ r c, c < j → w' r c = w r c) : schurF herm j a w' = schurF herm j a w := by
  funext i k
  unfold schurF
  congr 1
  exact Finset.sum_congr rfl fun c hc => by rw [h _ _ (mem_range.1 hc)]

/-- The outcome of the pivot search. -/
def PivOK (herm : Bool) (n j : Nat) (C w w' : Nat → Nat → 𝕜) : HetPiv → Prop
  | .zero => ∀ r, j ≤ r → r < n → C r j = 0 ∧ w' r j = 0
  | .one p => j ≤ p ∧ p < n ∧ C p p ≠ 0 ∧ ∀ r, j ≤ r → r < n → w' r j = C r p
  | .two p => j + 1 ≤ p ∧ p < n ∧ C p j ≠ 0 ∧ ‖C j j‖ * ‖C p p‖ < ‖C p j‖ ^ 2 ∧ ∀ r, j ≤ r → r < n → w' r j = C r j ∧ w' r (j + 1) = C r p

theorem LS.rdA (hz : HSz A W n nb) (hf : LS (hB A W) (pr a w) ν) {i c : Nat} (hi : i < n) (hc : c < n) : ν (A.cell i c) = a i c :=
  hf true i c (by show i < A.m; rw [hz.am]; omega) (by show c < A.n; rw [hz.an]; omega)
theorem LS.rdW (hz : HSz A W n nb) (hf : LS (hB A W) (pr a w) ν) {i c : Nat} (hi : i < n) (hc : c < nb) : ν (W.cell i c) = w i c :=
  hf false i c (by show i < W.m; rw [hz.wm]; omega) (by show c < W.n; rw [hz.wn]; omega)

set_option maxHeartbeats 1000000 in
theorem wp_hetLowPiv (hz : HSz A W n nb) {alpha : ℝ} (ha0 : 0 < alpha) (ha : 2 * alpha ^ 2 ≤ 1) {j : Nat} (hjb : j + 1 < nb) (hjn : j + 1 < n)
    (hf : LS (hB A W) (pr a w) ν) {C : Nat → Nat → 𝕜} (hC : C = schurF herm j a w)
    (hs : ∀ i k, j ≤ i → j ≤ k → i < n → k < n → C k i = cjH 𝕜 herm (C i k)) (hw : ∀ r, j ≤ r → r < n → w r j = C r j) :
    wp (hetLowPiv (hetOps isReal isinf safeMin safeMax) alpha herm A W n j) ν (fun r ν' => ∃ w', LS (hB A W) (pr a w') ν' ∧ Fr (hB A W) ν ν' ∧
      (∀ r l, l ≠ j → l ≠ j + 1 → w' r l = w r l) ∧ PivOK herm n j C w w' r) := by
  have am := hz.am; have an := hz.an; have wm := hz.wm; have wn := hz.wn
  unfold hetLowPiv
  simp only [wp_bind]
  rw [wp_get]
  refine ⟨⟨by omega, by omega⟩, ?_⟩
  refine wp_sliceCol (by omega) (by omega) (by omega) ?_
  refine wp_conseq (wp_iamaxD (by show 0 < n - (j + 1); omega)) ?_
  rintro t _ ⟨rfl, ht, hmax⟩
  replace ht : t < n - (j + 1) := ht
  have hab : ∀ x : 𝕜, (hetOps (𝕜 := 𝕜) isReal isinf safeMin safeMax).abs1 x = ab1 x := fun _ => rfl
  rw [wp_get]
  refine ⟨⟨by omega, by omega⟩, ?_⟩
  obtain ⟨ic, hic⟩ : ∃ ic, ic = j + 1 + t := ⟨_, rfl⟩
  simp only [hab]
  rw [hf.rdW hz (by omega) (by omega), hf.rdW hz (by omega) (by omega), ← hic, hw j (by omega) (by omega), hw ic (by omega) (by omega)]
  have cm : ∀ r, j + 1 ≤ r → r < n → ab1 (C r j) ≤ ab1 (C ic j) := by
    intro r h1 h2
    have := hmax (r - (j + 1)) (show r - (j + 1) < n - (j + 1) by omega)
    have e1 : ventry ν (W.colv (j + 1) n j) (r - (j + 1)) = C r j := by
      show ν (W.cell (j + 1 + (r - (j + 1))) j) = _
      rw [show j + 1 + (r - (j + 1)) = r by omega, hf.rdW hz (by omega) (by omega), hw r (by omega) h2]
    have e2 : ventry ν (W.colv (j + 1) n j) t = C ic j := by
      show ν (W.cell (j + 1 + t) j) = _
      rw [← hic, hf.rdW hz (by omega) (by omega), hw ic (by omega) (by omega)]
    rwa [e1, e2] at this
  by_cases c0 : max (ab1 (C ic j)) (ab1 (C j j)) = 0
  · rw [if_pos c0]
    have h1 : ab1 (C ic j) ≤ 0 := c0 ▸ le_max_left _ _
    have h2 : ab1 (C j j) ≤ 0 := c0 ▸ le_max_right _ _
    have key : ∀ r, j ≤ r → r < n → C r j = 0 := by
      intro r h3 h4
      rcases Nat.lt_or_ge j r with q | q
      · exact ab1_eq_zero.1 (le_antisymm ((cm r q h4).trans h1) (ab1_nonneg _))
      · obtain rfl : r = j := by omega
        exact ab1_eq_zero.1 (le_antisymm h2 (ab1_nonneg _))
    exact ⟨w, hf, Fr.refl, fun _ _ _ _ => rfl, fun r h3 h4 => ⟨key r h3 h4, by rw [hw r h3 h4, key r h3 h4]⟩⟩
  rw [if_neg c0]
  have n0 := ab1_nonneg (C ic j)
  have n1 := ab1_nonneg (C j j)
  by_cases c1 : alpha * ab1 (C ic j) ≤ ab1 (C j j)
  · rw [if_pos c1]
    refine ⟨w, hf, Fr.refl, fun _ _ _ _ => rfl, le_refl j, by omega, fun h => ?_, hw⟩
    have h0 : ab1 (C j j) = 0 := ab1_eq_zero.2 h
    rw [h0] at c1 c0
    refine c0 (max_eq_right ?_)
    by_contra q
    push Not at q
    have := mul_pos ha0 q
    linarith
  rw [if_neg c1]
  push Not at c1
  have cpos : 0 < ab1 (C ic j) := by
    by_contra q
    have : ab1 (C ic j) = 0 := by linarith
    rw [this, mul_zero] at c1
    linarith
  simp only [wp_bind]
  refine wp_conseq (wp_hetLowCol2 hz hjb (show j < ic by omega) (by omega) hf fun h => by
    rw [← hC]; exact (hs ic ic (by omega) (by omega) (by omega) (by omega)).symm) ?_
  rintro _ ν1 ⟨w1, h1, g1, o1, e1⟩
  rw [← hC] at e1
  refine wp_sliceCol (by omega) (by omega) (by omega) ?_
  refine wp_conseq (wp_iamaxD (by show 0 < ic - j; omega)) ?_
  rintro t2 _ ⟨rfl, ht2, hmax2⟩
  replace ht2 : t2 < ic - j := ht2
  rw [wp_get]
  refine ⟨⟨by omega, by omega⟩, ?_⟩
  rw [h1.rdW hz (by omega) (by omega)]
  have r0 : ab1 (C ic j) ≤ ab1 (w1 (j + t2) (j + 1)) := by
    have := hmax2 0 (show 0 < ic - j by omega)
    have q1 : ventry ν1 (W.colv j ic (j + 1)) 0 = C j ic := by
      show ν1 (W.cell (j + 0) (j + 1)) = _
      rw [h1.rdW hz (by omega) (by omega)]
      exact e1 j (by omega) (by omega)
    have q2 : ventry ν1 (W.colv j ic (j + 1)) t2 = w1 (j + t2) (j + 1) := by
      show ν1 (W.cell (j + t2) (j + 1)) = _
      rw [h1.rdW hz (by omega) (by omega)]
    rw [q1, q2, hs ic j (by omega) (by omega) (by omega) (by omega), ab1_cj] at this
    exact this
  have hrow : wp (if ic + 1 < n then do
        let x ← W.sliceCol (ic + 1) n (j + 1)
        let t ← iamaxD (hetOps isReal isinf safeMin safeMax) x
        let v ← W.get (ic + 1 + t) (j + 1)
        pure (max (ab1 (w1 (j + t2) (j + 1))) (ab1 v))
      else pure (ab1 (w1 (j + t2) (j + 1))) : M L 𝕜 ℝ) ν1 (fun rm ν' => ν1 = ν' ∧ ab1 (C ic j) ≤ rm) := by
    by_cases q : ic + 1 < n
    · rw [if_pos q]
      simp only [wp_bind]
      refine wp_sliceCol (by omega) (by omega) (by omega) ?_
      refine wp_conseq (wp_iamaxD (by show 0 < n - (ic + 1); omega)) ?_
      rintro t3 _ ⟨rfl, ht3, _⟩
      replace ht3 : t3 < n - (ic + 1) := ht3
      rw [wp_get]
      exact ⟨⟨by omega, by omega⟩, rfl, le_max_of_le_left r0⟩
    · rw [if_neg q]
      exact ⟨rfl, r0⟩
  refine wp_conseq hrow ?_
  rintro rm _ ⟨rfl, hrm⟩
  have rpos : 0 < rm := lt_of_lt_of_le cpos hrm
  rw [if_neg rpos.ne']
  have o1' : ∀ r l, l ≠ j → l ≠ j + 1 → w1 r l = w r l := fun r l _ h => o1 r l h
  by_cases c2 : alpha * ab1 (C ic j) * ab1 (C ic j) / rm ≤ ab1 (C j j)
  · rw [if_pos c2]
    refine ⟨w1, h1, g1, o1', le_refl j, by omega, fun h => ?_, fun r h3 h4 => by rw [o1 r j (by omega), hw r h3 h4]⟩
    rw [ab1_eq_zero.2 h] at c2
    have : 0 < alpha * ab1 (C ic j) * ab1 (C ic j) / rm := by positivity
    linarith
  rw [if_neg c2]
  push Not at c2
  simp only [wp_bind]
  rw [wp_get]
  refine ⟨⟨by omega, by omega⟩, ?_⟩
  rw [h1.rdW hz (by omega) (by omega), e1 ic (by omega) (by omega)]
  by_cases c3 : alpha * rm ≤ ab1 (C ic ic)
  · rw [if_pos c3]
    simp only [wp_bind]
    refine wp_sliceCol (by omega) (by omega) (by omega) ?_
    refine wp_sliceCol (by omega) (by omega) (by omega) ?_
    refine wp_conseq (wp_copy_F hz.fam (d := col false (j + 1) j n) (e := col false j j n) (by show j + 1 < W.n ∧ n ≤ W.m; omega) (by show j < W.n ∧ n ≤ W.m; omega) rfl
      (fun x y hx hy _ _ h => by simp only [Vd.c] at h; omega) h1) ?_
    rintro _ ν2 ⟨h2, g2⟩
    refine ⟨_, h2.congr (g := pr a (fun r l => if l = j ∧ j ≤ r ∧ r < n then w1 r (j + 1) else w1 r l)) ?_, g1.trans g2, ?_, by omega, by omega, fun h => ?_, ?_⟩
    · intro k r l _ _
      cases k
      · vds
        split_ifs with h
        · rw [show j + (r - j) = r by omega]
        · rfl
      · vds
    · intro r l q1 q2
      beta_reduce
      rw [if_neg (by omega), o1' r l q1 q2]
    · rw [ab1_eq_zero.2 h] at c3
      have := mul_pos ha0 rpos
      linarith
    · intro r h3 h4
      beta_reduce
      rw [if_pos (by omega), e1 r h3 h4]
  · rw [if_neg c3]
    push Not at c3
    refine ⟨w1, h1, g1, o1', by omega, by omega, fun h => by rw [h, ab1_eq_zero.2 rfl] at cpos; exact lt_irrefl _ cpos, ?_, fun r h3 h4 => ⟨by rw [o1 r j (by omega), hw r h3 h4], e1 r h3 h4⟩⟩
    have m1 : ‖C j j‖ * ‖C ic ic‖ ≤ ab1 (C j j) * ab1 (C ic ic) := mul_le_mul (norm_le_ab1 _) (norm_le_ab1 _) (norm_nonneg _) n1
    have m2 : ab1 (C j j) * ab1 (C ic ic) ≤ ab1 (C j j) * (alpha * rm) := mul_le_mul_of_nonneg_left c3.le n1
    have m3 : ab1 (C j j) * (alpha * rm) < alpha * ab1 (C ic j) * ab1 (C ic j) / rm * (alpha * rm) := mul_lt_mul_of_pos_right c2 (mul_pos ha0 rpos)
    have m4 : alpha * ab1 (C ic j) * ab1 (C ic j) / rm * (alpha * rm) = alpha ^ 2 * ab1 (C ic j) ^ 2 := by field_simp
    have m5 : alpha ^ 2 * ab1 (C ic j) ^ 2 ≤ alpha ^ 2 * (2 * ‖C ic j‖ ^ 2) := mul_le_mul_of_nonneg_left (ab1_sq_le _) (sq_nonneg _)
    have m6 : alpha ^ 2 * (2 * ‖C ic j‖ ^ 2) ≤ ‖C ic j‖ ^ 2 := by nlinarith [sq_nonneg ‖C ic j‖]
    linarith

end TLA
