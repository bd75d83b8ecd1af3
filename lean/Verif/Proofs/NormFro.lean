import Verif.Proofs.NormExact

/-! Frobenius norms. -/

set_option linter.unusedSectionVars false
set_option linter.unusedVariables false

namespace TLA
open Finset
variable {L 𝕜 : Type} [DecidableEq L] [RCLike 𝕜] [DecidableEq 𝕜] {p : HhPar}

theorem wp_lassqF_exact (hl : HhLaws 𝕜 p) (g : 𝕜 → ℝ) (x : VecV L) (s q t : ℝ) (hs : 0 ≤ s) (hq : 0 ≤ q)
    (ht : s ^ 2 * q = t) (μ : Store L 𝕜)
    (hd : t + ∑ i ∈ range x.n, g (ventry μ x i) ^ 2 ≤ p.tbig ^ 2 ∨
      (∀ i, i < x.n → g (ventry μ x i) = 0 ∨ p.tsml ≤ g (ventry μ x i)) ∧ (t = 0 ∨ p.tsml ^ 2 ≤ t)) :
    wp (lassqF (hhOps p) g x s q) μ (fun r ν => ν = μ ∧ 0 ≤ r.1 ∧ 0 ≤ r.2 ∧
      r.1 ^ 2 * r.2 = t + ∑ i ∈ range x.n, g (ventry μ x i) ^ 2) := by
  have ht0 : 0 ≤ t := by rw [← ht]; positivity
  have hsq : s * √q = √t := by
    rw [← ht, Real.sqrt_mul (by positivity), Real.sqrt_sq hs]
  by_cases hx : x.n = 0
  · unfold lassqF
    simp only [hhOps, Bool.or_self, Bool.false_eq_true, if_false]
    rw [if_pos hx, wp_pure]
    refine ⟨rfl, ?_, ?_, ?_⟩
    · split_ifs <;> first | exact zero_le_one | exact hs
    · split_ifs <;> first | exact le_refl _ | exact hq
    · rw [hx, Finset.sum_range_zero, add_zero, ← ht]
      clear ht hsq ht0 hd hs hq
      split_ifs with h1 h2 h2 <;> simp_all
  · refine wp_conseq (wp_lassqF hl g x s q hs hq μ (by omega)) ?_
    rintro ⟨s', q'⟩ ν ⟨rfl, h1, h2, h3⟩
    refine ⟨rfl, h1, h2, ?_⟩
    rw [h3, hsq, blueSum_exact, Finset.sum_range_succ, add_comm]
    · congr 1
      · unfold withPrior
        rw [if_neg (by omega), Real.sq_sqrt ht0]
      · refine Finset.sum_congr rfl fun i hi => ?_
        unfold withPrior
        rw [if_pos (mem_range.1 hi)]
    · unfold withPrior
      have hb := hl.tbig_one
      refine hd.imp (fun h i hi => ?_) (fun h i hi => ?_)
      · split
        · refine le_of_sq_le_sq ?_ (by linarith)
          have := Finset.single_le_sum (f := fun i => g (ventry ν x i) ^ 2) (fun i _ => sq_nonneg _)
            (mem_range.2 ‹i < x.n›)
          linarith
        · rw [Real.sqrt_le_left (by linarith)]
          have : 0 ≤ ∑ i ∈ range x.n, g (ventry ν x i) ^ 2 := by positivity
          linarith
      · split
        · exact h.1 i ‹_›
        · refine h.2.imp (fun h => by rw [h, Real.sqrt_zero]) fun h => ?_
          exact (le_abs_self _).trans (Real.abs_le_sqrt h)

/-- Columns one after the other. -/
theorem wp_lassqCols (hl : HhLaws 𝕜 p) {A : MatV L} {lo hi : Nat} {a b : Nat → Nat} {s q t : ℝ}
    (hs : 0 ≤ s) (hq : 0 ≤ q) (ht : s ^ 2 * q = t) {μ : Store L 𝕜} (hlo : lo ≤ hi) (hhi : hi ≤ A.n)
    (hab : ∀ j, lo ≤ j → j < hi → a j ≤ b j ∧ b j ≤ A.m)
    (hd : t + ∑ j ∈ Ico lo hi, ∑ i ∈ Ico (a j) (b j), ‖entry μ A i j‖ ^ 2 ≤ p.tbig ^ 2 ∨
      (∀ j i, lo ≤ j → j < hi → a j ≤ i → i < b j → entry μ A i j = 0 ∨ p.tsml ≤ ‖entry μ A i j‖) ∧
        (t = 0 ∨ p.tsml ^ 2 ≤ t)) (htsml : 0 ≤ p.tsml) :
    wp (lassqCols (hhOps p) A lo hi a b (s, q)) μ (fun r ν => ν = μ ∧ 0 ≤ r.1 ∧ 0 ≤ r.2 ∧
      r.1 ^ 2 * r.2 = t + ∑ j ∈ Ico lo hi, ∑ i ∈ Ico (a j) (b j), ‖entry μ A i j‖ ^ 2) := by
  unfold lassqCols
  refine wp_forUp (fun k r ν => ν = μ ∧ 0 ≤ r.1 ∧ 0 ≤ r.2 ∧
    r.1 ^ 2 * r.2 = t + ∑ j ∈ Ico lo k, ∑ i ∈ Ico (a j) (b j), ‖entry μ A i j‖ ^ 2) hlo
    ⟨rfl, hs, hq, by simp [ht]⟩ ?_ (fun _ _ h => h)
  rintro k ⟨s, q⟩ ν hk1 hk2 ⟨rfl, h1, h2, h3⟩
  simp only [wp_bind]
  refine wp_sliceCol (hab k hk1 hk2).1 (hab k hk1 hk2).2 (by omega) ?_
  have e : ∑ i ∈ range (A.colv (a k) (b k) k).n, ‖ventry ν (A.colv (a k) (b k) k) i‖ ^ 2 =
      ∑ i ∈ Ico (a k) (b k), ‖entry ν A i k‖ ^ 2 := by
    rw [sum_Ico_eq_sum_range]; rfl
  refine wp_conseq (wp_lassqF_exact hl _ _ s q _ h1 h2 h3 ν ?_) ?_
  · simp only [hhOps]
    rw [e]
    have hle : ∑ j ∈ Ico lo (k + 1), ∑ i ∈ Ico (a j) (b j), ‖entry ν A i j‖ ^ 2 ≤
        ∑ j ∈ Ico lo hi, ∑ i ∈ Ico (a j) (b j), ‖entry ν A i j‖ ^ 2 :=
      sum_le_sum_of_subset_of_nonneg (Ico_subset_Ico le_rfl (by omega)) fun _ _ _ => by positivity
    rw [sum_Ico_succ_top hk1] at hle
    refine hd.imp (fun h => by linarith) fun h => ⟨fun i hi => ?_, ?_⟩
    · have hi' : i < b k - a k := hi
      have := h.1 k (a k + i) hk1 hk2 (by omega) (by omega)
      rw [norm_eq_zero]
      exact this
    · have hnn : ∀ j, 0 ≤ ∑ i ∈ Ico (a j) (b j), ‖entry ν A i j‖ ^ 2 := fun j => by positivity
      rcases h.2 with h0 | h0
      · by_cases hz : ∑ j ∈ Ico lo k, ∑ i ∈ Ico (a j) (b j), ‖entry ν A i j‖ ^ 2 = 0
        · left; rw [h0, hz, add_zero]
        · right
          rw [h0, zero_add]
          obtain ⟨j, hj, hne⟩ := exists_ne_zero_of_sum_ne_zero hz
          obtain ⟨i, hi, hne⟩ := exists_ne_zero_of_sum_ne_zero hne
          have h5 := single_le_sum (f := fun j => ∑ i ∈ Ico (a j) (b j), ‖entry ν A i j‖ ^ 2) (fun j _ => hnn j) hj
          have h6 := single_le_sum (f := fun i => ‖entry ν A i j‖ ^ 2) (fun i _ => sq_nonneg _) hi
          rw [mem_Ico] at hi hj
          have h7 := h.1 j i hj.1 (by omega) hi.1 hi.2
          have h8 : p.tsml ≤ ‖entry ν A i j‖ := h7.resolve_left fun hc => hne (by rw [hc]; simp)
          have h9 : p.tsml ^ 2 ≤ ‖entry ν A i j‖ ^ 2 := pow_le_pow_left₀ htsml h8 2
          linarith
      · right
        have : 0 ≤ ∑ j ∈ Ico lo k, ∑ i ∈ Ico (a j) (b j), ‖entry ν A i j‖ ^ 2 := by positivity
        linarith
  · rintro ⟨s', q'⟩ ν' ⟨rfl, h4, h5, h6⟩
    refine ⟨rfl, h4, h5, ?_⟩
    rw [h6, sum_Ico_succ_top hk1]
    simp only [hhOps]
    rw [e]
    ring

/-- Every number is kept by Blue's algorithm: the Frobenius norm does not exceed `blue_max`, or no nonzero
entry is below `blue_min`. -/
def FroOK (p : HhPar) (m n : Nat) (a : Nat → Nat → 𝕜) : Prop :=
  ∑ i ∈ range m, ∑ j ∈ range n, ‖a i j‖ ^ 2 ≤ p.tbig ^ 2 ∨
    ∀ i j, i < m → j < n → a i j = 0 ∨ p.tsml ≤ ‖a i j‖

theorem fro_ret {s q t : ℝ} (h1 : 0 ≤ s) (h : s ^ 2 * q = t) : s * √q = √t := by
  rw [← h, Real.sqrt_mul (by positivity), Real.sqrt_sq h1]

theorem wp_langeFro (hl : HhLaws 𝕜 p) (htsml : 0 ≤ p.tsml) {A : MatV L} {μ : Store L 𝕜}
    (hd : FroOK p A.m A.n (entry μ A)) :
    wp (langeFro (hhOps p) A) μ (fun r ν => ν = μ ∧
      r = √(∑ i ∈ range A.m, ∑ j ∈ range A.n, ‖entry μ A i j‖ ^ 2)) := by
  unfold langeFro
  simp only [wp_bind]
  have e : (0 : ℝ) + ∑ j ∈ Ico 0 A.n, ∑ i ∈ Ico 0 A.m, ‖entry μ A i j‖ ^ 2 =
      ∑ i ∈ range A.m, ∑ j ∈ range A.n, ‖entry μ A i j‖ ^ 2 := by
    rw [zero_add, sum_comm, range_eq_Ico, range_eq_Ico]
  refine wp_conseq (wp_lassqCols (t := 0) hl le_rfl zero_le_one (by simp) (Nat.zero_le _) le_rfl
    (fun j _ _ => ⟨Nat.zero_le _, le_rfl⟩) ?_ htsml) ?_
  · rw [e]
    exact hd.imp_right fun h => ⟨fun j i _ hj _ hi => h i j hi hj, .inl rfl⟩
  · rintro ⟨s, q⟩ ν ⟨rfl, h1, h2, h3⟩
    rw [wp_pure]
    refine ⟨rfl, ?_⟩
    rw [e] at h3
    exact fro_ret h1 h3

/-- Sums over the columns of the triangle. -/
theorem triFro_upper {m n : Nat} {diag : Diag} {a : Nat → Nat → 𝕜} :
    ∑ i ∈ range m, ∑ j ∈ range n, ‖triF .Upper diag a i j‖ ^ 2 =
      if diag = .NonUnit then ∑ j ∈ range n, ∑ i ∈ range (min (j + 1) m), ‖a i j‖ ^ 2
      else (min m n : Nat) + ∑ j ∈ range n, ∑ i ∈ range (min j m), ‖a i j‖ ^ 2 := by
  rw [sum_comm]
  have key : ∀ j, ∑ i ∈ range m, ‖triF .Upper diag a i j‖ ^ 2 =
      ∑ i ∈ range (min j m), ‖a i j‖ ^ 2 + (if j < m then (if diag = .NonUnit then ‖a j j‖ ^ 2 else 1) else 0) := by
    intro j
    by_cases hj : j < m
    · rw [sum_range_split m j hj, if_pos hj, min_eq_left (le_of_lt hj)]
      have e1 : ∑ i ∈ Ico (j + 1) m, ‖triF .Upper diag a i j‖ ^ 2 = 0 := sum_eq_zero fun i hi => by
        rw [mem_Ico] at hi
        rw [triF_out (by omega) (by simp only [inTri]; omega)]; simp
      rw [e1, add_zero]
      congr 1
      · refine sum_congr rfl fun i hi => ?_
        rw [mem_range] at hi
        rw [triF_in (by omega) (by simp only [inTri]; omega)]
      · cases diag <;> simp [triF]
    · rw [if_neg hj, add_zero, min_eq_right (by omega)]
      refine sum_congr rfl fun i hi => ?_
      rw [mem_range] at hi
      rw [triF_in (by omega) (by simp only [inTri]; omega)]
  simp only [key]
  cases diag
  · rw [if_pos rfl]
    refine sum_congr rfl fun j _ => ?_
    by_cases hj : j < m
    · rw [if_pos hj, if_pos rfl, min_eq_left (le_of_lt hj), min_eq_left (by omega : j + 1 ≤ m), sum_range_succ]
    · rw [if_neg hj, add_zero, min_eq_right (by omega), min_eq_right (by omega)]
  · rw [if_neg (by simp), sum_add_distrib, add_comm]
    congr 1
    simp only [reduceCtorEq, if_false]
    rw [← sum_filter, sum_const, nsmul_eq_mul, mul_one]
    congr 1
    rw [show (range n).filter (· < m) = range (min m n) by ext; simp; omega, card_range]

theorem triFro_lower {m n : Nat} {diag : Diag} {a : Nat → Nat → 𝕜} :
    ∑ i ∈ range m, ∑ j ∈ range n, ‖triF .Lower diag a i j‖ ^ 2 =
      if diag = .NonUnit then ∑ j ∈ range n, ∑ i ∈ Ico j m, ‖a i j‖ ^ 2
      else (min m n : Nat) + ∑ j ∈ range n, ∑ i ∈ Ico (j + 1) m, ‖a i j‖ ^ 2 := by
  rw [sum_comm]
  have key : ∀ j, ∑ i ∈ range m, ‖triF .Lower diag a i j‖ ^ 2 =
      ∑ i ∈ Ico (j + 1) m, ‖a i j‖ ^ 2 + (if j < m then (if diag = .NonUnit then ‖a j j‖ ^ 2 else 1) else 0) := by
    intro j
    by_cases hj : j < m
    · rw [sum_range_split m j hj, if_pos hj]
      have e1 : ∑ i ∈ range j, ‖triF .Lower diag a i j‖ ^ 2 = 0 := sum_eq_zero fun i hi => by
        rw [mem_range] at hi
        rw [triF_out (by omega) (by simp only [inTri]; omega)]; simp
      rw [e1, zero_add, add_comm]
      congr 1
      · refine sum_congr rfl fun i hi => ?_
        rw [mem_Ico] at hi
        rw [triF_in (by omega) (by simp only [inTri]; omega)]
      · cases diag <;> simp [triF]
    · rw [if_neg hj, add_zero, Ico_eq_empty (by omega), sum_empty]
      refine sum_eq_zero fun i hi => ?_
      rw [mem_range] at hi
      rw [triF_out (by omega) (by simp only [inTri]; omega)]; simp
  simp only [key]
  cases diag
  · rw [if_pos rfl]
    refine sum_congr rfl fun j _ => ?_
    by_cases hj : j < m
    · rw [if_pos hj, if_pos rfl, sum_eq_sum_Ico_succ_bot hj, add_comm]
    · rw [if_neg hj, add_zero, Ico_eq_empty (by omega), Ico_eq_empty (by omega)]
  · rw [if_neg (by simp), sum_add_distrib, add_comm]
    congr 1
    simp only [reduceCtorEq, if_false]
    rw [← sum_filter, sum_const, nsmul_eq_mul, mul_one]
    congr 1
    rw [show (range n).filter (· < m) = range (min m n) by ext; simp; omega, card_range]

theorem sum_Ico_trim {f : Nat → ℝ} {lo lo' hi hi' : Nat} (h1 : lo' ≤ lo) (h2 : hi ≤ hi')
    (h : ∀ j, lo' ≤ j → j < hi' → j < lo ∨ hi ≤ j → f j = 0) :
    ∑ j ∈ Ico lo hi, f j = ∑ j ∈ Ico lo' hi', f j :=
  sum_subset (Ico_subset_Ico h1 h2) fun j hj hj' => by
    rw [mem_Ico] at hj hj'
    exact h j hj.1 hj.2 (by omega)

theorem wp_lantrFro (hl : HhLaws 𝕜 p) (htsml : 0 ≤ p.tsml) {uplo : Uplo} (hu : uplo = .Upper ∨ uplo = .Lower)
    {diag : Diag} {A : MatV L} {μ : Store L 𝕜} (hm : 0 < A.m) (hn : 0 < A.n)
    (hd : FroOK p A.m A.n (triF uplo diag (entry μ A))) :
    wp (lantrFro (hhOps p) uplo diag A) μ (fun r ν => ν = μ ∧
      r = √(∑ i ∈ range A.m, ∑ j ∈ range A.n, ‖triF uplo diag (entry μ A) i j‖ ^ 2)) := by
  unfold lantrFro
  simp only [wp_bind]
  set S := ∑ i ∈ range A.m, ∑ j ∈ range A.n, ‖triF uplo diag (entry μ A) i j‖ ^ 2 with hS
  have fin : ∀ (r : ℝ × ℝ) ν, (ν = μ ∧ 0 ≤ r.1 ∧ 0 ≤ r.2 ∧ r.1 ^ 2 * r.2 = S) →
      wp (pure (r.1 * (hhOps p : HhOps 𝕜 ℝ).sqrtR r.2)) ν (fun r ν => ν = μ ∧ r = √S) := by
    rintro ⟨s, q⟩ ν ⟨rfl, h1, h2, h3⟩
    rw [wp_pure]
    exact ⟨rfl, fro_ret h1 h3⟩
  refine wp_conseq (Q := fun r ν => ν = μ ∧ 0 ≤ r.1 ∧ 0 ≤ r.2 ∧ r.1 ^ 2 * r.2 = S) ?_ fin
  have hone : ∀ k : Nat, 0 < k → diag = .Unit → k ≤ A.m → k ≤ A.n →
      (∀ i j, i < A.m → j < A.n → triF uplo diag (entry μ A) i j = 0 ∨
        p.tsml ≤ ‖triF uplo diag (entry μ A) i j‖) → p.tsml ^ 2 ≤ (k : ℝ) := by
    intro k hk hdu h1 h2 h
    have := h 0 0 hm hn
    subst hdu
    simp [triF] at this
    have hk' : (1 : ℝ) ≤ k := by exact_mod_cast hk
    nlinarith
  have hreg : (∀ i j, i < A.m → j < A.n → triF uplo diag (entry μ A) i j = 0 ∨
        p.tsml ≤ ‖triF uplo diag (entry μ A) i j‖) → ∀ i j, i < A.m → j < A.n → inTri uplo i j →
        (diag = .Unit → i ≠ j) → entry μ A i j = 0 ∨ p.tsml ≤ ‖entry μ A i j‖ := by
    intro h i j hi hj ht hne
    have := h i j hi hj
    by_cases hij : i = j
    · subst hij
      cases diag
      · simpa [triF] using this
      · exact absurd rfl (hne rfl)
    · rwa [triF_in hij ht] at this
  rcases hu with rfl | rfl
  · rw [if_pos rfl]
    rw [triFro_upper] at hS
    cases diag
    · rw [if_pos rfl]
      rw [if_pos rfl] at hS
      have e : (0 : ℝ) + ∑ j ∈ Ico 0 A.n, ∑ i ∈ Ico 0 (min (j + 1) A.m), ‖entry μ A i j‖ ^ 2 = S := by
        rw [hS, zero_add]; simp only [range_eq_Ico]
      refine wp_conseq (wp_lassqCols (t := 0) hl zero_le_one le_rfl (by simp) (Nat.zero_le _) le_rfl
        (fun j _ _ => ⟨Nat.zero_le _, by omega⟩) ?_ htsml) ?_
      · rw [e]
        exact hd.imp_right fun h => ⟨fun j i _ hj _ hi => hreg h i j (by omega) hj
          (by simp only [inTri]; omega) (by simp), .inl rfl⟩
      · rintro r ν h
        rwa [e] at h
    · rw [if_neg (by simp)]
      rw [if_neg (by simp)] at hS
      have e : ((min A.m A.n : Nat) : ℝ) + ∑ j ∈ Ico 1 A.n, ∑ i ∈ Ico 0 (min j A.m), ‖entry μ A i j‖ ^ 2 = S := by
        rw [hS, sum_Ico_trim (lo' := 0) (hi' := A.n) (by omega) le_rfl]
        · simp only [range_eq_Ico]
        · intro j _ h1 h2
          obtain rfl : j = 0 := by omega
          simp
      refine wp_conseq (wp_lassqCols (t := ((min A.m A.n : Nat) : ℝ)) hl zero_le_one (by positivity) (by simp)
        (by omega) le_rfl (fun j _ _ => ⟨Nat.zero_le _, by omega⟩) ?_ htsml) ?_
      · rw [e]
        exact hd.imp_right fun h => ⟨fun j i _ hj _ hi => hreg h i j (by omega) hj
          (by simp only [inTri]; omega) (by omega), .inr (hone _ (by omega) rfl (by omega) (by omega) h)⟩
      · rintro r ν h
        rwa [e] at h
  · rw [if_neg (by simp)]
    rw [triFro_lower] at hS
    cases diag
    · rw [if_pos rfl]
      rw [if_pos rfl] at hS
      have e : (0 : ℝ) + ∑ j ∈ Ico 0 (min A.m A.n), ∑ i ∈ Ico j A.m, ‖entry μ A i j‖ ^ 2 = S := by
        rw [hS, zero_add, sum_Ico_trim (lo' := 0) (hi' := A.n) (by omega) (by omega)]
        · simp only [range_eq_Ico]
        · intro j _ h1 h2
          rw [Ico_eq_empty (by omega), sum_empty]
      refine wp_conseq (wp_lassqCols (t := 0) hl zero_le_one le_rfl (by simp) (Nat.zero_le _) (by omega)
        (fun j _ _ => ⟨by omega, le_rfl⟩) ?_ htsml) ?_
      · rw [e]
        exact hd.imp_right fun h => ⟨fun j i _ hj _ hi => hreg h i j (by omega) (by omega)
          (by simp only [inTri]; omega) (by simp), .inl rfl⟩
      · rintro r ν h
        rwa [e] at h
    · rw [if_neg (by simp)]
      rw [if_neg (by simp)] at hS
      have e : ((min A.m A.n : Nat) : ℝ) +
          ∑ j ∈ Ico 0 (min (A.m - 1) A.n), ∑ i ∈ Ico (j + 1) A.m, ‖entry μ A i j‖ ^ 2 = S := by
        rw [hS, sum_Ico_trim (lo' := 0) (hi' := A.n) (by omega) (by omega)]
        · simp only [range_eq_Ico]
        · intro j _ h1 h2
          rw [Ico_eq_empty (by omega), sum_empty]
      refine wp_conseq (wp_lassqCols (t := ((min A.m A.n : Nat) : ℝ)) hl zero_le_one (by positivity) (by simp)
        (by omega) (by omega) (fun j _ _ => ⟨by omega, le_rfl⟩) ?_ htsml) ?_
      · rw [e]
        exact hd.imp_right fun h => ⟨fun j i _ hj _ hi => hreg h i j (by omega) (by omega)
          (by simp only [inTri]; omega) (by omega), .inr (hone _ (by omega) rfl (by omega) (by omega) h)⟩
      · rintro r ν h
        rwa [e] at h

/-- A symmetric array of numbers: twice the strict upper part plus the diagonal. -/
theorem sum_symm_split {n : Nat} {f : Nat → Nat → ℝ} (hf : ∀ i j, f i j = f j i) :
    ∑ i ∈ range n, ∑ j ∈ range n, f i j =
      2 * ∑ j ∈ range n, ∑ i ∈ range j, f i j + ∑ j ∈ range n, f j j := by
  have e1 : ∑ j ∈ range n, ∑ i ∈ range n, f i j = ∑ j ∈ range n,
      (∑ i ∈ range j, f i j + f j j + ∑ i ∈ Ico (j + 1) n, f i j) :=
    sum_congr rfl fun j hj => sum_range_split n j (mem_range.1 hj) _
  rw [sum_comm, e1, sum_add_distrib, sum_add_distrib]
  have e2 : ∑ j ∈ range n, ∑ i ∈ Ico (j + 1) n, f i j = ∑ j ∈ range n, ∑ i ∈ range j, f i j := by
    have := sum_Ico_Ico_comm' 0 n (fun i j => f j i)
    simp only [← range_eq_Ico] at this
    rw [this]
    exact sum_congr rfl fun j _ => sum_congr rfl fun i _ => hf _ _
  rw [e2]; ring

theorem sum_lower_upper {n : Nat} {f : Nat → Nat → ℝ} :
    ∑ j ∈ range n, ∑ i ∈ Ico (j + 1) n, f i j = ∑ j ∈ range n, ∑ i ∈ range j, f j i := by
  have := sum_Ico_Ico_comm' 0 n (fun i j => f j i)
  simp only [← range_eq_Ico] at this
  rw [this]

/-- lansy and lanhe: `F` is the matrix, `g` the absolute value used for the diagonal. -/
theorem wp_lansyFro (hl : HhLaws 𝕜 p) (htsml : 0 ≤ p.tsml) {uplo : Uplo} (hu : uplo = .Upper ∨ uplo = .Lower)
    {A : MatV L} {μ : Store L 𝕜} (hA : A.m = A.n) (hm : 0 < A.m) {g : 𝕜 → ℝ} {F : Nat → Nat → 𝕜}
    (hF : ∀ i j, i ≠ j → inTri uplo i j → ‖F i j‖ = ‖entry μ A i j‖) (hs : ∀ i j, ‖F i j‖ = ‖F j i‖)
    (hg : ∀ j, g (entry μ A j j) = ‖F j j‖)
    (hd : FroOK p A.m A.m F) :
    wp (lansyFro (hhOps p) g uplo A) μ (fun r ν => ν = μ ∧
      r = √(∑ i ∈ range A.m, ∑ j ∈ range A.m, ‖F i j‖ ^ 2)) := by
  unfold lansyFro
  simp only [wp_bind]
  set S := ∑ i ∈ range A.m, ∑ j ∈ range A.m, ‖F i j‖ ^ 2 with hS
  rw [sum_symm_split (fun i j => by rw [hs])] at hS
  set U := ∑ j ∈ range A.m, ∑ i ∈ range j, ‖F i j‖ ^ 2 with hU
  have hU0 : 0 ≤ U := by positivity
  have hDe : ∑ i ∈ range A.diagv.n, g (ventry μ A.diagv i) ^ 2 = ∑ j ∈ range A.m, ‖F j j‖ ^ 2 := by
    have : A.diagv.n = A.m := by simp [MatV.diagv, hA]
    rw [this]
    exact sum_congr rfl fun j _ => by rw [← hg j]; rfl
  have hD0 : 0 ≤ ∑ j ∈ range A.m, ‖F j j‖ ^ 2 := by positivity
  have hU1 : (∀ i j, i < A.m → j < A.m → F i j = 0 ∨ p.tsml ≤ ‖F i j‖) → U = 0 ∨ p.tsml ^ 2 ≤ U := by
    intro h
    by_cases hz : U = 0
    · exact .inl hz
    · right
      obtain ⟨j, hj, hne⟩ := exists_ne_zero_of_sum_ne_zero hz
      obtain ⟨i, hi, hne⟩ := exists_ne_zero_of_sum_ne_zero hne
      have h5 := single_le_sum (f := fun j => ∑ i ∈ range j, ‖F i j‖ ^ 2) (fun j _ => by positivity) hj
      have h6 := single_le_sum (f := fun i => ‖F i j‖ ^ 2) (fun i _ => sq_nonneg _) hi
      rw [mem_range] at hi hj
      have h8 : p.tsml ≤ ‖F i j‖ := (h i j (by omega) hj).resolve_left fun hc => hne (by rw [hc]; simp)
      have h9 : p.tsml ^ 2 ≤ ‖F i j‖ ^ 2 := pow_le_pow_left₀ htsml h8 2
      linarith
  have hzn : ∀ i j, i ≠ j → inTri uplo i j → (F i j = 0 ∨ p.tsml ≤ ‖F i j‖) →
      entry μ A i j = 0 ∨ p.tsml ≤ ‖entry μ A i j‖ := by
    intro i j h1 h2 h
    have e := hF i j h1 h2
    rw [← norm_eq_zero, e] at h
    rwa [norm_eq_zero] at h
  refine wp_conseq (Q := fun r ν => ν = μ ∧ 0 ≤ r.1 ∧ 0 ≤ r.2 ∧ r.1 ^ 2 * r.2 = U) ?_ ?_
  · rcases hu with rfl | rfl
    · rw [if_pos rfl]
      have e : (0 : ℝ) + ∑ j ∈ Ico 1 A.m, ∑ i ∈ Ico 0 j, ‖entry μ A i j‖ ^ 2 = U := by
        rw [hU, zero_add, sum_Ico_trim (lo' := 0) (hi' := A.m) (by omega) le_rfl]
        · simp only [← range_eq_Ico]
          refine sum_congr rfl fun j _ => sum_congr rfl fun i hi => ?_
          rw [mem_range] at hi
          rw [hF i j (by omega) (by simp only [inTri]; omega)]
        · intro j _ h1 h2
          obtain rfl : j = 0 := by omega
          simp
      refine wp_conseq (wp_lassqCols (t := 0) hl le_rfl zero_le_one (by simp) (by omega) (by omega)
        (fun j _ _ => ⟨Nat.zero_le _, by omega⟩) ?_ htsml) ?_
      · rw [e]
        exact hd.imp (fun h => by linarith) fun h => ⟨fun j i _ hj _ hi => hzn i j (by omega)
          (by simp only [inTri]; omega) (h i j (by omega) (by omega)), .inl rfl⟩
      · rintro r ν h
        rwa [e] at h
    · rw [if_neg (by simp)]
      have e : (0 : ℝ) + ∑ j ∈ Ico 0 (A.m - 1), ∑ i ∈ Ico (j + 1) A.m, ‖entry μ A i j‖ ^ 2 = U := by
        rw [hU, zero_add, sum_Ico_trim (lo' := 0) (hi' := A.m) (by omega) (by omega)]
        · rw [← range_eq_Ico, sum_lower_upper]
          refine sum_congr rfl fun j _ => sum_congr rfl fun i hi => ?_
          rw [mem_range] at hi
          rw [hs, hF j i (by omega) (by simp only [inTri]; omega)]
        · intro j _ h1 h2
          rw [Ico_eq_empty (by omega), sum_empty]
      refine wp_conseq (wp_lassqCols (t := 0) hl le_rfl zero_le_one (by simp) (by omega) (by omega)
        (fun j _ _ => ⟨by omega, le_rfl⟩) ?_ htsml) ?_
      · rw [e]
        exact hd.imp (fun h => by linarith) fun h => ⟨fun j i _ hj _ hi => hzn i j (by omega)
          (by simp only [inTri]; omega) (h i j (by omega) (by omega)), .inl rfl⟩
      · rintro r ν h
        rwa [e] at h
  · rintro ⟨s, q⟩ ν ⟨rfl, h1, h2, h3⟩
    simp only at h1 h2 h3
    refine wp_conseq (wp_lassqF_exact hl g _ s (q * (1 + 1)) (2 * U) h1 (by positivity)
      (by rw [← h3]; ring) ν ?_) ?_
    · rw [hDe]
      refine hd.imp (fun h => by linarith) fun h => ⟨fun i hi => ?_, ?_⟩
      · have : A.diagv.n = A.m := by simp [MatV.diagv, hA]
        have e2 : g (ventry ν A.diagv i) = ‖F i i‖ := hg i
        rw [e2, norm_eq_zero]
        exact h i i (by omega) (by omega)
      · rcases hU1 h with h | h
        · left; rw [h]; ring
        · right; linarith
    · rintro ⟨s', q'⟩ ν' ⟨rfl, h4, h5, h6⟩
      rw [wp_pure]
      refine ⟨rfl, ?_⟩
      rw [hDe] at h6
      exact fro_ret h4 (h6.trans hS.symm)

end TLA
