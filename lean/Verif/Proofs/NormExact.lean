import Verif.Proofs.Norm

/-! Matrix norms in exact arithmetic; NaN propagation. -/

set_option linter.unusedSectionVars false
set_option linter.unusedVariables false

namespace TLA
open Finset
variable {L T R 𝕜 : Type} [DecidableEq L] [RCLike 𝕜] [DecidableEq 𝕜] {p : HhPar}

theorem exact_laws : NanLaws (hhOps p : HhOps 𝕜 ℝ).nops (fun x : ℝ => 0 ≤ x) where
  zero := rfl
  one := rfl
  gt_nan _ _ _ := rfl
  irrefl a := by simp
  trans a b c h1 h2 _ := by simp at h1 h2 ⊢; linarith
  nn_zero := le_refl _
  nn_one := zero_le_one
  nn_abs x := norm_nonneg _
  nn_absRe x := norm_nonneg _
  nn_add a b := add_nonneg
  add a b _ _ := by simp

theorem MRes.exact {x0 : ℝ} {S : ℝ → Prop} {r : ℝ ⊕ ℝ}
    (h : MRes (hhOps p : HhOps 𝕜 ℝ).nops x0 S r) : IsGreatest ({x0} ∪ {x | S x}) (normRet r) := by
  cases r with
  | inr v => exact absurd h.2 (by simp)
  | inl x =>
    obtain ⟨_, h2, h3, _⟩ := h
    simp only [normRet]
    constructor
    · rcases h2 with rfl | h2
      · exact .inl rfl
      · exact .inr h2.1
    · rintro y (rfl | hy)
      · rcases h2 with rfl | h2
        · exact le_refl _
        · have := h2.2
          simp at this
          exact le_of_lt this
      · have := h3 y hy
        simpa using this

theorem sumV_exact {lo hi : Nat} {s : ℝ} {g : Nat → 𝕜} :
    sumV (hhOps p : HhOps 𝕜 ℝ).nops lo hi s g = s + ∑ i ∈ Ico lo hi, ‖g i‖ := by
  unfold sumV
  by_cases h : lo ≤ hi
  · rw [← foldUp_add h]
  · unfold foldUp
    rw [show hi - lo = 0 by omega, Ico_eq_empty (by omega)]
    simp [foldUpN]

theorem triF_in {uplo : Uplo} {diag : Diag} {a : Nat → Nat → 𝕜} {i j : Nat} (h : i ≠ j) (h' : inTri uplo i j) :
    triF uplo diag a i j = a i j := by
  unfold triF; rw [if_neg h, if_pos h']

theorem triF_out {uplo : Uplo} {diag : Diag} {a : Nat → Nat → 𝕜} {i j : Nat} (h : i ≠ j) (h' : ¬ inTri uplo i j) :
    triF uplo diag a i j = 0 := by
  unfold triF; rw [if_neg h, if_neg h']

theorem hermF_in {uplo : Uplo} {a : Nat → Nat → 𝕜} {i j : Nat} (h : i ≠ j) (h' : inTri uplo i j) :
    hermF uplo a i j = a i j := by
  unfold hermF; rw [if_neg h, if_pos h']

theorem hermF_out {uplo : Uplo} {a : Nat → Nat → 𝕜} {i j : Nat} (h : i ≠ j) (h' : ¬ inTri uplo i j) :
    hermF uplo a i j = star (a j i) := by
  unfold hermF; rw [if_neg h, if_neg h']

theorem symF_in {uplo : Uplo} {a : Nat → Nat → 𝕜} {i j : Nat} (h' : inTri uplo i j) :
    symF uplo a i j = a i j := by
  unfold symF; rw [if_pos (.inr h')]

theorem symF_out {uplo : Uplo} {a : Nat → Nat → 𝕜} {i j : Nat} (h : i ≠ j) (h' : ¬ inTri uplo i j) :
    symF uplo a i j = a j i := by
  unfold symF; rw [if_neg (by rintro (h1 | h1); exacts [h h1, h' h1])]

theorem inTri_swap {uplo : Uplo} (hu : uplo = .Upper ∨ uplo = .Lower) {i j : Nat} (h : i ≠ j) :
    inTri uplo i j ↔ ¬ inTri uplo j i := by
  rcases hu with rfl | rfl <;> simp only [inTri] <;> omega

theorem sum_range_split (n j : Nat) (hj : j < n) (f : Nat → ℝ) :
    ∑ i ∈ range n, f i = ∑ i ∈ range j, f i + f j + ∑ i ∈ Ico (j + 1) n, f i := by
  rw [range_eq_Ico, ← sum_Ico_consecutive f (Nat.zero_le j) (le_of_lt hj), sum_eq_sum_Ico_succ_bot hj,
    range_eq_Ico]
  ring

/-- Row sums of a triangular matrix. -/
theorem triRow {uplo : Uplo} {diag : Diag} (hu : uplo = .Upper ∨ uplo = .Lower) {n i : Nat} (hn : 0 < n)
    {a : Nat → Nat → 𝕜} (h : i < n ∨ uplo = .Lower ∨ diag = .NonUnit) :
    lantrRowV (hhOps p : HhOps 𝕜 ℝ).nops uplo diag n a i = ∑ j ∈ range n, ‖triF uplo diag a i j‖ := by
  unfold lantrRowV
  simp only [sumV_exact]
  rcases hu with rfl | rfl
  · rw [if_pos rfl]
    by_cases hi : i < n
    · rw [sum_range_split n i hi]
      have e1 : ∑ j ∈ range i, ‖triF .Upper diag a i j‖ = 0 := sum_eq_zero fun j hj => by
        rw [mem_range] at hj
        rw [triF_out (by omega) (by simp only [inTri]; omega), norm_zero]
      have e2 : ∑ j ∈ Ico (i + 1) n, ‖triF .Upper diag a i j‖ = ∑ j ∈ Ico (i + 1) n, ‖a i j‖ :=
        sum_congr rfl fun j hj => by
          rw [mem_Ico] at hj
          rw [triF_in (by omega) (by simp only [inTri]; omega)]
      rw [e1, e2]
      cases diag
      · simp [triF, sum_eq_sum_Ico_succ_bot hi]
      · simp [triF]
    · have hd : diag = .NonUnit := by simpa [hi] using h
      rw [if_pos hd, Ico_eq_empty (by omega), sum_empty]
      symm
      rw [show (0 : ℝ) + 0 = 0 by ring]
      refine sum_eq_zero fun j hj => ?_
      rw [mem_range] at hj
      rw [triF_out (by omega) (by simp only [inTri]; omega), norm_zero]
  · rw [if_neg (by simp)]
    by_cases hi : i < n
    · rw [sum_range_split n i hi]
      have e1 : ∑ j ∈ range i, ‖triF .Lower diag a i j‖ = ∑ j ∈ range i, ‖a i j‖ :=
        sum_congr rfl fun j hj => by
          rw [mem_range] at hj
          rw [triF_in (by omega) (by simp only [inTri]; omega)]
      have e2 : ∑ j ∈ Ico (i + 1) n, ‖triF .Lower diag a i j‖ = 0 := sum_eq_zero fun j hj => by
        rw [mem_Ico] at hj
        rw [triF_out (by omega) (by simp only [inTri]; omega), norm_zero]
      rw [e1, e2]
      cases diag
      · rw [if_pos (.inl rfl), show min i (n - 1) + 1 = i + 1 by omega, ← range_eq_Ico, sum_range_succ]
        simp [triF]
      · rw [if_neg (by simp; omega), ← range_eq_Ico]
        simp [triF, add_comm]
    · rw [if_pos (.inr (by omega)), show min i (n - 1) + 1 = n by omega, ← range_eq_Ico, zero_add]
      refine sum_congr rfl fun j hj => ?_
      rw [mem_range] at hj
      rw [triF_in (by omega) (by simp only [inTri]; omega)]

/-- Column sums of a triangular matrix are row sums of the transposed one. -/
theorem lantrColV_tr (uplo : Uplo) (hu : uplo = .Upper ∨ uplo = .Lower) (diag : Diag) (o : NOps T R) (m : Nat)
    (a : Nat → Nat → T) (j : Nat) :
    lantrColV o uplo diag m a j =
      lantrRowV o (if uplo = .Upper then .Lower else .Upper) diag m (fun i j => a j i) j := by
  unfold lantrColV lantrRowV
  rcases hu with rfl | rfl <;> simp

theorem triF_tr (uplo : Uplo) (hu : uplo = .Upper ∨ uplo = .Lower) (diag : Diag) (a : Nat → Nat → 𝕜) (i j : Nat) :
    triF (if uplo = .Upper then .Lower else .Upper) diag (fun i j => a j i) i j = triF uplo diag a j i := by
  by_cases h : i = j
  · subst h; simp [triF]
  · have : inTri (if uplo = .Upper then .Lower else .Upper) i j ↔ inTri uplo j i := by
      rcases hu with rfl | rfl <;> simp [inTri]
    by_cases h' : inTri uplo j i
    · rw [triF_in h (this.2 h'), triF_in (Ne.symm h) h']
    · rw [triF_out h (mt this.1 h'), triF_out (Ne.symm h) h']

theorem triCol {uplo : Uplo} {diag : Diag} (hu : uplo = .Upper ∨ uplo = .Lower) {m j : Nat} (hm : 0 < m)
    {a : Nat → Nat → 𝕜} (h : j < m ∨ uplo = .Upper ∨ diag = .NonUnit) :
    lantrColV (hhOps p : HhOps 𝕜 ℝ).nops uplo diag m a j = ∑ i ∈ range m, ‖triF uplo diag a i j‖ := by
  rw [lantrColV_tr uplo hu, triRow (by rcases hu with rfl | rfl <;> simp) hm]
  · exact sum_congr rfl fun i _ => by rw [triF_tr uplo hu]
  · rcases hu with rfl | rfl <;> simpa using h

theorem symSum {uplo : Uplo} (hu : uplo = .Upper ∨ uplo = .Lower) {n j : Nat} (hj : j < n) {a : Nat → Nat → 𝕜} :
    lansySumV (hhOps p : HhOps 𝕜 ℝ).nops uplo n a j = ∑ i ∈ range n, ‖symF uplo a i j‖ ∧
    ∑ i ∈ range n, ‖symF uplo a i j‖ = ∑ i ∈ range n, ‖symF uplo a j i‖ := by
  have hs : ∀ i j, symF uplo a i j = symF uplo a j i := by
    intro i j
    by_cases h : i = j
    · subst h; rfl
    · have := inTri_swap hu h
      by_cases h' : inTri uplo i j
      · rw [symF_in h', symF_out (Ne.symm h) (this.1 h')]
      · rw [symF_out h h', symF_in (by by_contra hc; exact h' (this.2 hc))]
  refine ⟨?_, sum_congr rfl fun i _ => by rw [hs]⟩
  unfold lansySumV
  simp only [sumV_exact]
  rw [sum_range_split n j hj, ← range_eq_Ico, sum_range_succ, sum_range_succ]
  rcases hu with rfl | rfl
  · rw [if_pos rfl]
    simp only [zero_add]
    congr 1
    · congr 1
      · refine sum_congr rfl fun i hi => ?_
        rw [mem_range] at hi
        rw [symF_in (by simp only [inTri]; omega)]
      · simp [symF]
    · refine sum_congr rfl fun i hi => ?_
      rw [mem_Ico] at hi
      rw [symF_out (by omega) (by simp only [inTri]; omega)]
  · rw [if_neg (by simp)]
    simp only [zero_add]
    congr 1
    · congr 1
      · refine sum_congr rfl fun i hi => ?_
        rw [mem_range] at hi
        rw [symF_out (by omega) (by simp only [inTri]; omega)]
      · simp [symF]
    · refine sum_congr rfl fun i hi => ?_
      rw [mem_Ico] at hi
      rw [symF_in (by simp only [inTri]; omega)]

theorem hermF_norm_symm {uplo : Uplo} (hu : uplo = .Upper ∨ uplo = .Lower) (a : Nat → Nat → 𝕜) (i j : Nat) :
    ‖hermF uplo a i j‖ = ‖hermF uplo a j i‖ := by
  by_cases h : i = j
  · subst h; rfl
  · have := inTri_swap hu h
    by_cases h' : inTri uplo i j
    · rw [hermF_in h h', hermF_out (Ne.symm h) (this.1 h'), norm_star]
    · rw [hermF_out h h', hermF_in (Ne.symm h) (by by_contra hc; exact h' (this.2 hc)), norm_star]

theorem hermSum {uplo : Uplo} (hu : uplo = .Upper ∨ uplo = .Lower) {n j : Nat} (hj : j < n) {a : Nat → Nat → 𝕜} :
    lanheSumV (hhOps p : HhOps 𝕜 ℝ).nops uplo n a j = ∑ i ∈ range n, ‖hermF uplo a i j‖ ∧
    ∑ i ∈ range n, ‖hermF uplo a i j‖ = ∑ i ∈ range n, ‖hermF uplo a j i‖ := by
  refine ⟨?_, sum_congr rfl fun i _ => by rw [hermF_norm_symm hu]⟩
  unfold lanheSumV
  simp only [sumV_exact]
  rw [sum_range_split n j hj, ← range_eq_Ico]
  rcases hu with rfl | rfl
  · rw [if_pos rfl]
    simp only [zero_add]
    congr 1
    · congr 1
      · refine sum_congr rfl fun i hi => ?_
        rw [mem_range] at hi
        rw [hermF_in (by omega) (by simp only [inTri]; omega)]
      · simp [hermF]
    · refine sum_congr rfl fun i hi => ?_
      rw [mem_Ico] at hi
      rw [hermF_out (by omega) (by simp only [inTri]; omega), norm_star]
  · rw [if_neg (by simp)]
    simp only [zero_add]
    congr 1
    · congr 1
      · refine sum_congr rfl fun i hi => ?_
        rw [mem_range] at hi
        rw [hermF_out (by omega) (by simp only [inTri]; omega), norm_star]
      · simp [hermF]
    · refine sum_congr rfl fun i hi => ?_
      rw [mem_Ico] at hi
      rw [hermF_in (by omega) (by simp only [inTri]; omega)]

end TLA
