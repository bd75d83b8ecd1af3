import Verif.Proofs.Scan
import Verif.Props.Examples

/-!
# C23 hasnan/hasinf, C24 laset/lacpy
-/

set_option linter.unusedTactic false
set_option linter.unreachableTactic false

namespace TLA
variable {L T : Type}

/-- `(i,j)` lies within the band of `kl` sub- and `ku` superdiagonals. -/
def inBand (kl ku i j : Nat) : Prop := j ≤ i + ku ∧ i ≤ j + kl

/-! ### hasnan, hasinf -/

/-- **C23** `hasnan`/`hasinf` (`p = isnan` resp. `isinf`, or any predicate) answer whether some
entry of the selected part satisfies `p`; nothing is written, nothing is read out of range.  For
`UpperHessenberg` this needs more rows than columns (see `C23_hessenberg_out_of_range`). -/
theorem C23_region (p : T → Bool) (uplo : Uplo) (A : MatV L) (μ : Store L T)
    (hH : uplo = .UpperHessenberg → A.n < A.m ∨ A.m = 0) :
    ∃ r, hasP p uplo A μ = (.ok r, μ) ∧
      (r = true ↔ ∃ i j, i < A.m ∧ j < A.n ∧ inTri uplo i j ∧ p (entry μ A i j) = true) := by
  have main : ∀ lo hi : Nat → Nat, (∀ j, j < A.n → lo j < hi j → hi j ≤ A.m) →
      (∀ i j, i < A.m → j < A.n → ((lo j ≤ i ∧ i < hi j) ↔ inTri uplo i j)) →
      ∃ r, scanRegion p A lo hi μ = (.ok r, μ) ∧
      (r = true ↔ ∃ i j, i < A.m ∧ j < A.n ∧ inTri uplo i j ∧ p (entry μ A i j) = true) := by
    intro lo hi h1 h2
    obtain ⟨r, ν, e, rfl, h⟩ := wp_iff.1 (wp_scanRegion p A lo hi μ h1)
    refine ⟨r, e, h.trans ⟨?_, ?_⟩⟩
    · rintro ⟨i, j, a, b, c, d⟩
      have := h1 j a (by omega)
      exact ⟨i, j, by omega, a, (h2 i j (by omega) a).1 ⟨b, c⟩, d⟩
    · rintro ⟨i, j, a, b, c, d⟩
      have := (h2 i j a b).2 c
      exact ⟨i, j, b, this.1, this.2, d⟩
  unfold hasP
  cases uplo <;> refine main _ _ ?_ ?_
  all_goals first
    | (intro j hj h; omega)
    | (intro i j hi hj; simp only [inTri, iff_true]; omega)
    | (intro i j hi hj; simp only [inTri]; omega)
    | (intro j hj h
       rcases hH rfl with hm | hm
       · rw [if_pos (by omega)]; omega
       · rw [if_neg (by omega)])
    | (intro j hj h; split at h <;> split <;> omega)
    | (intro i j hi hj; simp only [inTri]; split <;> omega)

/-- **C23 (deviation)** With `UpperHessenberg` and at least as many columns as rows, a matrix
without any NaN (Inf) makes the code access entry `(m, m-1)`, one row past the end. -/
theorem C23_hessenberg_out_of_range (p : T → Bool) (A : MatV L) (μ : Store L T)
    (hm : 0 < A.m) (hmn : A.m ≤ A.n)
    (hno : ∀ i j, i < A.m → j < A.n → p (entry μ A i j) = false) :
    hasP p .UpperHessenberg A μ = (.error .ub, μ) := by
  apply error_of_wp
  show wp (scanRegion p A _ _) μ _ _
  unfold scanRegion
  simp only [wp_bind]
  refine wp_forRet' (fun j _ ν => ν = μ ∧ j ≤ A.m - 1) ⟨rfl, by omega⟩ ?_ ?_
  · rintro j _ ν _ hj ⟨rfl, hjm⟩
    rw [if_pos (by omega)]
    simp only [wp_bind]
    refine wp_forRet' (fun k _ ν' => ν' = ν ∧ k ≤ A.m) ⟨rfl, by omega⟩ ?_ ?_
    · rintro i _ ν' _ hi ⟨rfl, hk⟩
      simp only [wp_bind, wp_get_full]
      split
      · rename_i hin
        have := hno i j hin.1 hin.2
        rw [show ν' (A.cell i j) = entry ν' A i j from rfl, this]
        simp only [Bool.false_eq_true, if_false, wp_pure]
        exact ⟨trivial, by omega⟩
      · simp
    · rintro _ ν' ⟨rfl, hk⟩
      simp only [wp_pure]
      exact ⟨trivial, by omega⟩
  · rintro _ ν ⟨rfl, hjm⟩
    omega

/-- **C23** the BandAccess versions look at the band only. -/
theorem C23_band (p : T → Bool) (kl ku : Nat) (A : MatV L) (μ : Store L T) :
    ∃ r, hasPBand p kl ku A μ = (.ok r, μ) ∧
      (r = true ↔ ∃ i j, i < A.m ∧ j < A.n ∧ inBand kl ku i j ∧ p (entry μ A i j) = true) := by
  unfold hasPBand
  obtain ⟨r, ν, e, rfl, h⟩ := wp_iff.1 (wp_scanRegion p A
    (fun j => if j ≥ ku then j - ku else 0) (fun j => min A.m (j + kl + 1)) μ
    (fun j _ _ => Nat.min_le_left _ _))
  refine ⟨r, e, h.trans ⟨?_, ?_⟩⟩
  · rintro ⟨i, j, a, b, c, d⟩
    refine ⟨i, j, by omega, a, ⟨?_, by omega⟩, d⟩
    split at b <;> omega
  · rintro ⟨i, j, a, b, c, d⟩
    refine ⟨i, j, b, ?_, ?_, d⟩
    · have := c.1
      split <;> omega
    · have := c.2
      omega

/-- **C23** the vector versions. -/
theorem C23_vector (p : T → Bool) (x : VecV L) (μ : Store L T) :
    ∃ r, hasPVec p x μ = (.ok r, μ) ∧
      (r = true ↔ ∃ i, i < x.n ∧ p (ventry μ x i) = true) := by
  have main : wp (hasPVec p x) μ (fun r ν => ν = μ ∧
      (r = true ↔ ∃ i, i < x.n ∧ p (ventry μ x i) = true)) := by
    unfold hasPVec
    simp only [wp_bind]
    refine wp_forRet' (fun k _ ν => ν = μ ∧ ∀ i, i < k → p (ventry μ x i) = false)
      ⟨rfl, fun _ h => absurd h (Nat.not_lt_zero _)⟩ ?_ ?_
    · rintro i _ ν _ hi ⟨rfl, hk⟩
      simp only [wp_bind, wp_vget]
      refine ⟨hi, ?_⟩
      split
      · rename_i hp
        simp only [wp_pure]
        exact ⟨trivial, by simpa using ⟨i, hi, hp⟩⟩
      · rename_i hp
        simp only [wp_pure]
        refine ⟨trivial, fun i' h4 => ?_⟩
        rcases Nat.lt_succ_iff_lt_or_eq.1 h4 with h' | rfl
        · exact hk i' h'
        · exact (Bool.not_eq_true _).mp hp
    · rintro _ ν ⟨rfl, hno⟩
      simp only [wp_pure]
      refine ⟨trivial, ⟨fun h => (Bool.noConfusion h), ?_⟩⟩
      rintro ⟨i, h1, h4⟩
      rw [hno i (by omega)] at h4
      cases h4
  obtain ⟨r, ν, e, rfl, h⟩ := wp_iff.1 main
  exact ⟨r, e, h⟩

/-- Both hypotheses are met: a 3 × 2 and a 2 × 2 matrix. -/
example : (mkM 0 3 2).n < (mkM 0 3 2).m ∧ 0 < (mkM 0 2 2).m ∧ (mkM 0 2 2).m ≤ (mkM 0 2 2).n := by
  simp [mkM]

/-! ### laset, lacpy -/

variable [DecidableEq L]

/-- What laset must leave at `(i,j)`. -/
def lasetVal (uplo : Uplo) (alpha beta old : T) (i j : Nat) : T :=
  if i = j then beta else if inTri uplo i j then alpha else old

/-- **C24** laset writes `beta` on the diagonal, `alpha` on the other selected entries, and nothing
else. -/
theorem C24_laset (uplo : Uplo) (hu : uplo = .Upper ∨ uplo = .Lower ∨ uplo = .General)
    (alpha beta : T) (A : MatV L) (hA : A.Inj) (μ : Store L T) :
    ∃ ν, laset uplo alpha beta A μ = (.ok (), ν) ∧
      (∀ i j, i < A.m → j < A.n →
        entry ν A i j = lasetVal uplo alpha beta (entry μ A i j) i j) ∧
      ∀ l, ¬ A.Owns l → ν l = μ l := by
  have hdiag : ∀ (G : Nat → Nat → T) (ν : Store L T), MState A μ G ν →
      wp (forUp_ 0 (min A.m A.n) fun i => A.set i i beta) ν (fun _ ν =>
        MState A μ (fun i j => if i = j then beta else G i j) ν) := by
    intro G ν hν
    refine wp_forUp_ (fun k ν => MState A μ (fun i j => if i = j ∧ i < k then beta else G i j) ν)
      (Nat.zero_le _) (hν.congr (fun i j _ _ => by rw [if_neg (by omega)])) ?_
      (fun ν h => h.congr (fun i j _ _ => by
        by_cases e : i = j
        · rw [if_pos e, if_pos (by omega)]
        · rw [if_neg e, if_neg (by omega)]))
    intro i ν _ hi hν
    simp only [wp_set]
    refine ⟨by omega, hν.upd hA (by omega) (by omega) (fun i' j' _ _ => ?_)⟩
    by_cases e : i' = j'
    · subst e
      by_cases e' : i' = i
      · subst e'; simp
      · simp only [e', true_and, and_self, if_false]
        refine if_congr ?_ rfl rfl
        omega
    · rw [if_neg (by omega), if_neg (by omega), if_neg (by omega)]
  have main : wp (laset uplo alpha beta A) μ (fun _ ν =>
      MState A μ (fun i j => lasetVal uplo alpha beta (entry μ A i j) i j) ν) := by
    unfold laset
    simp only [wp_bind, wp_check]
    rw [if_pos (by rcases hu with rfl | rfl | rfl <;> rfl)]
    have h0 : MState A μ (entry μ A) μ := MState.init A μ _ (fun _ _ _ _ => rfl)
    rcases hu with rfl | rfl | rfl
    · rw [if_pos rfl]
      refine wp_conseq (wp_region (fun _ _ => alpha) h0 hA (le_refl _) ?_ ?_) ?_
      · intro j _ _ _; exact Nat.min_le_left _ _
      · intro j i ν h1 h2 h3 h4 _
        simp only [wp_set, and_true]
        omega
      · intro _ ν hν
        refine wp_conseq (hdiag _ ν hν) (fun _ ν h => h.congr (fun i j hi hj => ?_))
        simp only [lasetVal, inTri]
        by_cases e : i = j
        · simp [e]
        · simp only [e, if_false]
          refine if_congr ?_ rfl rfl
          omega
    · rw [if_neg (by decide), if_pos rfl]
      refine wp_conseq (wp_region (fun _ _ => alpha) h0 hA (Nat.min_le_right _ _) ?_ ?_) ?_
      · intro j _ _ _; exact le_refl _
      · intro j i ν h1 h2 h3 h4 _
        simp only [wp_set, and_true]
        omega
      · intro _ ν hν
        refine wp_conseq (hdiag _ ν hν) (fun _ ν h => h.congr (fun i j hi hj => ?_))
        simp only [lasetVal, inTri]
        by_cases e : i = j
        · simp [e]
        · simp only [e, if_false]
          refine if_congr ?_ rfl rfl
          omega
    · rw [if_neg (by decide), if_neg (by decide)]
      refine wp_conseq (wp_region (fun _ _ => alpha) h0 hA (le_refl _) ?_ ?_) ?_
      · intro j _ _ _; exact le_refl _
      · intro j i ν h1 h2 h3 h4 _
        simp only [wp_set, and_true]
        omega
      · intro _ ν hν
        refine wp_conseq (hdiag _ ν hν) (fun _ ν h => h.congr (fun i j hi hj => ?_))
        simp only [lasetVal, inTri]
        by_cases e : i = j
        · simp [e]
        · simp only [e, if_false, if_true]
          rw [if_pos (by omega)]; exact if_pos trivial
  obtain ⟨ν, e, h⟩ := wp_unit main
  exact ⟨ν, e, fun i j hi hj => h.val i j hi hj, h.frame⟩

/-- **C24** lacpy copies the selected part of `A` and writes nothing else. -/
theorem C24_lacpy (uplo : Uplo) (hu : uplo = .Upper ∨ uplo = .Lower ∨ uplo = .General)
    (A B : MatV L) (hm : A.m ≤ B.m) (hn : A.n ≤ B.n) (hB : B.Inj) (hAB : A.Disj B) (μ : Store L T) :
    ∃ ν, lacpy uplo A B μ = (.ok (), ν) ∧
      (∀ i j, i < B.m → j < B.n →
        entry ν B i j = if i < A.m ∧ j < A.n ∧ inTri uplo i j then entry μ A i j else entry μ B i j) ∧
      ∀ l, ¬ B.Owns l → ν l = μ l := by
  have main : wp (lacpy uplo A B) μ (fun _ ν => MState B μ (fun i j =>
      if i < A.m ∧ j < A.n ∧ inTri uplo i j then entry μ A i j else entry μ B i j) ν) := by
    unfold lacpy
    simp only [wp_bind, wp_check]
    rw [if_pos (by rcases hu with rfl | rfl | rfl <;> rfl)]
    have h0 : MState B μ (entry μ B) μ := MState.init B μ _ (fun _ _ _ _ => rfl)
    rcases hu with rfl | rfl | rfl
    · rw [if_pos rfl]
      refine wp_conseq (wp_region (fun i j => entry μ A i j) h0 hB hn ?_ ?_) ?_
      · intro j _ _ _; exact le_trans (Nat.min_le_left _ _) hm
      · intro j i ν h1 h2 h3 h4 hν
        simp only [wp_bind, wp_get, wp_set]
        rw [hν.read hAB (by omega) (by omega)]
        exact ⟨by omega, by omega, rfl⟩
      · intro _ ν h
        refine h.congr (fun i j hi hj => if_congr ?_ rfl rfl)
        simp only [inTri]; omega
    · rw [if_neg (by decide), if_pos rfl]
      refine wp_conseq (wp_region (fun i j => entry μ A i j) h0 hB
        (le_trans (Nat.min_le_right _ _) hn) ?_ ?_) ?_
      · intro j _ _ _; exact hm
      · intro j i ν h1 h2 h3 h4 hν
        simp only [wp_bind, wp_get, wp_set]
        rw [hν.read hAB (by omega) (by omega)]
        exact ⟨by omega, by omega, rfl⟩
      · intro _ ν h
        refine h.congr (fun i j hi hj => if_congr ?_ rfl rfl)
        simp only [inTri]; omega
    · rw [if_neg (by decide), if_neg (by decide)]
      refine wp_conseq (wp_region (fun i j => entry μ A i j) h0 hB hn ?_ ?_) ?_
      · intro j _ _ _; exact hm
      · intro j i ν h1 h2 h3 h4 hν
        simp only [wp_bind, wp_get, wp_set]
        rw [hν.read hAB (by omega) (by omega)]
        exact ⟨by omega, by omega, rfl⟩
      · intro _ ν h
        refine h.congr (fun i j hi hj => if_congr ?_ rfl rfl)
        simp only [inTri, and_true]; omega
  obtain ⟨ν, e, h⟩ := wp_unit main
  exact ⟨ν, e, fun i j hi hj => h.val i j hi hj, h.frame⟩

/-- **C24** any other uplo is rejected with nothing written. -/
theorem C24_rejected (uplo : Uplo) (hu : ¬ (uplo = .Upper ∨ uplo = .Lower ∨ uplo = .General))
    (alpha beta : T) (A B : MatV L) (μ : Store L T) :
    laset uplo alpha beta A μ = (.error .check, μ) ∧ lacpy uplo A B μ = (.error .check, μ) := by
  cases uplo <;> first | (simp at hu; done) | exact ⟨rfl, rfl⟩

example : (mkM 0 3 2).Inj ∧ (mkM 0 3 2).Disj (mkM 1 3 2) := by
  constructor <;> adm

end TLA
