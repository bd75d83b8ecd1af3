import Verif.Proofs.Qr

/-! geqr2, gelq2, geql2, gerq2: the loops. -/

set_option linter.unusedSectionVars false
set_option linter.unusedTactic false
set_option linter.unreachableTactic false

namespace TLA
open Finset
variable {L 𝕜 : Type} [DecidableEq L] [RCLike 𝕜] [DecidableEq 𝕜] {p : HhPar}

/-- Columns within the range of Blue's algorithm. -/
def ColBound (p : HhPar) (store : StoreV) (μ : Store L 𝕜) (B : MatV L) : Prop :=
  ∀ c, c < B.n → ∑ r ∈ range B.m, ‖LG store μ B r c‖ ^ 2 ≤ p.tbig ^ 2

theorem larfWorksize_left {m n m' n' : Nat} (hm : m' ≤ m) (hn : n' ≤ n) :
    larfWorksize .Left m' n' ≤ larfWorksize .Left m n := by
  unfold larfWorksize
  simp only [true_and, reduceCtorEq, false_and, if_false]
  split
  · split
    · rw [if_pos (by omega), if_pos (by omega)]; exact hn
    · exact Nat.zero_le _
  · exact Nat.zero_le _

theorem larfWorksize_right {m n m' n' : Nat} (hm : m' ≤ m) (hn : n' ≤ n) :
    larfWorksize .Right m' n' ≤ larfWorksize .Right m n := by
  unfold larfWorksize
  simp only [true_and, reduceCtorEq, false_and, if_false]
  split
  · split
    · rw [if_pos (by omega), if_pos (by omega)]; exact hm
    · exact Nat.zero_le _
  · exact Nat.zero_le _

theorem wp_geqr2 (hl : HhLaws 𝕜 p) {A : MatV L} {tau work : VecV L} (ok : QrOK A tau work)
    (ht : min A.m A.n ≤ tau.n) (hw : geqr2Worksize A ≤ work.n) {μ : Store L 𝕜}
    (hb : ColBound p .Columnwise μ A) :
    wp (geqr2 (hhOps p) A tau work) μ (fun r ν => r = 0 ∧
      QrState .Forward .Columnwise A tau work (min A.m A.n) μ (min A.m A.n) ν) := by
  unfold geqr2
  simp only [wp_bind, wp_check]
  rw [if_pos (by simp only [Bool.not_eq_true', decide_eq_false_iff_not, not_lt]; exact ht)]
  by_cases h0 : A.n = 0 ∨ A.m = 0
  · rw [if_pos h0, wp_pure]
    have : min A.m A.n = 0 := by omega
    rw [this]
    exact ⟨rfl, QrState.start⟩
  rw [if_neg h0]
  simp only [wp_bind]
  generalize hk : min A.m A.n = k at ht ⊢
  refine wp_forUp_ (fun s ν => QrState .Forward .Columnwise A tau work k μ s ν) (Nat.zero_le _) QrState.start ?_ ?_
  · intro s ν _ hs hν
    have par : QrPar .Forward A.m A.n s s s A.m s (s + 1) A.n := ⟨rfl, rfl, rfl, rfl, rfl, rfl⟩
    simp only [wp_bind]
    refine wp_sliceCol (by omega) (by omega) (by omega) ?_
    refine wp_qrGen hl ok (P := s) (by omega) (le_refl _) (by omega) (by simp [pidx]) (by omega)
      (hν.tbig hl (by omega) (by omega) (by omega) par hb) ?_
    intro t ν2 mid
    refine wp_slice (by omega) (by omega) (by omega) (by omega) ?_
    refine wp_vgetE (by omega) ?_
    rw [show ν2 (tau.cell s) = t from mid.ti]
    refine wp_conseq (wp_qrApplyL ok (by omega) (le_refl _) (by omega) (le_refl _) (by omega) (by simp [pidx]) ?_ mid) ?_
    · refine le_trans (larfWorksize_left (m := A.m) (n := A.n - 1) (by omega) (by omega)) ?_
      unfold geqr2Worksize at hw
      rwa [if_pos (by omega)] at hw
    · rintro _ ν3 ⟨cs, fr⟩
      exact hν.next ok (by omega) (by omega) (by omega) ht par mid cs fr
  · intro ν hν
    by_cases hn : A.n - 1 < A.m
    · rw [if_pos hn]
      simp only [wp_bind]
      have e : min A.m (A.n - 1) = A.n - 1 := by omega
      rw [e] at hν
      have par : QrPar .Forward A.m A.n (A.n - 1) (A.n - 1) (A.n - 1) A.m (A.n - 1) (A.n - 1 + 1) A.n :=
        ⟨rfl, rfl, rfl, rfl, rfl, rfl⟩
      refine wp_sliceCol (by omega) (by omega) (by omega) ?_
      refine wp_qrGen hl ok (P := A.n - 1) (by omega) (le_refl _) (by omega) (by simp [pidx]) (by omega)
        (hν.tbig hl (by omega) (by omega) (by omega) par hb) ?_
      intro t ν2 mid
      rw [wp_pure]
      refine ⟨rfl, ?_⟩
      have := hν.next ok (by omega) (by omega) (by omega) ht par mid
        (mid.cs.extend (c0 := A.n - 1 + 1) (c1 := A.n) (le_refl _) (by omega) (le_refl _) (by omega) (by omega) (fun _ _ _ _ _ => rfl)
          (fun i j hi hj => by omega)) (fun _ _ _ => rfl)
      rwa [show A.n - 1 + 1 = k by omega] at this
    · rw [if_neg hn, wp_pure]
      refine ⟨rfl, ?_⟩
      rwa [show min A.m (A.n - 1) = k by omega] at hν

theorem wp_geql2 (hl : HhLaws 𝕜 p) {A : MatV L} {tau work : VecV L} (ok : QrOK A tau work)
    (ht : min A.m A.n ≤ tau.n) (hw : geql2Worksize A ≤ work.n) {μ : Store L 𝕜}
    (hb : ColBound p .Columnwise μ A) :
    wp (geql2 (hhOps p) A tau work) μ (fun r ν => r = 0 ∧
      QrState .Backward .Columnwise A tau work (min A.m A.n) μ (min A.m A.n) ν) := by
  unfold geql2
  simp only [wp_bind, wp_check]
  rw [if_pos (by simp only [Bool.not_eq_true', decide_eq_false_iff_not, not_lt]; exact ht)]
  by_cases h0 : A.n = 0
  · rw [if_pos h0, wp_pure]
    have : min A.m A.n = 0 := by omega
    rw [this]
    exact ⟨rfl, QrState.start⟩
  rw [if_neg h0]
  simp only [wp_bind]
  generalize hk : min A.m A.n = k at ht ⊢
  refine wp_forUp_ (fun s ν => QrState .Backward .Columnwise A tau work k μ s ν) (Nat.zero_le _) QrState.start ?_ ?_
  · intro s ν _ hs hν
    have par : QrPar .Backward A.m A.n s (A.m - 1 - s) 0 (A.m - s) (A.n - 1 - s) 0 (A.n - 1 - s) :=
      ⟨rfl, rfl, rfl, rfl, rfl, rfl⟩
    simp only [wp_bind]
    rw [show A.m - k + (k - 1 - s) + 1 = A.m - s by omega, show A.n - k + (k - 1 - s) = A.n - 1 - s by omega]
    refine wp_sliceCol (by omega) (by omega) (by omega) ?_
    have hP : A.m - 1 - s = 0 + pidx .Backward (A.m - s - 0) := by simp [pidx]; omega
    refine wp_qrGen hl ok (P := A.m - 1 - s) (by omega) (by omega) (by omega) hP (by omega)
      (hν.tbig hl (by omega) (by omega) (by omega) par hb) ?_
    intro t ν2 mid
    by_cases hc : A.n + (k - 1 - s) > k
    · rw [if_pos hc]
      simp only [wp_bind]
      refine wp_slice (by omega) (by omega) (by omega) (by omega) ?_
      refine wp_vgetE (by omega) ?_
      rw [show ν2 (tau.cell (k - 1 - s)) = t from mid.ti]
      refine wp_conseq (wp_qrApplyL ok (by omega) (by omega) (by omega) (by omega) (by omega) hP ?_ mid) ?_
      · refine le_trans (larfWorksize_left (m := A.m) (n := A.n - 1) (by omega) (by omega)) ?_
        unfold geql2Worksize at hw
        by_cases h1 : A.n > 1
        · rwa [if_pos h1] at hw
        · omega
      · rintro _ ν3 ⟨cs, fr⟩
        exact hν.next ok (by omega) (by omega) (by omega) ht par mid cs fr
    · rw [if_neg hc, wp_pure]
      exact hν.next ok (by omega) (by omega) (by omega) ht par mid
        (mid.cs.extend (by omega) (by omega) (by omega) (by omega) (by omega) (fun _ _ _ _ _ => rfl)
          (fun i j hi hj => by omega)) (fun _ _ _ => rfl)
  · intro ν hν
    rw [wp_pure]
    exact ⟨rfl, hν⟩

theorem wp_gelq2 (hl : HhLaws 𝕜 p) {A : MatV L} {tau work : VecV L} (ok : QrOK A tau work)
    (ht : min A.m A.n ≤ tau.n) (hw : gelq2Worksize A ≤ work.n) {μ : Store L 𝕜}
    (hb : ColBound p .Rowwise μ A.tr) :
    wp (gelq2 (hhOps p) A tau work) μ (fun r ν => r = 0 ∧
      QrState .Forward .Rowwise A.tr tau work (min A.m A.n) μ (min A.m A.n) ν) := by
  unfold gelq2
  simp only [wp_bind, wp_check]
  rw [if_pos (by simp only [Bool.not_eq_true', decide_eq_false_iff_not, not_lt]; exact ht)]
  generalize hk : min A.m A.n = k at ht ⊢
  have ok' := ok.tr
  refine wp_forUp_ (fun s ν => QrState .Forward .Rowwise A.tr tau work k μ s ν) (Nat.zero_le _) QrState.start ?_ ?_
  · intro s ν _ hs hν
    have e1 : A.tr.m = A.n := rfl
    have e2 : A.tr.n = A.m := rfl
    have par : QrPar .Forward A.tr.m A.tr.n s s s A.tr.m s (s + 1) A.tr.n := ⟨rfl, rfl, rfl, rfl, rfl, rfl⟩
    simp only [wp_bind]
    refine wp_sliceRow (by omega) (by omega) (by omega) ?_
    refine wp_qrGen (B := A.tr) (r0 := s) (r1 := A.n) (c := s) hl ok' (P := s) (by omega) (le_refl _) (by omega) (by simp [pidx]) (by omega)
      (hν.tbig hl (by omega) (by omega) (by omega) par hb) ?_
    intro t ν2 mid
    by_cases hc : s < k - 1 ∨ k < A.m
    · rw [if_pos hc]
      simp only [wp_bind]
      refine wp_slice (by omega) (by omega) (by omega) (by omega) ?_
      refine wp_vgetE (by omega) ?_
      rw [show ν2 (tau.cell s) = t from mid.ti]
      refine wp_conseq (wp_qrApplyR (c0 := s + 1) (c1 := A.m) ok' (by omega) (le_refl _) (by omega) (le_refl _) (by omega) (by simp [pidx]) ?_ mid) ?_
      · refine le_trans (larfWorksize_right (m := A.m - 1) (n := A.n) (by omega) (by omega)) ?_
        unfold gelq2Worksize at hw
        rwa [if_pos (by omega)] at hw
      · rintro _ ν3 ⟨cs, fr⟩
        exact hν.next ok' (by omega) (by omega) (by omega) ht par mid cs fr
    · rw [if_neg hc, wp_pure]
      exact hν.next ok' (by omega) (by omega) (by omega) ht par mid
        (mid.cs.extend (c0 := s + 1) (c1 := A.tr.n) (le_refl _) (by omega) (by omega) (by omega) (by omega) (fun _ _ _ _ _ => rfl)
          (fun i j hi hj => by omega)) (fun _ _ _ => rfl)
  · intro ν hν
    rw [wp_pure]
    exact ⟨rfl, hν⟩

theorem wp_gerq2 (hl : HhLaws 𝕜 p) {A : MatV L} {tau work : VecV L} (ok : QrOK A tau work)
    (ht : min A.m A.n ≤ tau.n) (hw : gerq2Worksize A ≤ work.n) {μ : Store L 𝕜}
    (hb : ColBound p .Rowwise μ A.tr) :
    wp (gerq2 (hhOps p) A tau work) μ (fun r ν => r = 0 ∧
      QrState .Backward .Rowwise A.tr tau work (min A.m A.n) μ (min A.m A.n) ν) := by
  unfold gerq2
  simp only [wp_bind, wp_check]
  rw [if_pos (by simp only [Bool.not_eq_true', decide_eq_false_iff_not, not_lt]; exact ht)]
  by_cases h0 : A.n = 0
  · rw [if_pos h0, wp_pure]
    have : min A.m A.n = 0 := by omega
    rw [this]
    exact ⟨rfl, QrState.start⟩
  rw [if_neg h0]
  simp only [wp_bind]
  generalize hk : min A.m A.n = k at ht ⊢
  have ok' := ok.tr
  refine wp_forUp_ (fun s ν => QrState .Backward .Rowwise A.tr tau work k μ s ν) (Nat.zero_le _) QrState.start ?_ ?_
  · intro s ν _ hs hν
    have e1 : A.tr.m = A.n := rfl
    have e2 : A.tr.n = A.m := rfl
    have par : QrPar .Backward A.tr.m A.tr.n s (A.n - 1 - s) 0 (A.n - s) (A.m - 1 - s) 0 (A.m - 1 - s) :=
      ⟨rfl, rfl, rfl, rfl, rfl, rfl⟩
    simp only [wp_bind]
    refine wp_sliceRow (by omega) (by omega) (by omega) ?_
    have hP : A.n - 1 - s = 0 + pidx .Backward (A.n - s - 0) := by simp [pidx]; omega
    refine wp_qrGen (B := A.tr) (r0 := 0) (r1 := A.n - s) (c := A.m - 1 - s) hl ok' (P := A.n - 1 - s) (by omega) (by omega) (by omega) hP (by omega)
      (hν.tbig hl (by omega) (by omega) (by omega) par hb) ?_
    intro t ν2 mid
    by_cases hc : A.m > s + 1
    · rw [if_pos hc]
      simp only [wp_bind]
      refine wp_slice (by omega) (by omega) (by omega) (by omega) ?_
      refine wp_vgetE (by omega) ?_
      rw [show ν2 (tau.cell (k - 1 - s)) = t from mid.ti]
      refine wp_conseq (wp_qrApplyR (c0 := 0) (c1 := A.m - 1 - s) ok' (by omega) (by omega) (by omega) (by omega) (by omega) hP ?_ mid) ?_
      · refine le_trans (larfWorksize_right (m := A.m - 1) (n := A.n) (by omega) (by omega)) ?_
        unfold gerq2Worksize at hw
        rwa [if_pos (by omega)] at hw
      · rintro _ ν3 ⟨cs, fr⟩
        exact hν.next ok' (by omega) (by omega) (by omega) ht par mid cs fr
    · rw [if_neg hc, wp_pure]
      exact hν.next ok' (by omega) (by omega) (by omega) ht par mid
        (mid.cs.extend (by omega) (by omega) (by omega) (by omega) (by omega) (fun _ _ _ _ _ => rfl)
          (fun i j hi hj => by omega)) (fun _ _ _ => rfl)
  · intro ν hν
    rw [wp_pure]
    exact ⟨rfl, hν⟩

end TLA
