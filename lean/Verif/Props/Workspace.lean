import Verif.Model.Workspace
import Verif.Props.Layout
import Mathlib.Tactic.Linarith
import Mathlib.Tactic.SplitIfs

/-! # C05: the workspace requirement algebra -/

set_option linter.unusedSimpArgs false

namespace TLA

/-- A requirement the constructors and the operations can produce: one marked as a vector has one
column. -/
def WorkInfo.Valid (w : WorkInfo) : Prop := w.isVector = true → w.n = 1

/-- **C05** everything reachable through the public constructors and operations is valid. -/
theorem C05_valid (w w1 : WorkInfo) (h : w.Valid) (h1 : w1.Valid) (s m n : Nat) :
    (WorkInfo.ofSize s).Valid ∧ (WorkInfo.ofMat m n).Valid ∧ (w.minMax w1).Valid ∧
      (w.add w1).Valid ∧ w.transpose.Valid := by
  unfold WorkInfo.Valid at *
  refine ⟨fun _ => rfl, by simp [WorkInfo.ofMat], ?_, ?_, ?_⟩
  · unfold WorkInfo.minMax
    split_ifs <;> simp_all
  · unfold WorkInfo.add
    split_ifs <;> simp_all
    intro a
    cases hv : w1.isVector <;> simp_all
  · unfold WorkInfo.transpose WorkInfo.ofMat
    split_ifs with hc
    · exact h
    · simp

/-- **C05** minMax yields at least both sizes. -/
theorem C05_minMax_size (w w1 : WorkInfo) :
    w.size ≤ (w.minMax w1).size ∧ w1.size ≤ (w.minMax w1).size := by
  unfold WorkInfo.minMax
  split_ifs with a b c d e
  · omega
  · omega
  · simp only [WorkInfo.size, Nat.mul_one]; omega
  · refine ⟨Nat.le_refl _, ?_⟩
    rcases d with ⟨d, d'⟩ | ⟨_, d, d'⟩
    · exact Nat.mul_le_mul d d'
    · simp only [WorkInfo.size]; rw [Nat.mul_comm]; exact Nat.mul_le_mul d d'
  · refine ⟨?_, Nat.le_refl _⟩
    rcases e with ⟨d, d'⟩ | ⟨_, d, d'⟩
    · exact Nat.mul_le_mul d d'
    · simp only [WorkInfo.size]; rw [Nat.mul_comm]; exact Nat.mul_le_mul d d'
  · simp only [WorkInfo.size, Nat.mul_one]; omega

/-- **C05** `+=` yields exactly the sum of the sizes. -/
theorem C05_add_size (w w1 : WorkInfo) (h : w.Valid) (h1 : w1.Valid) :
    (w.add w1).size = w.size + w1.size := by
  unfold WorkInfo.add WorkInfo.Valid at *
  split_ifs with a b c d e f g
  · omega
  · omega
  · simp [WorkInfo.size]
  · simp only [WorkInfo.size]; rw [Nat.add_mul, d]
  · simp only [WorkInfo.size]; rw [Nat.mul_add, e]
  · simp only [WorkInfo.size]; rw [h1 f.1, Nat.add_mul, f.2]; omega
  · simp only [WorkInfo.size]; rw [h g.1, Nat.add_mul, g.2]; omega
  · simp [WorkInfo.size]

/-- **C05** a contiguity demand of a nonempty argument is never dropped. -/
theorem C05_contiguous_kept (w w1 : WorkInfo) (h : 0 < w.size) (h1 : 0 < w1.size)
    (hc : w.isContiguous = true ∨ w1.isContiguous = true) :
    (w.minMax w1).isContiguous = true ∧ (w.add w1).isContiguous = true := by
  have : (w.isContiguous || w1.isContiguous) = true := by simpa using hc
  unfold WorkInfo.minMax WorkInfo.add
  have a : ¬ w1.size = 0 := by omega
  have b : ¬ w.size = 0 := by omega
  simp only [if_neg a, if_neg b, this, if_true, and_self]

/-- **C05** the empty requirement is neutral, on both sides. -/
theorem C05_neutral (w : WorkInfo) (e : WorkInfo) (he : e.size = 0) :
    w.minMax e = w ∧ w.add e = w ∧ (0 < w.size → e.minMax w = w ∧ e.add w = w) := by
  unfold WorkInfo.minMax WorkInfo.add
  refine ⟨if_pos he, if_pos he, fun h => ?_⟩
  rw [if_neg (by omega), if_pos he, if_neg (by omega), if_pos he]
  exact ⟨rfl, rfl⟩

/-- **C05** transpose keeps the size. -/
theorem C05_transpose_size (w : WorkInfo) : w.transpose.size = w.size := by
  unfold WorkInfo.transpose
  split
  · rfl
  · simp [WorkInfo.size, WorkInfo.ofMat, Nat.mul_comm]

/-- **C05** deviation: transpose forgets a contiguity demand (a contiguous requirement that is not
marked as a vector and is nonempty always comes out non-contiguous). -/
theorem C05_transpose_drops_contiguous (w : WorkInfo) (h : 0 < w.size) (hv : w.isVector = false) :
    w.transpose.isContiguous = false := by
  unfold WorkInfo.transpose
  rw [if_neg (by simp [hv]; omega)]
  rfl

example : ∃ w w1 : WorkInfo, w.Valid ∧ w1.Valid ∧ 0 < w.size ∧
    w.isVector = false ∧ (w.minMax w1).isContiguous = true ∧
      (w.minMax w1).transpose.isContiguous = false :=
  ⟨.ofMat 2 3, .ofMat 3 1, by simp [WorkInfo.Valid, WorkInfo.ofMat],
    by simp [WorkInfo.Valid, WorkInfo.ofMat], by decide, rfl, by decide, by decide⟩

/-- **C05** contiguous memory of at least the `minMax` size serves either request: reshape to
the shape of `w` and to the shape of `w1` both succeed. -/
theorem C05_minMax_serves (A : LMat) (hA : A.WF) (hc : A.isContiguous = true) (w w1 : WorkInfo)
    (hs : (w.minMax w1).size ≤ A.size) :
    (∃ X Y, A.reshape w.m w.n = .ok (X, Y)) ∧ (∃ X Y, A.reshape w1.m w1.n = .ok (X, Y)) := by
  obtain ⟨h1, h2⟩ := C05_minMax_size w w1
  exact ⟨(C04_reshape_matrix_throws A hA _ _).2 ⟨Nat.le_trans h1 hs, Or.inl hc⟩,
    (C04_reshape_matrix_throws A hA _ _).2 ⟨Nat.le_trans h2 hs, Or.inl hc⟩⟩

/-- **C05** contiguous memory of at least the `+=` size serves both requests one after the other:
reshape to the first, then reshape the rest to the second; the two do not overlap. -/
theorem C05_add_serves (A : LMat) (hA : A.WF) (hc : A.isContiguous = true) (w w1 : WorkInfo)
    (h : w.Valid) (h1 : w1.Valid) (hs : (w.add w1).size ≤ A.size) :
    ∃ X Y X1 Y1, A.reshape w.m w.n = .ok (X, Y) ∧ Y.reshape w1.m w1.n = .ok (X1, Y1) ∧
      ∀ a, ¬ (X.view.Owns a ∧ X1.view.Owns a) := by
  rw [C05_add_size w w1 h h1] at hs
  unfold WorkInfo.size at hs
  have e : A.reshape w.m w.n = .ok (LMat.new3 A.layout w.m w.n A.ptr, A.rest (w.m * w.n)) := by
    unfold LMat.reshape
    rw [if_neg (by unfold LMat.size at hs; omega), if_pos hc]
  obtain ⟨w1', w2', s1, s2, _, sp⟩ := C04_reshape_matrix A hA _ _ _ _ e
  obtain ⟨X1, Y1, h2⟩ := (C04_reshape_matrix_throws _ w2' w1.m w1.n).2
    ⟨by rw [s2]; omega, Or.inl (A.rest_contig _)⟩
  obtain ⟨_, _, _, _, _, sp2⟩ := C04_reshape_matrix _ w2' _ _ _ _ h2
  refine ⟨_, _, X1, Y1, e, h2, fun a ha => ?_⟩
  exact sp.2 a ⟨ha.1, (sp2.1 a).2 (Or.inl ha.2)⟩

/-- **C05** deviation: for memory with gaps the answer of `minMax` may be too weak.  A `3×5`
requirement is returned for a `3×5` and a `2×4` request, without asking for contiguous memory,
but `reshape` refuses to make a `2×4` matrix out of a `3×5` one with gaps. -/
theorem C05_minMax_gaps_violated :
    ∃ (w w1 : WorkInfo) (A : LMat), A.WF ∧ (w.minMax w1).isContiguous = false ∧
      A.m = (w.minMax w1).m ∧ A.n = (w.minMax w1).n ∧
      A.reshape w1.m w1.n = .error .check :=
  ⟨.ofMat 3 5, .ofMat 2 4, ⟨.ColMajor, 3, 5, 0, 4⟩, by simp [LMat.WF], by decide, by decide,
    by decide, by rfl⟩

end TLA
