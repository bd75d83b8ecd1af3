import Verif.Model.Layout
import Verif.Spec
import Mathlib.Tactic.Ring
import Mathlib.Tactic.Linarith

/-!
# C01–C04: views of LegacyMatrix / LegacyVector / LegacyBandedMatrix
-/

set_option linter.unusedSimpArgs false
set_option linter.unusedTactic false
set_option linter.unreachableTactic false

namespace TLA

/-- The constructor check passed: the leading dimension covers a column (a row). -/
def LMat.WF (A : LMat) : Prop :=
  match A.layout with
  | .ColMajor => A.m ≤ A.ldim
  | .RowMajor => A.n ≤ A.ldim

/-- `WF` is exactly what the constructor accepts. -/
theorem C02_constructor (layout : Layout) (m n ptr ldim : Nat) (A : LMat) :
    LMat.new layout m n ptr ldim = .ok A ↔ A = ⟨layout, m, n, ptr, ldim⟩ ∧ A.WF := by
  unfold LMat.new
  cases layout <;> simp only [ge_iff_le] <;> split <;> simp_all [LMat.WF, eq_comm] <;>
    (rintro rfl; simp; omega)

theorem LMat.new_of_wf {A : LMat} (h : A.WF) :
    LMat.new A.layout A.m A.n A.ptr A.ldim = .ok A :=
  (C02_constructor _ _ _ _ _ _).2 ⟨rfl, h⟩

/-- **C02** The constructor without a leading dimension always succeeds with a valid view. -/
theorem C02_constructor_packed (layout : Layout) (m n ptr : Nat) :
    (LMat.new3 layout m n ptr).WF := by
  cases layout <;> simp [LMat.new3, LMat.WF]

/-! ### C02: distinct entries are distinct cells, all inside the allocation -/

theorem addr_inj {i j i' j' ld : Nat} (hi : i < ld) (hi' : i' < ld)
    (h : i + j * ld = i' + j' * ld) : i = i' ∧ j = j' := by
  have hj : j = j' := by
    have h1 : (i + j * ld) / ld = j := by
      rw [Nat.add_mul_div_right _ _ (by omega), Nat.div_eq_of_lt hi, Nat.zero_add]
    have h2 : (i' + j' * ld) / ld = j' := by
      rw [Nat.add_mul_div_right _ _ (by omega), Nat.div_eq_of_lt hi', Nat.zero_add]
    rw [← h1, ← h2, h]
  subst hj
  exact ⟨by omega, rfl⟩

/-- **C02** Two different in-range index pairs never share a cell. -/
theorem C02_distinct_cells (A : LMat) (h : A.WF) : A.view.Inj := by
  intro i j i' j' hi hj hi' hj' e
  simp only [LMat.view, LMat.cell] at *
  unfold LMat.WF at h
  cases hl : A.layout <;> simp only [hl] at e h
  · exact addr_inj (ld := A.ldim) (by omega) (by omega) (by omega)
  · have := addr_inj (i := j) (i' := j') (j := i) (j' := i') (ld := A.ldim)
      (by omega) (by omega) (by omega)
    exact ⟨this.2, this.1⟩

/-- **C02** Every in-range cell lies between the pointer and the end of the last column
(column major) or of the last row (row major). -/
theorem C02_in_allocation (A : LMat) (i j : Nat) (hi : i < A.m) (hj : j < A.n) :
    A.ptr ≤ A.view.cell i j ∧ A.view.cell i j <
      A.ptr + (match A.layout with
        | .ColMajor => (A.n - 1) * A.ldim + A.m
        | .RowMajor => (A.m - 1) * A.ldim + A.n) := by
  simp only [LMat.view, LMat.cell]
  cases hl : A.layout <;> simp only
  · have := Nat.mul_le_mul_right A.ldim (show j ≤ A.n - 1 by omega)
    omega
  · have := Nat.mul_le_mul_right A.ldim (show i ≤ A.m - 1 by omega)
    omega

/-- **C02** transpose_view: same storage, indices swapped, the other layout; applying it twice
gives back the matrix. -/
theorem C02_transpose_view (A : LMat) (h : A.WF) :
    ∃ B, A.transposeView = .ok B ∧ B.WF ∧ B.m = A.n ∧ B.n = A.m ∧ B.layout ≠ A.layout ∧
      (∀ i j, B.view.cell i j = A.view.cell j i) ∧ B.transposeView = .ok A := by
  obtain ⟨l, m, n, p, ld⟩ := A
  cases l <;> simp only [LMat.WF] at h
  · refine ⟨⟨.RowMajor, n, m, p, ld⟩, ?_, h, rfl, rfl, by simp, ?_, ?_⟩
    · simp [LMat.transposeView, LMat.new, h]
    · intro i j; simp only [LMat.view, LMat.cell]; omega
    · simp [LMat.transposeView, LMat.new, h]
  · refine ⟨⟨.ColMajor, n, m, p, ld⟩, ?_, h, rfl, rfl, by simp, ?_, ?_⟩
    · simp [LMat.transposeView, LMat.new, h]
    · intro i j; simp only [LMat.view, LMat.cell]; omega
    · simp [LMat.transposeView, LMat.new, h]

/-- **C02** Banded matrices: inside the band distinct indices are distinct cells of the
`(kl+ku+1)*n` array, and exactly the in-range entries of the band may be accessed. -/
theorem C02_banded (A : LBand) :
    (∀ i j, (A.at i j).isSome ↔ i < A.m ∧ j < A.n ∧ j ≤ i + A.ku ∧ i ≤ j + A.kl) ∧
    (∀ i j a, A.at i j = some a →
      A.ptr ≤ a ∧ a < A.ptr + (A.kl + A.ku + 1) * A.n) ∧
    (∀ i j i' j' a, A.at i j = some a → A.at i' j' = some a → i = i' ∧ j = j') := by
  have key : ∀ i j a, A.at i j = some a →
      (i < A.m ∧ j < A.n ∧ j ≤ i + A.ku ∧ i ≤ j + A.kl) ∧
      a = A.ptr + ((A.ku + i - j) + j * (A.ku + A.kl + 1)) := by
    intro i j a h
    unfold LBand.at at h
    split at h
    · rename_i hc
      refine ⟨hc, ?_⟩
      have : j * (A.ku + A.kl + 1) = j * (A.ku + A.kl) + j := by ring
      rw [this]
      have := Option.some.inj h
      omega
    · cases h
  refine ⟨?_, ?_, ?_⟩
  · intro i j
    unfold LBand.at
    split <;> simp_all
  · intro i j a h
    obtain ⟨⟨h1, h2, h3, h4⟩, e⟩ := key i j a h
    refine ⟨by omega, ?_⟩
    have := Nat.mul_le_mul_right (A.ku + A.kl + 1) (show j ≤ A.n - 1 by omega)
    have e2 : (A.kl + A.ku + 1) * A.n = (A.n - 1) * (A.ku + A.kl + 1) + (A.ku + A.kl + 1) := by
      obtain ⟨k, hk⟩ : ∃ k, A.n = k + 1 := ⟨A.n - 1, by omega⟩
      rw [hk, Nat.add_sub_cancel]; ring
    omega
  · intro i j i' j' a h h'
    obtain ⟨⟨h1, h2, h3, h4⟩, e⟩ := key i j a h
    obtain ⟨⟨h1', h2', h3', h4'⟩, e'⟩ := key i' j' a h'
    have := addr_inj (i := A.ku + i - j) (i' := A.ku + i' - j') (j := j) (j' := j')
      (ld := A.ku + A.kl + 1) (by omega) (by omega) (by omega)
    omega

/-- A band matrix that its constructor accepts. -/
example : ∃ A, LBand.new 5 6 2 1 100 = .ok A ∧ A.at 3 4 = some (100 + 16) := ⟨_, rfl, rfl⟩

theorem rangeOK_of {a b n : Nat} (h : a ≤ b) (h' : b ≤ n) : rangeOK a b n := ⟨by omega, h', h⟩

/-! ### C01: views alias the parent's entries -/

theorem LMat.cell_shift (A : LMat) (r c i j : Nat) (m n : Nat) :
    (LMat.mk A.layout m n (A.cell r c) A.ldim).cell i j = A.cell (r + i) (c + j) := by
  simp only [LMat.cell]
  cases A.layout <;> simp only <;> ring

/-- **C01** slice: for every in-range pair of ranges the call succeeds (no assert, no exception),
the result is a valid matrix whose entry `(i,j)` is entry `(r0+i, c0+j)` of the parent. -/
theorem C01_slice (A : LMat) (h : A.WF) (r0 r1 c0 c1 : Nat) (hr : r0 ≤ r1) (hr1 : r1 ≤ A.m)
    (hc : c0 ≤ c1) (hc1 : c1 ≤ A.n) :
    ∃ S, A.slice r0 r1 c0 c1 = .ok S ∧ S.WF ∧ S.m = r1 - r0 ∧ S.n = c1 - c0 ∧
      ∀ i j, S.view.cell i j = A.view.cell (r0 + i) (c0 + j) := by
  refine ⟨⟨A.layout, r1 - r0, c1 - c0, A.cell r0 c0, A.ldim⟩, ?_, ?_, rfl, rfl,
    fun i j => A.cell_shift r0 c0 i j _ _⟩
  · unfold LMat.slice
    rw [if_pos ⟨⟨by omega, hr1, hr⟩, ⟨by omega, hc1, hc⟩⟩]
    exact (C02_constructor _ _ _ _ _ _).2 ⟨rfl, by
      revert h; unfold LMat.WF; cases A.layout <;> simp only <;> omega⟩
  · revert h; unfold LMat.WF; cases A.layout <;> simp only <;> omega

/-- **C01** slice refines the abstract slice of the routine models (Core.lean): same success
condition, same view. -/
theorem C01_slice_refines (A : LMat) (h : A.WF) (r0 r1 c0 c1 : Nat) (T : Type) (μ : Store Nat T) :
    (MatV.slice A.view r0 r1 c0 c1) μ = ((A.slice r0 r1 c0 c1).map LMat.view, μ) := by
  unfold MatV.slice
  split
  · rename_i hc
    obtain ⟨S, hS, _, hm, hn, hcell⟩ := C01_slice A h r0 r1 c0 c1 hc.1.2.2 hc.1.2.1 hc.2.2.2 hc.2.2.1
    rw [hS]
    show (Except.ok (A.view.sub r0 r1 c0 c1), μ) = (Except.ok S.view, μ)
    have : S.view = A.view.sub r0 r1 c0 c1 := by
      unfold MatV.sub LMat.view
      rw [hm, hn]
      congr 1
      funext i j
      exact hcell i j
    rw [this]
  · rename_i hc
    unfold LMat.slice
    have : ¬ (rangeOK r0 r1 A.m ∧ rangeOK c0 c1 A.n) := hc
    rw [if_neg this]
    rfl

/-- **C01** a slice of a slice is a slice of the parent. -/
theorem C01_slice_slice (A S : LMat) (h : A.WF) (r0 r1 c0 c1 a b c d : Nat)
    (hS : A.slice r0 r1 c0 c1 = .ok S) (hab : a ≤ b) (hb : b ≤ S.m) (hcd : c ≤ d) (hd : d ≤ S.n) :
    S.slice a b c d = A.slice (r0 + a) (r0 + b) (c0 + c) (c0 + d) := by
  unfold LMat.slice at hS
  split at hS
  · rename_i hc
    obtain ⟨⟨_, h1, h2⟩, ⟨_, h3, h4⟩⟩ := hc
    obtain ⟨rfl, hw⟩ := (C02_constructor _ _ _ _ _ _).1 hS
    simp only at hb hd
    unfold LMat.slice
    simp only
    rw [if_pos ⟨rangeOK_of hab hb, rangeOK_of hcd hd⟩,
      if_pos ⟨rangeOK_of (by omega) (by omega), rangeOK_of (by omega) (by omega)⟩]
    rw [show r0 + b - (r0 + a) = b - a by omega, show c0 + d - (c0 + c) = d - c by omega]
    congr 1
    cases A.layout <;> simp only <;> ring
  · cases hS

/-- **C01** rows, cols: full-width and full-height slices. -/
theorem C01_rows_cols (A : LMat) (h : A.WF) (a b : Nat) (hab : a ≤ b) :
    (b ≤ A.m → A.rows a b = A.slice a b 0 A.n) ∧
    (b ≤ A.n → A.cols a b = A.slice 0 A.m a b) := by
  constructor <;> intro hb
  · unfold LMat.rows LMat.slice
    rw [if_pos (rangeOK_of hab hb),
      if_pos ⟨rangeOK_of hab hb, rangeOK_of (Nat.zero_le _) (Nat.le_refl _)⟩]
    cases A.layout <;> simp
  · unfold LMat.cols LMat.slice
    rw [if_pos (rangeOK_of hab hb),
      if_pos ⟨rangeOK_of (Nat.zero_le _) (Nat.le_refl _), rangeOK_of hab hb⟩]
    cases A.layout <;> simp

/-- **C01** part of a row / of a column as a vector. -/
theorem C01_slice_vec (A : LMat) (a b k : Nat) (hab : a ≤ b) :
    (b ≤ A.n → k < A.m → ∃ x, A.sliceRow k a b = .ok x ∧ x.n = b - a ∧
      ∀ j, x.view.cell j = A.view.cell k (a + j)) ∧
    (b ≤ A.m → k < A.n → ∃ x, A.sliceCol a b k = .ok x ∧ x.n = b - a ∧
      ∀ i, x.view.cell i = A.view.cell (a + i) k) := by
  constructor <;> intro hb hk
  · refine ⟨_, by unfold LMat.sliceRow; rw [if_pos ⟨rangeOK_of hab hb, hk⟩], rfl, ?_⟩
    intro j
    simp only [LVec.view, LVec.cell, LMat.view, LMat.cell]
    cases A.layout <;> simp only <;> ring
  · refine ⟨_, by unfold LMat.sliceCol; rw [if_pos ⟨rangeOK_of hab hb, hk⟩], rfl, ?_⟩
    intro j
    simp only [LVec.view, LVec.cell, LMat.view, LMat.cell]
    cases A.layout <;> simp only <;> ring

/-- **C01** whole rows and columns. -/
theorem C01_row_col (A : LMat) (k : Nat) :
    (k < A.m → A.row k = A.sliceRow k 0 A.n) ∧ (k < A.n → A.col k = A.sliceCol 0 A.m k) := by
  constructor <;> intro hk
  · unfold LMat.row LMat.sliceRow
    rw [if_pos hk, if_pos ⟨rangeOK_of (Nat.zero_le _) (Nat.le_refl _), hk⟩]
    cases A.layout <;> simp
  · unfold LMat.col LMat.sliceCol
    rw [if_pos hk, if_pos ⟨rangeOK_of (Nat.zero_le _) (Nat.le_refl _), hk⟩]
    cases A.layout <;> simp

/-- Rows above the diagonal `d` starts in. -/
def diagRow (d : Int) : Nat := (-d).toNat
/-- Columns left of where the diagonal `d` starts. -/
def diagCol (d : Int) : Nat := d.toNat

/-- **C01** diag: the `d`-th diagonal starts at `(0,d)` or `(-d,0)`, element `k` is the entry `k`
further down and right, and the vector ends exactly where the diagonal leaves the matrix. -/
theorem C01_diag (A : LMat) (d : Int) (h1 : d ≥ 0 ∨ diagRow d < A.m)
    (h2 : d ≤ 0 ∨ diagCol d < A.n) :
    ∃ x, A.diag d = .ok x ∧
      (∀ k, k < x.n ↔ diagRow d + k < A.m ∧ diagCol d + k < A.n) ∧
      ∀ k, x.view.cell k = A.view.cell (diagRow d + k) (diagCol d + k) := by
  unfold diagRow diagCol at *
  refine ⟨_, by unfold LMat.diag; rw [if_pos ⟨h1, h2⟩], ?_, ?_⟩
  · intro k
    simp only
    split <;> omega
  · intro k
    simp only [LVec.view, LVec.cell, LMat.view, LMat.cell]
    by_cases hd : d ≥ 0
    · have : (-d).toNat = 0 := by omega
      cases A.layout <;> simp only [hd, if_true, this] <;> ring
    · have : d.toNat = 0 := by omega
      cases A.layout <;> simp only [hd, if_false, this] <;> ring

/-- A 3×4 row-major matrix with leading dimension 6, and one of its slices. -/
example : (LMat.mk .RowMajor 3 4 10 6).WF ∧
    (LMat.mk .RowMajor 3 4 10 6).slice 1 3 1 4 = .ok ⟨.RowMajor, 2, 3, 17, 6⟩ :=
  ⟨by simp [LMat.WF], rfl⟩

example : (LMat.mk .ColMajor 5 4 10 7).diag (-2) = .ok ⟨3, 12, 8, .Forward⟩ := rfl

/-! ### C03: vector slices -/

/-- **C03** slices of forward vectors. -/
theorem C03_forward (x : LVec) (hd : x.dir = .Forward) (a b : Nat) (hab : a ≤ b) (hb : b ≤ x.n) :
    ∃ y, x.slice a b = .ok y ∧ y.n = b - a ∧ ∀ i, y.view.cell i = x.view.cell (a + i) := by
  refine ⟨_, by unfold LVec.slice; rw [if_pos (rangeOK_of hab hb)], rfl, ?_⟩
  intro i
  simp only [LVec.view, LVec.cell, hd]
  ring

/-- **C03** what the code does with a backward vector: element `i` of `slice(x,{a,b})` is element
`n-b+i` of `x` – the slice is taken from the wrong end. -/
theorem C03_backward (x : LVec) (hd : x.dir = .Backward) (a b : Nat) (hab : a ≤ b)
    (hb : b ≤ x.n) :
    ∃ y, x.slice a b = .ok y ∧ y.n = b - a ∧
      ∀ i, i < y.n → y.view.cell i = x.view.cell (x.n - b + i) := by
  refine ⟨_, by unfold LVec.slice; rw [if_pos (rangeOK_of hab hb)], rfl, ?_⟩
  intro i hi
  simp only at hi
  simp only [LVec.view, LVec.cell, hd]
  rw [show x.n - 1 - (x.n - b + i) = (b - a - 1 - i) + a by omega]
  ring

/-- **C03** is therefore violated for `Direction::Backward`: unless `b = n - a`, every element of
a nonempty slice is a cell different from the one the slice should denote. -/
theorem C03_backward_violated (x : LVec) (hd : x.dir = .Backward) (hinc : 0 < x.inc) (a b : Nat)
    (hab : a < b) (hb : b ≤ x.n) (hne : b ≠ x.n - a) :
    ∃ y, x.slice a b = .ok y ∧ ∀ i, i < y.n → y.view.cell i ≠ x.view.cell (a + i) := by
  obtain ⟨y, hy, hn, hc⟩ := C03_backward x hd a b (by omega) hb
  refine ⟨y, hy, fun i hi e => ?_⟩
  rw [hc i hi] at e
  simp only [LVec.view, LVec.cell, hd] at e
  have := Nat.eq_of_mul_eq_mul_right hinc (Nat.add_left_cancel e)
  omega

/-- The violation is met: the first element of a 3-vector read backwards. -/
example : ∃ y, (LVec.mk 3 0 1 .Backward).slice 0 1 = .ok y ∧
    y.view.cell 0 = 0 ∧ (LVec.mk 3 0 1 .Backward).view.cell 0 = 2 := ⟨_, rfl, rfl, rfl⟩

/-- **C03** Entries of a vector with nonzero stride are distinct cells, in both directions. -/
theorem C03_distinct_cells (x : LVec) (hinc : 0 < x.inc) : x.view.Inj := by
  intro i i' hi hi' e
  simp only [LVec.view, LVec.cell] at *
  cases hd : x.dir <;> simp only [hd] at e
  · exact Nat.eq_of_mul_eq_mul_right hinc (by omega)
  · have := Nat.eq_of_mul_eq_mul_right hinc (Nat.add_left_cancel e)
    omega

/-! ### C04: reshape -/

/-- The element count of a matrix. -/
def LMat.size (A : LMat) : Nat := A.m * A.n

theorem packed_owns {m n p a : Nat} :
    (∃ i j, i < m ∧ j < n ∧ p + (i + j * m) = a) ↔ p ≤ a ∧ a < p + m * n := by
  constructor
  · rintro ⟨i, j, hi, hj, rfl⟩
    refine ⟨by omega, ?_⟩
    have := Nat.mul_le_mul_right m (show j + 1 ≤ n by omega)
    have e : (j + 1) * m = j * m + m := by ring
    have e2 : n * m = m * n := by ring
    omega
  · rintro ⟨h1, h2⟩
    have hm : 0 < m := by
      rcases Nat.eq_zero_or_pos m with h | h
      · subst h; simp at h2; omega
      · exact h
    refine ⟨(a - p) % m, (a - p) / m, Nat.mod_lt _ hm, ?_, ?_⟩
    · exact Nat.div_lt_of_lt_mul (by omega)
    · have := Nat.mod_add_div (a - p) m
      rw [Nat.mul_comm] at this
      omega

/-- A contiguous matrix owns exactly the `m*n` cells from its pointer on. -/
theorem LMat.owns_contig (A : LMat) (h : A.isContiguous = true) (a : Nat) :
    A.view.Owns a ↔ A.ptr ≤ a ∧ a < A.ptr + A.m * A.n := by
  obtain ⟨l, m, n, p, ld⟩ := A
  unfold MatV.Owns LMat.view LMat.cell
  simp only [LMat.isContiguous, Bool.or_eq_true, Bool.and_eq_true, beq_iff_eq, decide_eq_true_eq]
    at h
  have h0 : m * n ≤ 1 → (m = 0 ∨ n = 0 ∨ (m = 1 ∧ n = 1)) := by
    intro h
    rcases m with _ | _ | m
    · simp
    · simp at h; omega
    · rcases n with _ | n
      · simp
      · exfalso
        have := Nat.mul_le_mul_right (n + 1) (show 2 ≤ m + 1 + 1 by omega)
        omega
  cases l <;> simp only at h ⊢
  · rw [← packed_owns]
    constructor
    · rintro ⟨i, j, hi, hj, e⟩
      refine ⟨i, j, hi, hj, ?_⟩
      rcases h with (h | h) | h
      · rcases h0 h with h | h | ⟨h, h'⟩
        · omega
        · omega
        · have : j = 0 := by omega
          subst this; simpa using e
      · rcases h.2 with h | h
        · rw [← h]; exact e
        · have : j = 0 := by omega
          subst this; simpa using e
      · simp at h
    · rintro ⟨i, j, hi, hj, e⟩
      refine ⟨i, j, hi, hj, ?_⟩
      rcases h with (h | h) | h
      · rcases h0 h with h | h | ⟨h, h'⟩
        · omega
        · omega
        · have : j = 0 := by omega
          subst this; simpa using e
      · rcases h.2 with h | h
        · rw [h]; exact e
        · have : j = 0 := by omega
          subst this; simpa using e
      · simp at h
  · rw [Nat.mul_comm m n, ← packed_owns]
    constructor
    · rintro ⟨i, j, hi, hj, e⟩
      refine ⟨j, i, hj, hi, ?_⟩
      rcases h with (h | h) | h
      · rcases h0 h with h | h | ⟨h, h'⟩
        · omega
        · omega
        · have : i = 0 := by omega
          subst this; simpa using e
      · simp at h
      · rcases h.2 with h | h
        · subst h; omega
        · have : i = 0 := by omega
          subst this; simpa using e
    · rintro ⟨j, i, hj, hi, e⟩
      refine ⟨i, j, hi, hj, ?_⟩
      rcases h with (h | h) | h
      · rcases h0 h with h | h | ⟨h, h'⟩
        · omega
        · omega
        · have : i = 0 := by omega
          subst this; simpa using e
      · simp at h
      · rcases h.2 with h | h
        · subst h; omega
        · have : i = 0 := by omega
          subst this; simpa using e

theorem LMat.new3_contig (l : Layout) (m n p : Nat) : (LMat.new3 l m n p).isContiguous = true := by
  cases l <;> simp [LMat.new3, LMat.isContiguous]

theorem LMat.rest_contig (A : LMat) (k : Nat) : (A.rest k).isContiguous = true := by
  unfold LMat.rest; cases A.layout <;> exact LMat.new3_contig _ _ _ _

theorem LMat.rest_wf (A : LMat) (k : Nat) : (A.rest k).WF := by
  unfold LMat.rest; cases A.layout <;> exact C02_constructor_packed _ _ _ _

theorem LMat.rest_size (A : LMat) (k : Nat) : (A.rest k).m * (A.rest k).n = A.m * A.n - k := by
  unfold LMat.rest; cases A.layout <;> simp [LMat.new3]

theorem LMat.rest_ptr (A : LMat) (k : Nat) : (A.rest k).ptr = A.ptr + k := by
  unfold LMat.rest; cases A.layout <;> simp [LMat.new3]

/-- A split of the storage of `A` into the parts `X` and `Y`: all cells are cells of `A`, no cell
is in both, and no cell is left over. -/
def Splits (A X Y : Nat → Prop) : Prop :=
  (∀ a, A a ↔ X a ∨ Y a) ∧ ∀ a, ¬ (X a ∧ Y a)

/-- The two parts of a matrix cut between two columns. -/
theorem splits_cols (A X Y : LMat) (hA : A.WF) (k : Nat) (hk : k ≤ A.n)
    (hX : A.cols 0 k = .ok X) (hY : A.cols k A.n = .ok Y) :
    X.WF ∧ Y.WF ∧ X.m = A.m ∧ X.n = k ∧ Y.m = A.m ∧ Y.n = A.n - k ∧
      Splits A.view.Owns X.view.Owns Y.view.Owns := by
  rw [(C01_rows_cols A hA 0 k (by omega)).2 hk] at hX
  rw [(C01_rows_cols A hA k A.n hk).2 (by omega)] at hY
  obtain ⟨X', h1, h2, h3, h4, h5⟩ := C01_slice A hA 0 A.m 0 k (by omega) (by omega) (by omega) hk
  obtain ⟨Y', g1, g2, g3, g4, g5⟩ :=
    C01_slice A hA 0 A.m k A.n (by omega) (by omega) hk (by omega)
  obtain rfl : X' = X := by rw [h1] at hX; exact Except.ok.inj hX
  obtain rfl : Y' = Y := by rw [g1] at hY; exact Except.ok.inj hY
  refine ⟨h2, g2, by omega, by omega, by omega, by omega, fun a => ⟨?_, ?_⟩, ?_⟩
  · rintro ⟨i, j, hi, hj, e⟩
    simp only [LMat.view] at hi hj e
    by_cases hjk : j < k
    · left
      refine ⟨i, j, by simp only [LMat.view]; omega, by simp only [LMat.view]; omega, ?_⟩
      rw [h5]; simpa [LMat.view] using e
    · right
      refine ⟨i, j - k, by simp only [LMat.view]; omega, by simp only [LMat.view]; omega, ?_⟩
      rw [g5, show k + (j - k) = j by omega]; simpa [LMat.view] using e
  · rintro (⟨i, j, hi, hj, e⟩ | ⟨i, j, hi, hj, e⟩)
    · simp only [LMat.view] at hi hj
      rw [h5] at e
      exact ⟨_, _, by simp only [LMat.view]; omega, by simp only [LMat.view]; omega, e⟩
    · simp only [LMat.view] at hi hj
      rw [g5] at e
      exact ⟨_, _, by simp only [LMat.view]; omega, by simp only [LMat.view]; omega, e⟩
  · rintro a ⟨⟨i, j, hi, hj, e⟩, ⟨i', j', hi', hj', e'⟩⟩
    simp only [LMat.view] at hi hj hi' hj'
    rw [h5] at e
    rw [g5] at e'
    have := C02_distinct_cells A hA _ _ _ _ (by simp only [LMat.view]; omega)
      (by simp only [LMat.view]; omega) (by simp only [LMat.view]; omega)
      (by simp only [LMat.view]; omega) (e.trans e'.symm)
    omega

theorem splits_rows (A X Y : LMat) (hA : A.WF) (k : Nat) (hk : k ≤ A.m)
    (hX : A.rows 0 k = .ok X) (hY : A.rows k A.m = .ok Y) :
    X.WF ∧ Y.WF ∧ X.m = k ∧ X.n = A.n ∧ Y.m = A.m - k ∧ Y.n = A.n ∧
      Splits A.view.Owns X.view.Owns Y.view.Owns := by
  rw [(C01_rows_cols A hA 0 k (by omega)).1 hk] at hX
  rw [(C01_rows_cols A hA k A.m hk).1 (by omega)] at hY
  obtain ⟨X', h1, h2, h3, h4, h5⟩ := C01_slice A hA 0 k 0 A.n (by omega) hk (by omega) (by omega)
  obtain ⟨Y', g1, g2, g3, g4, g5⟩ :=
    C01_slice A hA k A.m 0 A.n hk (by omega) (by omega) (by omega)
  obtain rfl : X' = X := by rw [h1] at hX; exact Except.ok.inj hX
  obtain rfl : Y' = Y := by rw [g1] at hY; exact Except.ok.inj hY
  refine ⟨h2, g2, by omega, by omega, by omega, by omega, fun a => ⟨?_, ?_⟩, ?_⟩
  · rintro ⟨i, j, hi, hj, e⟩
    simp only [LMat.view] at hi hj e
    by_cases hjk : i < k
    · left
      refine ⟨i, j, by simp only [LMat.view]; omega, by simp only [LMat.view]; omega, ?_⟩
      rw [h5]; simpa [LMat.view] using e
    · right
      refine ⟨i - k, j, by simp only [LMat.view]; omega, by simp only [LMat.view]; omega, ?_⟩
      rw [g5, show k + (i - k) = i by omega]; simpa [LMat.view] using e
  · rintro (⟨i, j, hi, hj, e⟩ | ⟨i, j, hi, hj, e⟩)
    · simp only [LMat.view] at hi hj
      rw [h5] at e
      exact ⟨_, _, by simp only [LMat.view]; omega, by simp only [LMat.view]; omega, e⟩
    · simp only [LMat.view] at hi hj
      rw [g5] at e
      exact ⟨_, _, by simp only [LMat.view]; omega, by simp only [LMat.view]; omega, e⟩
  · rintro a ⟨⟨i, j, hi, hj, e⟩, ⟨i', j', hi', hj', e'⟩⟩
    simp only [LMat.view] at hi hj hi' hj'
    rw [h5] at e
    rw [g5] at e'
    have := C02_distinct_cells A hA _ _ _ _ (by simp only [LMat.view]; omega)
      (by simp only [LMat.view]; omega) (by simp only [LMat.view]; omega)
      (by simp only [LMat.view]; omega) (e.trans e'.symm)
    omega

theorem cols_ok (A : LMat) (hA : A.WF) (a b : Nat) (hab : a ≤ b) (hb : b ≤ A.n) :
    ∃ X, A.cols a b = .ok X := by
  rw [(C01_rows_cols A hA a b hab).2 hb]
  obtain ⟨X, h, _⟩ := C01_slice A hA 0 A.m a b (by omega) (by omega) hab hb
  exact ⟨X, h⟩

theorem rows_ok (A : LMat) (hA : A.WF) (a b : Nat) (hab : a ≤ b) (hb : b ≤ A.m) :
    ∃ X, A.rows a b = .ok X := by
  rw [(C01_rows_cols A hA a b hab).1 hb]
  obtain ⟨X, h, _⟩ := C01_slice A hA a b 0 A.n hab hb (by omega) (by omega)
  exact ⟨X, h⟩

/-- A contiguous block of `k + r` cells split into its first `k` and last `r` cells. -/
theorem splits_block (A X Y : Nat → Prop) (p s k : Nat) (hk : k ≤ s)
    (hA : ∀ a, A a ↔ p ≤ a ∧ a < p + s) (hX : ∀ a, X a ↔ p ≤ a ∧ a < p + k)
    (hY : ∀ a, Y a ↔ p + k ≤ a ∧ a < p + k + (s - k)) : Splits A X Y := by
  refine ⟨fun a => ?_, fun a => ?_⟩
  · rw [hA, hX, hY]; omega
  · rw [hX, hY]; omega

/-- **C04** reshape(A,m,n): what is returned.  When it returns, the two matrices are valid,
together they are exactly the storage of `A` without overlap, the first one has `m*n` elements
and the second one the remaining ones; the first one is `m × n` unless nothing was asked for. -/
theorem C04_reshape_matrix (A : LMat) (hA : A.WF) (m n : Nat) (X Y : LMat)
    (h : A.reshape m n = .ok (X, Y)) :
    X.WF ∧ Y.WF ∧ X.size = m * n ∧ Y.size = A.size - m * n ∧
      (0 < m * n → X.m = m ∧ X.n = n) ∧ Splits A.view.Owns X.view.Owns Y.view.Owns := by
  unfold LMat.reshape at h
  unfold LMat.size
  split at h
  · cases h
  rename_i hs
  split at h
  · rename_i hc
    obtain ⟨rfl, rfl⟩ := Prod.mk.inj (Except.ok.inj h)
    refine ⟨C02_constructor_packed _ _ _ _, A.rest_wf _, rfl, A.rest_size _, fun _ => ⟨rfl, rfl⟩, ?_⟩
    refine splits_block _ _ _ A.ptr (A.m * A.n) (m * n) (by omega) (A.owns_contig hc)
      (fun a => LMat.owns_contig _ (LMat.new3_contig _ _ _ _) a) (fun a => ?_)
    rw [LMat.owns_contig _ (A.rest_contig _), A.rest_size, A.rest_ptr]
  rename_i hc
  split at h
  · rename_i hmn
    have hn : n ≤ A.n := by
      rcases hmn with rfl | rfl
      · rcases Nat.eq_zero_or_pos A.m with h0 | h0
        · exfalso; apply hc; simp [LMat.isContiguous, h0]
        · exact Nat.le_of_mul_le_mul_left (by omega) h0
      · omega
    obtain ⟨X', hX⟩ := cols_ok A hA 0 n (by omega) hn
    obtain ⟨Y', hY⟩ := cols_ok A hA n A.n hn (by omega)
    rw [hX, hY] at h
    obtain ⟨rfl, rfl⟩ := Prod.mk.inj (Except.ok.inj h)
    obtain ⟨w1, w2, e1, e2, e3, e4, sp⟩ := splits_cols A X' Y' hA n hn hX hY
    refine ⟨w1, w2, ?_, ?_, ?_, sp⟩
    · rw [e1, e2]; rcases hmn with rfl | rfl <;> simp
    · rw [e3, e4, Nat.mul_sub]; rcases hmn with rfl | rfl <;> simp
    · intro hp
      rcases hmn with rfl | rfl
      · exact ⟨e1, e2⟩
      · simp at hp
  rename_i hmn
  split at h
  · rename_i hnm
    have hm : m ≤ A.m := by
      rcases hnm with rfl | rfl
      · rcases Nat.eq_zero_or_pos A.n with h0 | h0
        · exfalso; apply hc; simp [LMat.isContiguous, h0]
        · exact Nat.le_of_mul_le_mul_right (by omega) h0
      · omega
    obtain ⟨X', hX⟩ := rows_ok A hA 0 m (by omega) hm
    obtain ⟨Y', hY⟩ := rows_ok A hA m A.m hm (by omega)
    rw [hX, hY] at h
    obtain ⟨rfl, rfl⟩ := Prod.mk.inj (Except.ok.inj h)
    obtain ⟨w1, w2, e1, e2, e3, e4, sp⟩ := splits_rows A X' Y' hA m hm hX hY
    refine ⟨w1, w2, ?_, ?_, ?_, sp⟩
    · rw [e1, e2]; rcases hnm with rfl | rfl <;> simp
    · rw [e3, e4, Nat.sub_mul]; rcases hnm with rfl | rfl <;> simp
    · intro hp
      rcases hnm with rfl | rfl
      · exact ⟨e1, e2⟩
      · simp at hp
  · cases h

/-- **C04** reshape(A,m,n): when it throws.  Only if more elements are asked for than there are,
or if the storage has gaps and the request is nonempty with other row and column counts;
never for contiguous storage. -/
theorem C04_reshape_matrix_throws (A : LMat) (hA : A.WF) (m n : Nat) :
    (∃ X Y, A.reshape m n = .ok (X, Y)) ↔
      m * n ≤ A.size ∧ (A.isContiguous = true ∨ m * n = 0 ∨ m = A.m ∨ n = A.n) := by
  unfold LMat.size
  constructor
  · rintro ⟨X, Y, h⟩
    unfold LMat.reshape at h
    split at h
    · cases h
    refine ⟨by omega, ?_⟩
    split at h
    · left; assumption
    · split at h
      · rename_i hh; rcases hh with hh | hh <;> simp [hh]
      · split at h
        · rename_i hh; rcases hh with hh | hh <;> simp [hh]
        · cases h
  · rintro ⟨h1, h2⟩
    unfold LMat.reshape
    rw [if_neg (by omega)]
    split
    · exact ⟨_, _, rfl⟩
    rename_i hc
    have h2' : (m = A.m ∨ n = 0) ∨ (n = A.n ∨ m = 0) := by
      rcases h2 with h2 | h2 | h2 | h2
      · exact absurd h2 hc
      · rcases Nat.mul_eq_zero.1 h2 with h | h <;> simp [h]
      · simp [h2]
      · simp [h2]
    split
    · rename_i hmn
      have hn : n ≤ A.n := by
        rcases hmn with rfl | rfl
        · rcases Nat.eq_zero_or_pos A.m with h0 | h0
          · exfalso; apply hc; simp [LMat.isContiguous, h0]
          · exact Nat.le_of_mul_le_mul_left (by omega) h0
        · omega
      obtain ⟨X', hX⟩ := cols_ok A hA 0 n (by omega) hn
      obtain ⟨Y', hY⟩ := cols_ok A hA n A.n hn (by omega)
      rw [hX, hY]
      exact ⟨X', Y', rfl⟩
    · rename_i hmn
      have hnm := h2'.resolve_left hmn
      rw [if_pos hnm]
      have hm : m ≤ A.m := by
        rcases hnm with rfl | rfl
        · rcases Nat.eq_zero_or_pos A.n with h0 | h0
          · exfalso; apply hc; simp [LMat.isContiguous, h0]
          · exact Nat.le_of_mul_le_mul_right (by omega) h0
        · omega
      obtain ⟨X', hX⟩ := rows_ok A hA 0 m (by omega) hm
      obtain ⟨Y', hY⟩ := rows_ok A hA m A.m hm (by omega)
      rw [hX, hY]
      exact ⟨X', Y', rfl⟩

/-- **C04** reshape of an empty request on storage with gaps does not have the requested shape:
asking for `m × 0` gives `A.m × 0`. -/
theorem C04_reshape_empty_shape (A : LMat) (hA : A.WF) (hc : A.isContiguous = false) (m : Nat)
    (hm : m ≠ A.m) : ∃ X Y, A.reshape m 0 = .ok (X, Y) ∧ X.m = A.m ∧ X.m ≠ m := by
  obtain ⟨X, hX⟩ := cols_ok A hA 0 0 (by omega) (by omega)
  obtain ⟨Y, hY⟩ := cols_ok A hA 0 A.n (by omega) (by omega)
  obtain ⟨_, _, e, _⟩ := splits_cols A X Y hA 0 (by omega) hX hY
  refine ⟨X, Y, ?_, e, by omega⟩
  unfold LMat.reshape
  rw [if_neg (by omega), if_neg (by simp [hc]), if_pos (Or.inr rfl), hX, hY]
  rfl

/-- Storage with gaps, a split by columns, and a refused request. -/
example : (LMat.mk .ColMajor 3 4 0 5).WF ∧ (LMat.mk .ColMajor 3 4 0 5).isContiguous = false ∧
    (LMat.mk .ColMajor 3 4 0 5).reshape 3 2 =
      .ok (⟨.ColMajor, 3, 2, 0, 5⟩, ⟨.ColMajor, 3, 2, 10, 5⟩) ∧
    (LMat.mk .ColMajor 3 4 0 5).reshape 2 2 = .error .check := 
  ⟨by simp [LMat.WF], by decide, by rfl, rfl⟩

theorem vec_owns_unit {n p a : Nat} : (LVec.mk n p 1 .Forward).view.Owns a ↔ p ≤ a ∧ a < p + n := by
  unfold VecV.Owns LVec.view LVec.cell
  simp only [Nat.mul_one]
  constructor
  · rintro ⟨i, hi, rfl⟩; omega
  · rintro ⟨h1, h2⟩; exact ⟨a - p, by omega, by omega⟩

/-- **C04** reshape(A,n): what is returned. -/
theorem C04_reshape_vector (A : LMat) (hA : A.WF) (n : Nat) (x : LVec) (Y : LMat)
    (h : A.reshapeV n = .ok (x, Y)) :
    x.n = n ∧ x.view.Inj ∧ Y.WF ∧ Y.size = A.size - n ∧
      Splits A.view.Owns x.view.Owns Y.view.Owns := by
  unfold LMat.reshapeV at h
  unfold LMat.size
  split at h
  · cases h
  rename_i hs
  split at h
  · rename_i hc
    obtain ⟨rfl, rfl⟩ := Prod.mk.inj (Except.ok.inj h)
    refine ⟨rfl, C03_distinct_cells _ (by simp), A.rest_wf _, A.rest_size _, ?_⟩
    refine splits_block _ _ _ A.ptr (A.m * A.n) n (by omega) (A.owns_contig hc)
      (fun a => vec_owns_unit) (fun a => ?_)
    rw [LMat.owns_contig _ (A.rest_contig _), A.rest_size, A.rest_ptr]
  rename_i hc
  have hpos : 0 < A.m ∧ 0 < A.n := by
    constructor
    · rcases Nat.eq_zero_or_pos A.m with h0 | h0
      · exfalso; apply hc; simp [LMat.isContiguous, h0]
      · exact h0
    · rcases Nat.eq_zero_or_pos A.n with h0 | h0
      · exfalso; apply hc; simp [LMat.isContiguous, h0]
      · exact h0
  split at h
  · rename_i hn
    obtain ⟨rfl, rfl⟩ := Prod.mk.inj (Except.ok.inj h)
    refine ⟨hn.symm, C03_distinct_cells _ (by simp), hA, by omega, fun a => ?_, ?_⟩
    · simp [VecV.Owns, LVec.view]
    · simp [VecV.Owns, LVec.view]
  rename_i hn0
  have hcol : ∀ a, A.view.Owns a → True := fun _ _ => trivial
  -- first column
  have colsplit : ∀ (x : LVec) (Y : LMat), x.n = A.m → (∀ i, x.view.cell i = A.view.cell i 0) →
      Y.m = A.m → Y.n = A.n - 1 → (∀ i j, Y.view.cell i j = A.view.cell i (1 + j)) →
      Splits A.view.Owns x.view.Owns Y.view.Owns := by
    intro x Y e1 e2 e3 e4 e5
    refine ⟨fun a => ⟨?_, ?_⟩, ?_⟩
    · rintro ⟨i, j, hi, hj, e⟩
      simp only [LMat.view] at hi hj
      by_cases hj0 : j = 0
      · subst hj0
        left; exact ⟨i, by simp only [LVec.view]; omega, by rw [e2]; exact e⟩
      · right
        exact ⟨i, j - 1, by simp only [LMat.view]; omega, by simp only [LMat.view]; omega,
          by rw [e5, show 1 + (j - 1) = j by omega]; exact e⟩
    · rintro (⟨i, hi, e⟩ | ⟨i, j, hi, hj, e⟩)
      · simp only [LVec.view] at hi
        rw [e2] at e
        exact ⟨_, _, by simp only [LMat.view]; omega, by simp only [LMat.view]; omega, e⟩
      · simp only [LMat.view] at hi hj
        rw [e5] at e
        exact ⟨_, _, by simp only [LMat.view]; omega, by simp only [LMat.view]; omega, e⟩
    · rintro a ⟨⟨i, hi, e⟩, ⟨i', j', hi', hj', e'⟩⟩
      simp only [LVec.view] at hi
      simp only [LMat.view] at hi' hj'
      rw [e2] at e
      rw [e5] at e'
      have := C02_distinct_cells A hA _ _ _ _ (by simp only [LMat.view]; omega)
        (by simp only [LMat.view]; omega) (by simp only [LMat.view]; omega)
        (by simp only [LMat.view]; omega) (e.trans e'.symm)
      omega
  have rowsplit : ∀ (x : LVec) (Y : LMat), x.n = A.n → (∀ i, x.view.cell i = A.view.cell 0 i) →
      Y.m = A.m - 1 → Y.n = A.n → (∀ i j, Y.view.cell i j = A.view.cell (1 + i) j) →
      Splits A.view.Owns x.view.Owns Y.view.Owns := by
    intro x Y e1 e2 e3 e4 e5
    refine ⟨fun a => ⟨?_, ?_⟩, ?_⟩
    · rintro ⟨i, j, hi, hj, e⟩
      simp only [LMat.view] at hi hj
      by_cases hj0 : i = 0
      · subst hj0
        left; exact ⟨j, by simp only [LVec.view]; omega, by rw [e2]; exact e⟩
      · right
        exact ⟨i - 1, j, by simp only [LMat.view]; omega, by simp only [LMat.view]; omega,
          by rw [e5, show 1 + (i - 1) = i by omega]; exact e⟩
    · rintro (⟨i, hi, e⟩ | ⟨i, j, hi, hj, e⟩)
      · simp only [LVec.view] at hi
        rw [e2] at e
        exact ⟨_, _, by simp only [LMat.view]; omega, by simp only [LMat.view]; omega, e⟩
      · simp only [LMat.view] at hi hj
        rw [e5] at e
        exact ⟨_, _, by simp only [LMat.view]; omega, by simp only [LMat.view]; omega, e⟩
    · rintro a ⟨⟨i, hi, e⟩, ⟨i', j', hi', hj', e'⟩⟩
      simp only [LVec.view] at hi
      simp only [LMat.view] at hi' hj'
      rw [e2] at e
      rw [e5] at e'
      have := C02_distinct_cells A hA _ _ _ _ (by simp only [LMat.view]; omega)
        (by simp only [LMat.view]; omega) (by simp only [LMat.view]; omega)
        (by simp only [LMat.view]; omega) (e.trans e'.symm)
      omega
  obtain ⟨l, am, an, p, ld⟩ := A
  simp only at hpos hs hn0
  simp only [LMat.WF] at hA
  have sz1 : am * an - am = am * (an - 1) := by rw [Nat.mul_sub, Nat.mul_one]
  have sz2 : am * an - an = (am - 1) * an := by rw [Nat.sub_mul, Nat.one_mul]
  split at h
  · rename_i hm
    simp only at hm
    subst hm
    cases l <;> simp only at hA h
    · simp only [LMat.new, ge_iff_le, hA, if_true] at h
      obtain ⟨rfl, rfl⟩ := Prod.mk.inj (Except.ok.inj h)
      refine ⟨rfl, C03_distinct_cells _ (by simp), hA, sz1.symm, colsplit _ _ rfl ?_ rfl rfl ?_⟩
      · intro i; simp [LVec.view, LVec.cell, LMat.view, LMat.cell]
      · intro i j; simp only [LMat.view, LMat.cell]; ring
    · simp only [LMat.new, ge_iff_le, (show an - 1 ≤ ld by omega), if_true] at h
      obtain ⟨rfl, rfl⟩ := Prod.mk.inj (Except.ok.inj h)
      refine ⟨rfl, C03_distinct_cells _ (by simp only; omega), by simp only [LMat.WF]; omega,
        sz1.symm, colsplit _ _ rfl ?_ rfl rfl ?_⟩
      · intro i; simp [LVec.view, LVec.cell, LMat.view, LMat.cell]
      · intro i j; simp only [LMat.view, LMat.cell]; ring
  split at h
  · rename_i hm
    simp only at hm
    subst hm
    cases l <;> simp only at hA h
    · simp only [LMat.new, ge_iff_le, (show am - 1 ≤ ld by omega), if_true] at h
      obtain ⟨rfl, rfl⟩ := Prod.mk.inj (Except.ok.inj h)
      refine ⟨rfl, C03_distinct_cells _ (by simp only; omega), by simp only [LMat.WF]; omega,
        sz2.symm, rowsplit _ _ rfl ?_ rfl rfl ?_⟩
      · intro i; simp [LVec.view, LVec.cell, LMat.view, LMat.cell]
      · intro i j; simp only [LMat.view, LMat.cell]; ring
    · simp only [LMat.new, ge_iff_le, hA, if_true] at h
      obtain ⟨rfl, rfl⟩ := Prod.mk.inj (Except.ok.inj h)
      refine ⟨rfl, C03_distinct_cells _ (by simp), hA, sz2.symm, rowsplit _ _ rfl ?_ rfl rfl ?_⟩
      · intro i; simp [LVec.view, LVec.cell, LMat.view, LMat.cell]
      · intro i j; simp only [LMat.view, LMat.cell]; ring
  · cases h

/-- **C04** reshape(A,n): when it throws. -/
theorem C04_reshape_vector_throws (A : LMat) (hA : A.WF) (n : Nat) :
    (∃ x Y, A.reshapeV n = .ok (x, Y)) ↔
      n ≤ A.size ∧ (A.isContiguous = true ∨ n = 0 ∨ n = A.m ∨ n = A.n) := by
  unfold LMat.size LMat.reshapeV
  obtain ⟨l, am, an, p, ld⟩ := A
  simp only [LMat.WF] at hA
  constructor
  · rintro ⟨X, Y, h⟩
    split at h
    · cases h
    refine ⟨by simp only at *; omega, ?_⟩
    split at h
    · left; assumption
    · right
      by_cases h0 : n = 0
      · exact Or.inl h0
      by_cases h1 : n = am
      · exact Or.inr (Or.inl h1)
      by_cases h2 : n = an
      · exact Or.inr (Or.inr h2)
      · simp [h0, h1, h2] at h
  · rintro ⟨h1, h2⟩
    rw [if_neg (by simp only at *; omega)]
    split
    · exact ⟨_, _, rfl⟩
    rename_i hc
    split
    · exact ⟨_, _, rfl⟩
    rename_i h0
    split
    · cases l <;> simp only at hA ⊢
      · simp only [LMat.new, ge_iff_le, hA, if_true]; exact ⟨_, _, rfl⟩
      · simp only [LMat.new, ge_iff_le, (show an - 1 ≤ ld by omega), if_true]; exact ⟨_, _, rfl⟩
    rename_i hm
    split
    · cases l <;> simp only at hA ⊢
      · simp only [LMat.new, ge_iff_le, (show am - 1 ≤ ld by omega), if_true]; exact ⟨_, _, rfl⟩
      · simp only [LMat.new, ge_iff_le, hA, if_true]; exact ⟨_, _, rfl⟩
    rename_i hn
    exfalso
    rcases h2 with h2 | h2 | h2 | h2
    · exact hc h2
    · exact h0 h2
    · exact hm h2
    · exact hn h2

/-- Cells of a vector do not depend on the direction, as a set. -/
theorem vec_owns (v : LVec) (a : Nat) :
    v.view.Owns a ↔ ∃ i, i < v.n ∧ v.ptr + i * v.inc = a := by
  unfold VecV.Owns LVec.view LVec.cell
  cases v.dir <;> simp only
  constructor
  · rintro ⟨i, hi, e⟩; exact ⟨v.n - 1 - i, by omega, e⟩
  · rintro ⟨i, hi, e⟩
    exact ⟨v.n - 1 - i, by omega, by rw [show v.n - 1 - (v.n - 1 - i) = i by omega]; exact e⟩

/-- **C04** reshape(v,m,n). -/
theorem C04_reshape_vec_matrix (v : LVec) (hinc : 0 < v.inc) (m n : Nat) :
    ((∃ X y, v.reshapeM m n = .ok (X, y)) ↔
      m * n ≤ v.n ∧ (v.inc = 1 ∨ v.n ≤ 1 ∨ m ≤ 1)) ∧
    ∀ X y, v.reshapeM m n = .ok (X, y) →
      X.WF ∧ X.m = m ∧ X.n = n ∧ y.n = v.n - m * n ∧ y.view.Inj ∧
        Splits v.view.Owns X.view.Owns y.view.Owns := by
  constructor
  · unfold LVec.reshapeM
    constructor
    · rintro ⟨X, y, h⟩
      split at h
      · cases h
      split at h
      · cases h
      rename_i h1
      omega
    · rintro ⟨h1, h2⟩
      rw [if_neg (by omega), if_neg (by omega)]
      split
      · exact ⟨_, _, rfl⟩
      · simp only [LMat.new, ge_iff_le, (show m ≤ v.inc by omega), if_true]
        exact ⟨_, _, rfl⟩
  · intro X y h
    unfold LVec.reshapeM at h
    split at h
    · cases h
    rename_i hs
    split at h
    · cases h
    rename_i hm
    split at h
    · rename_i hc
      obtain ⟨rfl, rfl⟩ := Prod.mk.inj (Except.ok.inj h)
      refine ⟨C02_constructor_packed _ _ _ _, rfl, rfl, rfl, C03_distinct_cells _ (by simp), ?_⟩
      refine splits_block _ _ _ v.ptr v.n (m * n) (by omega) (fun a => ?_)
        (fun a => LMat.owns_contig _ (LMat.new3_contig _ _ _ _) a) (fun a => ?_)
      · rw [vec_owns]
        constructor
        · rintro ⟨i, hi, rfl⟩
          rcases hc with hc | hc
          · rw [hc]; omega
          · have : i = 0 := by omega
            subst this; simp; omega
        · rintro ⟨h1, h2⟩
          rcases hc with hc | hc
          · exact ⟨a - v.ptr, by omega, by rw [hc]; omega⟩
          · exact ⟨0, by omega, by simp; omega⟩
      · rw [vec_owns]
        simp only [Nat.mul_one]
        constructor
        · rintro ⟨i, hi, rfl⟩; omega
        · rintro ⟨h1, h2⟩
          exact ⟨a - (v.ptr + m * n), by omega, by omega⟩
    · rename_i hc
      have hm1 : m ≤ 1 := by omega
      simp only [LMat.new, ge_iff_le, (show m ≤ v.inc by omega), if_true] at h
      obtain ⟨rfl, rfl⟩ := Prod.mk.inj (Except.ok.inj h)
      refine ⟨by simp only [LMat.WF]; omega, rfl, rfl, rfl, C03_distinct_cells _ hinc,
        fun a => ?_, fun a => ?_⟩
      · rw [vec_owns, vec_owns]
        simp only [MatV.Owns, LMat.view, LMat.cell]
        constructor
        · rintro ⟨i, hi, rfl⟩
          by_cases hin : i < m * n
          · left
            have : m = 1 := by
              rcases Nat.eq_zero_or_pos m with h0 | h0
              · subst h0; simp at hin
              · omega
            subst this
            exact ⟨0, i, by omega, by omega, by omega⟩
          · right
            refine ⟨i - m * n, by omega, ?_⟩
            rw [Nat.add_assoc, ← Nat.add_mul, show m * n + (i - m * n) = i by omega]
        · rintro (⟨i, j, hi, hj, e⟩ | ⟨i, hi, e⟩)
          · have : i = 0 := by omega
            subst this
            have : m = 1 := by omega
            subst this
            exact ⟨j, by omega, by omega⟩
          · exact ⟨m * n + i, by omega, by rw [Nat.add_mul, ← Nat.add_assoc]; exact e⟩
      · rw [vec_owns]
        simp only [MatV.Owns, LMat.view, LMat.cell]
        rintro ⟨⟨i, j, hi, hj, e⟩, ⟨i', hi', e'⟩⟩
        have h0 : i = 0 := by omega
        subst h0
        have : m = 1 := by omega
        subst this
        have e2 : j * v.inc = (1 * n + i') * v.inc := by rw [Nat.add_mul]; omega
        have := Nat.eq_of_mul_eq_mul_right hinc e2
        omega

/-- **C04** reshape(v,n), in either direction. -/
theorem C04_reshape_vec (v : LVec) (hinc : 0 < v.inc) (n : Nat) :
    ((∃ x y, v.reshape n = .ok (x, y)) ↔ n ≤ v.n) ∧
    ∀ x y, v.reshape n = .ok (x, y) → x.n = n ∧ y.n = v.n - n ∧ x.view.Inj ∧ y.view.Inj ∧
      Splits v.view.Owns x.view.Owns y.view.Owns := by
  have key : n ≤ v.n → v.reshape n =
      .ok (⟨n, v.ptr, v.inc, v.dir⟩, ⟨v.n - n, v.ptr + n * v.inc, v.inc, v.dir⟩) := by
    intro h
    unfold LVec.reshape LVec.slice
    rw [if_neg (by omega), if_pos (rangeOK_of (Nat.zero_le _) h),
      if_pos (rangeOK_of h (Nat.le_refl _))]
    simp [bind, Except.bind, pure, Except.pure]
  constructor
  · constructor
    · rintro ⟨x, y, h⟩
      unfold LVec.reshape at h
      split at h
      · cases h
      · omega
    · intro h; exact ⟨_, _, key h⟩
  · intro x y h
    have hn : n ≤ v.n := by
      unfold LVec.reshape at h
      split at h
      · cases h
      · omega
    rw [key hn] at h
    obtain ⟨rfl, rfl⟩ := Prod.mk.inj (Except.ok.inj h)
    refine ⟨rfl, rfl, C03_distinct_cells _ hinc, C03_distinct_cells _ hinc, fun a => ?_, fun a => ?_⟩
    · simp only [vec_owns]
      constructor
      · rintro ⟨i, hi, rfl⟩
        by_cases hin : i < n
        · exact Or.inl ⟨i, hin, rfl⟩
        · right
          refine ⟨i - n, by omega, ?_⟩
          rw [Nat.add_assoc, ← Nat.add_mul, show n + (i - n) = i by omega]
      · rintro (⟨i, hi, e⟩ | ⟨i, hi, e⟩)
        · exact ⟨i, by omega, e⟩
        · exact ⟨n + i, by omega, by rw [Nat.add_mul, ← Nat.add_assoc]; exact e⟩
    · simp only [vec_owns]
      rintro ⟨⟨i, hi, e⟩, ⟨i', hi', e'⟩⟩
      have e2 : i * v.inc = (n + i') * v.inc := by rw [Nat.add_mul]; omega
      have := Nat.eq_of_mul_eq_mul_right hinc e2
      omega

/-- A strided vector that is reshaped to a row and a rest. -/
example : (LVec.mk 5 0 3 .Forward).reshapeM 1 2 =
    .ok (⟨.ColMajor, 1, 2, 0, 3⟩, ⟨3, 6, 3, .Forward⟩) := rfl

end TLA
