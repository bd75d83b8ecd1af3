/-!
# WorkInfo (/repo/include/tlapack/base/workspace.hpp)
Simplification: `size_t` is unbounded (no overflow of sizes).
-/

namespace TLA

/-- `struct WorkInfo` (base/workspace.hpp:16-19, 169). -/
structure WorkInfo where
  m : Nat := 0
  n : Nat := 1
  isContiguous : Bool := false
  isVector : Bool
  deriving DecidableEq, Repr

/-- `WorkInfo(m, n)` (base/workspace.hpp:22-24). -/
def WorkInfo.ofMat (m n : Nat) : WorkInfo := { m := m, n := n, isVector := false }

/-- `WorkInfo(s)` (base/workspace.hpp:25). -/
def WorkInfo.ofSize (s : Nat) : WorkInfo := { m := s, isVector := true }

/-- `size()` (base/workspace.hpp:28). -/
def WorkInfo.size (w : WorkInfo) : Nat := w.m * w.n

/-- `minMax(workinfo)` (base/workspace.hpp:39-88): the new value of `*this`. -/
def WorkInfo.minMax (w w1 : WorkInfo) : WorkInfo :=
  if w1.size = 0 then w
  else if w.size = 0 then w1
  else
    let v := w.isVector && w1.isVector
    if w.isContiguous || w1.isContiguous then ⟨max w.size w1.size, 1, true, v⟩
    else if (w.m ≥ w1.m ∧ w.n ≥ w1.n) ∨ (w1.isVector = true ∧ (w.m ≥ w1.n ∧ w.n ≥ w1.m)) then
      { w with isVector := v }
    else if (w1.m ≥ w.m ∧ w1.n ≥ w.n) ∨ (w.isVector = true ∧ (w1.m ≥ w.n ∧ w1.n ≥ w.m)) then
      ⟨w1.m, w1.n, w.isContiguous, v⟩
    else ⟨max w.size w1.size, 1, true, v⟩

/-- `operator+=(workinfo)` (base/workspace.hpp:99-158). -/
def WorkInfo.add (w w1 : WorkInfo) : WorkInfo :=
  if w1.size = 0 then w
  else if w.size = 0 then w1
  else
    let v := w.isVector && w1.isVector
    if w.isContiguous || w1.isContiguous then ⟨w.size + w1.size, 1, true, v⟩
    else if w.n = w1.n then { w with m := w.m + w1.m, isVector := v }
    else if w.m = w1.m then { w with n := w.n + w1.n, isVector := v }
    else if w1.isVector = true ∧ w.n = w1.m then { w with m := w.m + 1, isVector := v }
    else if w.isVector = true ∧ w.m = w1.n then ⟨w1.m + 1, w1.n, w.isContiguous, v⟩
    else ⟨w.size + w1.size, 1, true, v⟩

/-- `transpose()` (base/workspace.hpp:160-166). -/
def WorkInfo.transpose (w : WorkInfo) : WorkInfo :=
  if w.size = 0 ∨ w.isVector = true then w else WorkInfo.ofMat w.n w.m

end TLA
