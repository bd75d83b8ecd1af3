import Verif.Core

/-!
# LegacyMatrix, LegacyVector, LegacyBandedMatrix: address arithmetic and views

Memory addresses are natural numbers (offsets, in elements, from some base of memory).
Simplifications: indices are unbounded naturals (no overflow of `idx_t`), a vector increment is a
natural number (the library uses `Direction::Backward` for negative strides), and the pointer
values of empty views are kept although nothing can be accessed through them.
-/

namespace TLA

/-- `enum class Layout` restricted to the two values LegacyMatrix admits
(/repo/include/tlapack/LegacyMatrix.hpp:31-33). -/
inductive Layout where
  | ColMajor | RowMajor
  deriving DecidableEq, Repr

/-- `enum class Direction` (/repo/include/tlapack/base/types.hpp; LegacyVector.hpp:39-41). -/
inductive Direction where
  | Forward | Backward
  deriving DecidableEq, Repr

/-- `struct LegacyMatrix` (LegacyMatrix.hpp:34-39). -/
structure LMat where
  layout : Layout
  m : Nat
  n : Nat
  ptr : Nat
  ldim : Nat
  deriving DecidableEq, Repr

/-- Address used by `operator()(i,j)` (LegacyMatrix.hpp:41-59). -/
def LMat.cell (A : LMat) (i j : Nat) : Nat :=
  match A.layout with
  | .ColMajor => A.ptr + (i + j * A.ldim)
  | .RowMajor => A.ptr + (i * A.ldim + j)

/-- The Matrix-concept view of a LegacyMatrix: `nrows`, `ncols`
(plugins/legacyArray.hpp `nrows`, `ncols`) and `operator()`. -/
def LMat.view (A : LMat) : MatV Nat := ⟨A.m, A.n, A.cell⟩

/-- Constructor with leading dimension and its check (LegacyMatrix.hpp:61-67). -/
def LMat.new (layout : Layout) (m n ptr ldim : Nat) : Except Err LMat :=
  if ldim ≥ (match layout with | .ColMajor => m | .RowMajor => n)
  then .ok ⟨layout, m, n, ptr, ldim⟩ else .error .check

/-- Constructor without leading dimension (LegacyMatrix.hpp:69-74). -/
def LMat.new3 (layout : Layout) (m n ptr : Nat) : LMat :=
  ⟨layout, m, n, ptr, match layout with | .ColMajor => m | .RowMajor => n⟩

/-- `struct LegacyVector` (LegacyVector.hpp:42-47). -/
structure LVec where
  n : Nat
  ptr : Nat
  inc : Nat
  dir : Direction := .Forward
  deriving DecidableEq, Repr

/-- Address used by `operator[](i)` (LegacyVector.hpp:49-63). -/
def LVec.cell (x : LVec) (i : Nat) : Nat :=
  match x.dir with
  | .Forward => x.ptr + i * x.inc
  | .Backward => x.ptr + ((x.n - 1) - i) * x.inc

def LVec.view (x : LVec) : VecV Nat := ⟨x.n, x.cell⟩

/-- The range asserts shared by all the slicing functions
(plugins/legacyArray.hpp:405-412, 428-431, 446-449, 463-466, 498-501, 567-570). -/
def rangeOK (a b n : Nat) : Prop := (a < n ∨ a = b) ∧ b ≤ n ∧ a ≤ b

instance (a b n : Nat) : Decidable (rangeOK a b n) := by unfold rangeOK; infer_instance

/-- `slice(A, rows, cols)` (plugins/legacyArray.hpp:401-418). -/
def LMat.slice (A : LMat) (r0 r1 c0 c1 : Nat) : Except Err LMat :=
  if rangeOK r0 r1 A.m ∧ rangeOK c0 c1 A.n then
    LMat.new A.layout (r1 - r0) (c1 - c0)
      (match A.layout with
        | .ColMajor => A.ptr + (r0 + c0 * A.ldim)
        | .RowMajor => A.ptr + (r0 * A.ldim + c0)) A.ldim
  else .error .ub

/-- `slice(A, rowIdx, cols)` (plugins/legacyArray.hpp:424-438). -/
def LMat.sliceRow (A : LMat) (i c0 c1 : Nat) : Except Err LVec :=
  if rangeOK c0 c1 A.n ∧ i < A.m then
    .ok { n := c1 - c0
          ptr := match A.layout with
            | .ColMajor => A.ptr + (i + c0 * A.ldim)
            | .RowMajor => A.ptr + (i * A.ldim + c0)
          inc := match A.layout with | .ColMajor => A.ldim | .RowMajor => 1 }
  else .error .ub

/-- `slice(A, rows, colIdx)` (plugins/legacyArray.hpp:442-456). -/
def LMat.sliceCol (A : LMat) (r0 r1 j : Nat) : Except Err LVec :=
  if rangeOK r0 r1 A.m ∧ j < A.n then
    .ok { n := r1 - r0
          ptr := match A.layout with
            | .ColMajor => A.ptr + (r0 + j * A.ldim)
            | .RowMajor => A.ptr + (r0 * A.ldim + j)
          inc := match A.layout with | .RowMajor => A.ldim | .ColMajor => 1 }
  else .error .ub

/-- `rows(A, {r0,r1})` (plugins/legacyArray.hpp:460-472). -/
def LMat.rows (A : LMat) (r0 r1 : Nat) : Except Err LMat :=
  if rangeOK r0 r1 A.m then
    LMat.new A.layout (r1 - r0) A.n
      (match A.layout with | .ColMajor => A.ptr + r0 | .RowMajor => A.ptr + r0 * A.ldim) A.ldim
  else .error .ub

/-- `cols(A, {c0,c1})` (plugins/legacyArray.hpp:495-507). -/
def LMat.cols (A : LMat) (c0 c1 : Nat) : Except Err LMat :=
  if rangeOK c0 c1 A.n then
    LMat.new A.layout A.m (c1 - c0)
      (match A.layout with | .ColMajor => A.ptr + c0 * A.ldim | .RowMajor => A.ptr + c0) A.ldim
  else .error .ub

/-- `row(A, i)`, both layout overloads (plugins/legacyArray.hpp:476-491). -/
def LMat.row (A : LMat) (i : Nat) : Except Err LVec :=
  if i < A.m then
    match A.layout with
    | .ColMajor => .ok { n := A.n, ptr := A.ptr + i, inc := A.ldim }
    | .RowMajor => .ok { n := A.n, ptr := A.ptr + i * A.ldim, inc := 1 }
  else .error .ub

/-- `col(A, j)`, both layout overloads (plugins/legacyArray.hpp:511-526). -/
def LMat.col (A : LMat) (j : Nat) : Except Err LVec :=
  if j < A.n then
    match A.layout with
    | .ColMajor => .ok { n := A.m, ptr := A.ptr + j * A.ldim, inc := 1 }
    | .RowMajor => .ok { n := A.m, ptr := A.ptr + j, inc := A.ldim }
  else .error .ub

/-- `diag(A, diagIdx)` (plugins/legacyArray.hpp:530-542).  `d.toNat` is `diagIdx` when it is
nonnegative, `(-d).toNat` is `-diagIdx` when it is negative. -/
def LMat.diag (A : LMat) (d : Int) : Except Err LVec :=
  if (d ≥ 0 ∨ (-d).toNat < A.m) ∧ (d ≤ 0 ∨ d.toNat < A.n) then
    .ok { n := if d ≥ 0 then min (A.m + d.toNat) A.n - d.toNat
               else min A.m (A.n + (-d).toNat) - (-d).toNat
          ptr := match A.layout with
            | .ColMajor => if d ≥ 0 then A.ptr + d.toNat * A.ldim else A.ptr + (-d).toNat
            | .RowMajor => if d ≥ 0 then A.ptr + d.toNat else A.ptr + (-d).toNat * A.ldim
          inc := A.ldim + 1 }
  else .error .ub

/-- `transpose_view(A)`, both layout overloads (plugins/legacyArray.hpp:546-556). -/
def LMat.transposeView (A : LMat) : Except Err LMat :=
  match A.layout with
  | .ColMajor => LMat.new .RowMajor A.n A.m A.ptr A.ldim
  | .RowMajor => LMat.new .ColMajor A.n A.m A.ptr A.ldim

/-- `slice(v, {a,b})` (plugins/legacyArray.hpp:564-573): the pointer is advanced by `a*inc`
whatever the direction of `v`. -/
def LVec.slice (x : LVec) (a b : Nat) : Except Err LVec :=
  if rangeOK a b x.n then .ok ⟨b - a, x.ptr + a * x.inc, x.inc, x.dir⟩ else .error .ub

/-- `is_contiguous` (plugins/legacyArray.hpp:586-589, 625-628). -/
def LMat.isContiguous (A : LMat) : Bool :=
  A.m * A.n ≤ 1 || (A.layout == .ColMajor && (A.ldim == A.m || decide (A.n ≤ 1)))
    || (A.layout == .RowMajor && (A.ldim == A.n || decide (A.m ≤ 1)))

/-- The remaining elements as one column / one row (plugins/legacyArray.hpp:598-600, 636-638). -/
def LMat.rest (A : LMat) (k : Nat) : LMat :=
  match A.layout with
  | .ColMajor => LMat.new3 .ColMajor (A.m * A.n - k) 1 (A.ptr + k)
  | .RowMajor => LMat.new3 .RowMajor 1 (A.m * A.n - k) (A.ptr + k)

/-- `reshape(A, m, n)` (plugins/legacyArray.hpp:577-615). -/
def LMat.reshape (A : LMat) (m n : Nat) : Except Err (LMat × LMat) :=
  if m * n > A.m * A.n then .error .check
  else if A.isContiguous then
    .ok (LMat.new3 A.layout m n A.ptr, A.rest (m * n))
  else if m = A.m ∨ n = 0 then do
    let X ← A.cols 0 n
    let Y ← A.cols n A.n
    pure (X, Y)
  else if n = A.n ∨ m = 0 then do
    let X ← A.rows 0 m
    let Y ← A.rows m A.m
    pure (X, Y)
  else .error .check

/-- `reshape(A, n)` (plugins/legacyArray.hpp:617-670). -/
def LMat.reshapeV (A : LMat) (n : Nat) : Except Err (LVec × LMat) :=
  if n > A.m * A.n then .error .check
  else if A.isContiguous then
    .ok ({ n := n, ptr := A.ptr, inc := 1 }, A.rest n)
  else if n = 0 then .ok ({ n := 0, ptr := A.ptr, inc := 1 }, A)
  else if n = A.m then
    match A.layout with
    | .ColMajor => do
      let Y ← LMat.new .ColMajor A.m (A.n - 1) (A.ptr + A.ldim) A.ldim
      pure ({ n := n, ptr := A.ptr, inc := 1 }, Y)
    | .RowMajor => do
      let Y ← LMat.new .RowMajor A.m (A.n - 1) (A.ptr + 1) A.ldim
      pure ({ n := n, ptr := A.ptr, inc := A.ldim }, Y)
  else if n = A.n then
    match A.layout with
    | .ColMajor => do
      let Y ← LMat.new .ColMajor (A.m - 1) A.n (A.ptr + 1) A.ldim
      pure ({ n := n, ptr := A.ptr, inc := A.ldim }, Y)
    | .RowMajor => do
      let Y ← LMat.new .RowMajor (A.m - 1) A.n (A.ptr + A.ldim) A.ldim
      pure ({ n := n, ptr := A.ptr, inc := 1 }, Y)
  else .error .check

/-- `reshape(v, m, n)` (plugins/legacyArray.hpp:674-701); the result types are a column-major
matrix and a vector of the direction of `v` (plugins/legacyArray.hpp:678-679). -/
def LVec.reshapeM (v : LVec) (m n : Nat) : Except Err (LMat × LVec) :=
  if m * n > v.n then .error .check
  else if ¬ (v.inc = 1 ∨ v.n ≤ 1) ∧ m > 1 then .error .check
  else if v.inc = 1 ∨ v.n ≤ 1 then
    .ok (LMat.new3 .ColMajor m n v.ptr, { n := v.n - m * n, ptr := v.ptr + m * n, inc := 1, dir := v.dir })
  else do
    let X ← LMat.new .ColMajor m n v.ptr v.inc
    pure (X, { n := v.n - m * n, ptr := v.ptr + m * n * v.inc, inc := v.inc, dir := v.dir })

/-- `reshape(v, n)` (plugins/legacyArray.hpp:703-712). -/
def LVec.reshape (v : LVec) (n : Nat) : Except Err (LVec × LVec) :=
  if n > v.n then .error .check
  else do
    let X ← v.slice 0 n
    let Y ← v.slice n v.n
    pure (X, Y)

/-- `struct LegacyBandedMatrix` (LegacyBandedMatrix.hpp:30-32). -/
structure LBand where
  m : Nat
  n : Nat
  kl : Nat
  ku : Nat
  ptr : Nat
  deriving DecidableEq, Repr

/-- The constructor check (LegacyBandedMatrix.hpp:64-70). -/
def LBand.new (m n kl ku ptr : Nat) : Except Err LBand :=
  if (kl + 1 ≤ m ∨ m = 0) ∧ (ku + 1 ≤ n ∨ n = 0) then .ok ⟨m, n, kl, ku, ptr⟩ else .error .check

/-- The address of `operator()(i,j)`, or `none` if an assert fires
(LegacyBandedMatrix.hpp:42-62). -/
def LBand.at (A : LBand) (i j : Nat) : Option Nat :=
  if i < A.m ∧ j < A.n ∧ j ≤ i + A.ku ∧ i ≤ j + A.kl
  then some (A.ptr + ((A.ku + i) + j * (A.ku + A.kl))) else none

end TLA
