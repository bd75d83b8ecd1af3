import Verif.Spec
import Verif.Model.Layout

/-!
# Specification of legacy (BLAS-style) storage

Where BLAS documentation says the entries of a matrix argument `A, lda` and of a vector argument
`x, incx` are in memory.
-/

namespace TLA

/-- The `m × n` matrix stored from address `p` with leading dimension `ld`: entry `(i,j)` is
`A[i + j*lda]` in column-major and `A[i*lda + j]` in row-major layout. -/
def stMat (layout : Layout) (m n p ld : Nat) : MatV Nat :=
  ⟨m, n, fun i j => match layout with
    | .ColMajor => p + (i + j * ld)
    | .RowMajor => p + (i * ld + j)⟩

/-- The vector of `n` entries stored from address `p` with increment `inc`: entry `i` is
`x[i*inc]` if `inc > 0` and `x[(n-1-i)*|inc|]` if `inc < 0`. -/
def stVec (n p : Nat) (inc : Int) : VecV Nat :=
  ⟨n, fun i => if 0 < inc then p + i * inc.natAbs else p + (n - 1 - i) * inc.natAbs⟩

/-- The least leading dimension of an `m × n` matrix. -/
def minLd (layout : Layout) (m n : Nat) : Nat :=
  match layout with
  | .ColMajor => m
  | .RowMajor => n

/-- The triangle of a Hermitian or symmetric matrix argument that is read.  With `uplo = General`
the caller promises that both triangles hold the matrix; the code then reads the upper one in
column-major and the lower one in row-major layout. -/
def usedTri (layout : Layout) (uplo : Uplo) : Uplo :=
  match uplo with
  | .Lower => .Lower
  | .Upper => .Upper
  | _ => match layout with
    | .ColMajor => .Upper
    | .RowMajor => .Lower

/-- The stored operand of `op(X)`, op(X) being `r × c`. -/
def stOp (layout : Layout) (trans : Op) (r c p ld : Nat) : MatV Nat :=
  if trans = .NoTrans then stMat layout r c p ld else stMat layout c r p ld

/-- The least leading dimension of the stored operand of `op(X)`. -/
def minLdOp (layout : Layout) (trans : Op) (r c : Nat) : Nat :=
  if trans = .NoTrans then minLd layout r c else minLd layout c r

end TLA
