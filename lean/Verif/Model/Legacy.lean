import Verif.Model.Layout
import Verif.Model.Blas1
import Verif.Model.Blas3

/-!
# The legacy (pointer, leading dimension, increment) BLAS interface

/repo/include/tlapack/legacy_api/blas/*.hpp with legacy_api/base/utils.hpp and
legacy_api/base/legacyArray.hpp.  Memory is one array of scalars indexed by natural numbers; a
pointer is an index.  All matrices and vectors have the same element type `T`; `isComplex` is the
compile-time test `is_complex<TA>`.  Simplifications: `idx_t` is unsigned and unbounded, so the
checks `m < 0`, `n < 0`, `k < 0` are left out, and `layout`, `diag` hold one of their enumerators,
so the checks on these two are left out as well.
-/

namespace TLA
variable {T : Type}
variable [Zero T] [One T] [Add T] [Mul T] [Sub T] [Neg T] [Div T] [Star T] [ReIm T] [DecidableEq T]

/-- `create_matrix(A, m, n, lda)` (legacy_api/base/legacyArray.hpp:20-24) with the constructor's
check (LegacyMatrix.hpp:61-67). -/
def lgCol (p m n ld : Nat) : M Nat T (MatV Nat) := do
  check (ld ≥ m : Bool)
  pure (LMat.mk .ColMajor m n p ld).view

/-- `create_rowmajor_matrix(A, m, n, lda)` (legacy_api/base/legacyArray.hpp:32-36). -/
def lgRow (p m n ld : Nat) : M Nat T (MatV Nat) := do
  check (ld ≥ n : Bool)
  pure (LMat.mk .RowMajor m n p ld).view

/-- The vector `tlapack_expr_with_vector` builds (legacy_api/base/utils.hpp): `incx == 1` and
`incx > 1` give a forward vector, the rest a backward vector of stride `-incx`.  The stride-one
cases use a compile-time one (LegacyVector with StrongOne); the addresses are the same. -/
def lgVec (n p : Nat) (inc : Int) : VecV Nat :=
  if inc = 1 then (LVec.mk n p 1 .Forward).view
  else if inc = -1 then (LVec.mk n p 1 .Backward).view
  else if inc > 1 then (LVec.mk n p inc.toNat .Forward).view
  else (LVec.mk n p (-inc).toNat .Backward).view

/-- The vector `tlapack_expr_with_vector_positiveInc` builds (legacy_api/base/utils.hpp). -/
def lgVecPos (n p : Nat) (inc : Int) : VecV Nat :=
  if inc = 1 then (LVec.mk n p 1 .Forward).view
  else (LVec.mk n p inc.toNat .Forward).view

/-- `for i: x[i * abs(incx)] = conj(x[i * abs(incx)])` (e.g. legacy_api/blas/gemv.hpp:139-142). -/
def lgConj (n p : Nat) (inc : Int) : M Nat T Unit :=
  forUp_ 0 n fun i => do
    let x : VecV Nat := ⟨n, fun i => p + i * inc.natAbs⟩
    let v ← x.get i
    x.set i (star v)

/-- `beta == 0` selects the overload without `beta`, which multiplies by `StrongZero`
(e.g. gemv.hpp:159-162). -/
def lgCoef (beta : T) : Coef T := if beta = 0 then .strongZero else .val beta

/-- The loop used when `alpha == 0` (gemv.hpp:151-154, hemv.hpp:105-107, symv.hpp:111-113);
`b` is the factor, `beta` what is compared with zero. -/
def lgScaleV (beta b : T) (y : VecV Nat) : M Nat T Unit :=
  if beta = 0 then forUp_ 0 y.n fun i => y.set i 0
  else forUp_ 0 y.n fun i => y.modify i (· * b)

/-- The loops used when `alpha == 0` (gemm.hpp:156-165, hemm.hpp:142-151, herk.hpp:141-150, ...). -/
def lgScaleM (beta : T) (C : MatV Nat) : M Nat T Unit :=
  if beta = 0 then forUp_ 0 C.n fun j => forUp_ 0 C.m fun i => C.set i j 0
  else forUp_ 0 C.n fun j => forUp_ 0 C.m fun i => C.modify i j (· * beta)

/-- `trans != NoTrans && trans != Trans && trans != ConjTrans` (gemv.hpp:106-107). -/
def lgBadOp (t : Op) : Bool := !(t = .NoTrans ∨ t = .Trans ∨ t = .ConjTrans : Bool)

/-- `uplo = (uplo == Lower ? Upper : Lower)` (trmv.hpp:106, hemm.hpp:127-130). -/
def lgFlip (uplo : Uplo) : Uplo :=
  if uplo = .Lower then .Upper else if uplo = .Upper then .Lower else uplo

/-- `side = (side == Left) ? Right : Left` (hemm.hpp:126). -/
def lgFlipSide (side : Side) : Side := if side = .Left then .Right else .Left

/-! ### Level 1 -/

/-- legacy_api/blas/copy.hpp:46-56. -/
def lgCopy (n x : Nat) (incx : Int) (y : Nat) (incy : Int) : M Nat T Unit := do
  check (!(incx = 0 : Bool))
  check (!(incy = 0 : Bool))
  if n = 0 then pure () else
  copy (lgVec n x incx) (lgVec n y incy)

/-- legacy_api/blas/swap.hpp:46-57. -/
def lgSwap (n x : Nat) (incx : Int) (y : Nat) (incy : Int) : M Nat T Unit := do
  check (!(incx = 0 : Bool))
  check (!(incy = 0 : Bool))
  if n = 0 then pure () else
  swap (lgVec n x incx) (lgVec n y incy)

/-- legacy_api/blas/axpy.hpp:51-67. -/
def lgAxpy (n : Nat) (alpha : T) (x : Nat) (incx : Int) (y : Nat) (incy : Int) : M Nat T Unit := do
  check (!(incx = 0 : Bool))
  check (!(incy = 0 : Bool))
  if n = 0 ∨ alpha = 0 then pure () else
  axpy alpha (lgVec n x incx) (lgVec n y incy)

/-- legacy_api/blas/scal.hpp:41-50. -/
def lgScal (n : Nat) (alpha : T) (x : Nat) (incx : Int) : M Nat T Unit := do
  check (!(incx ≤ 0 : Bool))
  if n = 0 then pure () else
  scal alpha (lgVecPos n x incx)

/-- legacy_api/blas/dot.hpp:47-58. -/
def lgDot (n x : Nat) (incx : Int) (y : Nat) (incy : Int) : M Nat T T := do
  check (!(incx = 0 : Bool))
  check (!(incy = 0 : Bool))
  if n = 0 then pure 0 else
  dot (lgVec n x incx) (lgVec n y incy)

/-- legacy_api/blas/dotu.hpp:47-58. -/
def lgDotu (n x : Nat) (incx : Int) (y : Nat) (incy : Int) : M Nat T T := do
  check (!(incx = 0 : Bool))
  check (!(incy = 0 : Bool))
  if n = 0 then pure 0 else
  dotu (lgVec n x incx) (lgVec n y incy)

/-- legacy_api/blas/rot.hpp:59-76. -/
def lgRot (n x : Nat) (incx : Int) (y : Nat) (incy : Int) (c s : T) : M Nat T Unit := do
  check (!(incx = 0 : Bool))
  check (!(incy = 0 : Bool))
  if n = 0 then pure () else
  rot (lgVec n x incx) (lgVec n y incy) c s

/-- legacy_api/blas/rotm.hpp:56-81; `flag` is `(int)param[0]`, `h` the pointer to `param[1]`. -/
def lgRotm (n x : Nat) (incx : Int) (y : Nat) (incy : Int) (flag : Int) (h : Nat → T) :
    M Nat T Unit := do
  check (!(incx = 0 : Bool))
  check (!(incy = 0 : Bool))
  check (!(flag < -2 ∧ flag > 1 : Bool))
  if n = 0 then pure () else
  if flag = -2 then rotm (-2) (lgVec n x incx) (lgVec n y incy) h
  else if flag = -1 then rotm (-1) (lgVec n x incx) (lgVec n y incy) h
  else if flag = 0 then rotm 0 (lgVec n x incx) (lgVec n y incy) h
  else rotm 1 (lgVec n x incx) (lgVec n y incy) h

/-! ### Level 2 -/

/-- The row-major rewriting of `trans` (gemv.hpp:124-129, trmv.hpp:107-112). -/
def lgFlipOp (trans : Op) : Op := if trans = .NoTrans then .Trans else .NoTrans

/-- legacy_api/blas/gemv.hpp:87-173. -/
def lgGemv (layout : Layout) (trans : Op) (m n : Nat) (alpha : T) (A lda x : Nat) (incx : Int)
    (beta : T) (y : Nat) (incy : Int) : M Nat T Unit := do
  check (!lgBadOp trans)
  check (!(lda < (if layout = .ColMajor then m else n) : Bool))
  check (!(incx = 0 : Bool))
  check (!(incy = 0 : Bool))
  if m = 0 ∨ n = 0 ∨ (alpha = 0 ∧ beta = 1) then pure () else
  let row : Bool := layout = .RowMajor
  let m' := if row then n else m
  let n' := if row then m else n
  let trans' := if row then lgFlipOp trans else trans
  let doConj : Bool := row && trans = .ConjTrans
  let lenx := if trans' = .NoTrans then n' else m'
  let leny := if trans' = .NoTrans then m' else n'
  (if doConj then lgConj lenx x incx else pure () : M Nat T Unit)
  (if doConj then lgConj leny y incy else pure () : M Nat T Unit)
  let A_ ← lgCol A m' n' lda
  (if alpha = 0 then lgScaleV beta (if doConj then star beta else beta) (lgVec leny y incy)
   else gemv trans' (if doConj then star alpha else alpha) A_ (lgVec lenx x incx)
     (if beta = 0 then .strongZero else .val (if doConj then star beta else beta))
     (lgVec leny y incy) : M Nat T Unit)
  (if doConj then lgConj lenx x incx else pure () : M Nat T Unit)
  (if doConj then lgConj leny y incy else pure () : M Nat T Unit)

/-- legacy_api/blas/trmv.hpp:76-132. -/
def lgTrmv (layout : Layout) (uplo : Uplo) (trans : Op) (diag : Diag) (n A lda x : Nat)
    (incx : Int) : M Nat T Unit := do
  check (!notTri uplo)
  check (!lgBadOp trans)
  check (!(lda < n : Bool))
  check (!(incx = 0 : Bool))
  if n = 0 then pure () else
  let row : Bool := layout = .RowMajor
  let uplo' := if row then lgFlip uplo else uplo
  let trans' := if row then lgFlipOp trans else trans
  let doConj : Bool := row && trans = .ConjTrans
  (if doConj then lgConj n x incx else pure () : M Nat T Unit)
  let A_ ← lgCol A n n lda
  trmv uplo' trans' diag A_ (lgVec n x incx)
  (if doConj then lgConj n x incx else pure () : M Nat T Unit)

/-- legacy_api/blas/trsv.hpp:80-136. -/
def lgTrsv (layout : Layout) (uplo : Uplo) (trans : Op) (diag : Diag) (n A lda x : Nat)
    (incx : Int) : M Nat T Unit := do
  check (!notTri uplo)
  check (!lgBadOp trans)
  check (!(lda < n : Bool))
  check (!(incx = 0 : Bool))
  if n = 0 then pure () else
  let row : Bool := layout = .RowMajor
  let uplo' := if row then lgFlip uplo else uplo
  let trans' := if row then lgFlipOp trans else trans
  let doConj : Bool := row && trans = .ConjTrans
  (if doConj then lgConj n x incx else pure () : M Nat T Unit)
  let A_ ← lgCol A n n lda
  trsv uplo' trans' diag A_ (lgVec n x incx)
  (if doConj then lgConj n x incx else pure () : M Nat T Unit)

/-- legacy_api/blas/hemv.hpp:74-130. -/
def lgHemv (layout : Layout) (uplo : Uplo) (n : Nat) (alpha : T) (A lda x : Nat) (incx : Int)
    (beta : T) (y : Nat) (incy : Int) : M Nat T Unit := do
  check (!notTri uplo)
  check (!(lda < n : Bool))
  check (!(incx = 0 : Bool))
  check (!(incy = 0 : Bool))
  if n = 0 ∨ (alpha = 0 ∧ beta = 1) then pure () else
  if alpha = 0 then lgScaleV beta beta (lgVec n y incy)
  else if layout = .ColMajor then do
    let A_ ← lgCol A n n lda
    hemv uplo alpha A_ (lgVec n x incx) (lgCoef beta) (lgVec n y incy)
  else do
    let A_ ← lgRow A n n lda
    hemv uplo alpha A_ (lgVec n x incx) (lgCoef beta) (lgVec n y incy)

/-- legacy_api/blas/symv.hpp:73-121. -/
def lgSymv (layout : Layout) (uplo : Uplo) (n : Nat) (alpha : T) (A lda x : Nat) (incx : Int)
    (beta : T) (y : Nat) (incy : Int) : M Nat T Unit := do
  check (!notTri uplo)
  check (!(lda < n : Bool))
  check (!(incx = 0 : Bool))
  check (!(incy = 0 : Bool))
  if n = 0 ∨ (alpha = 0 ∧ beta = 1) then pure () else
  let uplo' := if layout = .RowMajor then lgFlip uplo else uplo
  let A_ ← lgCol A n n lda
  if alpha = 0 then lgScaleV beta beta (lgVec n y incy)
  else symv uplo' alpha A_ (lgVec n x incx) (lgCoef beta) (lgVec n y incy)

/-- legacy_api/blas/ger.hpp:69-109. -/
def lgGer (layout : Layout) (m n : Nat) (alpha : T) (x : Nat) (incx : Int) (y : Nat) (incy : Int)
    (A lda : Nat) : M Nat T Unit := do
  check (!(incx = 0 : Bool))
  check (!(incy = 0 : Bool))
  check (!(lda < (if layout = .ColMajor then m else n) : Bool))
  if m = 0 ∨ n = 0 ∨ alpha = 0 then pure () else
  if layout = .ColMajor then do
    let A_ ← lgCol A m n lda
    ger alpha (lgVec m x incx) (lgVec n y incy) A_
  else do
    let A_ ← lgRow A m n lda
    ger alpha (lgVec m x incx) (lgVec n y incy) A_

/-- legacy_api/blas/geru.hpp:69-108. -/
def lgGeru (layout : Layout) (m n : Nat) (alpha : T) (x : Nat) (incx : Int) (y : Nat) (incy : Int)
    (A lda : Nat) : M Nat T Unit := do
  check (!(incx = 0 : Bool))
  check (!(incy = 0 : Bool))
  check (!(lda < (if layout = .ColMajor then m else n) : Bool))
  if m = 0 ∨ n = 0 ∨ alpha = 0 then pure () else
  if layout = .ColMajor then do
    let A_ ← lgCol A m n lda
    geru alpha (lgVec m x incx) (lgVec n y incy) A_
  else do
    let A_ ← lgCol A n m lda
    geru alpha (lgVec n y incy) (lgVec m x incx) A_

/-- legacy_api/blas/her.hpp:65-96. -/
def lgHer (layout : Layout) (uplo : Uplo) (n : Nat) (alpha : T) (x : Nat) (incx : Int)
    (A lda : Nat) : M Nat T Unit := do
  check (!notTri uplo)
  check (!(incx = 0 : Bool))
  check (!(lda < n : Bool))
  if n = 0 ∨ alpha = 0 then pure () else
  let uplo' := if layout = .RowMajor then lgFlip uplo else uplo
  let A_ ← lgCol A n n lda
  her uplo' alpha (lgVec n x incx) A_

/-- legacy_api/blas/syr.hpp:64-95. -/
def lgSyr (layout : Layout) (uplo : Uplo) (n : Nat) (alpha : T) (x : Nat) (incx : Int)
    (A lda : Nat) : M Nat T Unit := do
  check (!notTri uplo)
  check (!(incx = 0 : Bool))
  check (!(lda < n : Bool))
  if n = 0 ∨ alpha = 0 then pure () else
  let uplo' := if layout = .RowMajor then lgFlip uplo else uplo
  let A_ ← lgCol A n n lda
  syr uplo' alpha (lgVec n x incx) A_

/-- legacy_api/blas/her2.hpp:72-107. -/
def lgHer2 (layout : Layout) (uplo : Uplo) (n : Nat) (alpha : T) (x : Nat) (incx : Int)
    (y : Nat) (incy : Int) (A lda : Nat) : M Nat T Unit := do
  check (!notTri uplo)
  check (!(incx = 0 : Bool))
  check (!(incy = 0 : Bool))
  check (!(lda < n : Bool))
  if n = 0 ∨ alpha = 0 then pure () else
  let uplo' := if layout = .RowMajor then lgFlip uplo else uplo
  let A_ ← lgCol A n n lda
  her2 uplo' alpha (lgVec n x incx) (lgVec n y incy) A_

/-- legacy_api/blas/syr2.hpp:71-106. -/
def lgSyr2 (layout : Layout) (uplo : Uplo) (n : Nat) (alpha : T) (x : Nat) (incx : Int)
    (y : Nat) (incy : Int) (A lda : Nat) : M Nat T Unit := do
  check (!notTri uplo)
  check (!(incx = 0 : Bool))
  check (!(incy = 0 : Bool))
  check (!(lda < n : Bool))
  if n = 0 ∨ alpha = 0 then pure () else
  let uplo' := if layout = .RowMajor then lgFlip uplo else uplo
  let A_ ← lgCol A n n lda
  syr2 uplo' alpha (lgVec n x incx) (lgVec n y incy) A_

/-! ### Level 3 -/

/-- legacy_api/blas/gemm.hpp:125-173, the part after the row-major test. -/
def lgGemmCol (transA transB : Op) (m n k : Nat) (alpha : T) (A lda B ldb : Nat) (beta : T)
    (C ldc : Nat) : M Nat T Unit := do
  check (!lgBadOp transA)
  check (!lgBadOp transB)
  check (!(lda < (if transA ≠ .NoTrans then k else m) : Bool))
  check (!(ldb < (if transB ≠ .NoTrans then n else k) : Bool))
  check (!(ldc < m : Bool))
  if m = 0 ∨ n = 0 ∨ ((alpha = 0 ∨ k = 0) ∧ beta = 1) then pure () else
  let A_ ← (if transA = .NoTrans then lgCol A m k lda else lgCol A k m lda : M Nat T (MatV Nat))
  let B_ ← (if transB = .NoTrans then lgCol B k n ldb else lgCol B n k ldb : M Nat T (MatV Nat))
  let C_ ← lgCol C m n ldc
  if alpha = 0 then lgScaleM beta C_
  else gemm transA transB alpha A_ B_ (lgCoef beta) C_

/-- legacy_api/blas/gemm.hpp:103-173; the recursive call has `layout = ColMajor`. -/
def lgGemm (layout : Layout) (transA transB : Op) (m n k : Nat) (alpha : T) (A lda B ldb : Nat)
    (beta : T) (C ldc : Nat) : M Nat T Unit :=
  if layout = .RowMajor then lgGemmCol transB transA n m k alpha B ldb A lda beta C ldc
  else lgGemmCol transA transB m n k alpha A lda B ldb beta C ldc

/-- The common text of hemm.hpp:103-159 and symm.hpp:97-153; `f` is the routine called. -/
def lgHemmWith (f : Side → Uplo → T → MatV Nat → MatV Nat → Coef T → MatV Nat → M Nat T Unit)
    (layout : Layout) (side : Side) (uplo : Uplo) (m n : Nat) (alpha : T) (A lda B ldb : Nat)
    (beta : T) (C ldc : Nat) : M Nat T Unit := do
  check (!(side ≠ .Left ∧ side ≠ .Right : Bool))
  check (!notTriGen uplo)
  check (!(lda < (if side = .Left then m else n) : Bool))
  check (!(ldb < (if layout = .RowMajor then n else m) : Bool))
  check (!(ldc < (if layout = .RowMajor then n else m) : Bool))
  if m = 0 ∨ n = 0 ∨ (alpha = 0 ∧ beta = 1) then pure () else
  let row : Bool := layout = .RowMajor
  let side' := if row then lgFlipSide side else side
  let uplo' := if row then lgFlip uplo else uplo
  let m' := if row then n else m
  let n' := if row then m else n
  let A_ ← (if side' = .Left then lgCol A m' m' lda else lgCol A n' n' lda : M Nat T (MatV Nat))
  let B_ ← lgCol B m' n' ldb
  let C_ ← lgCol C m' n' ldc
  if alpha = 0 then lgScaleM beta C_
  else f side' uplo' alpha A_ B_ (lgCoef beta) C_

/-- legacy_api/blas/hemm.hpp:90-159. -/
def lgHemm := @lgHemmWith T _ _ _ _ hemm
/-- legacy_api/blas/symm.hpp:84-153. -/
def lgSymm := @lgHemmWith T _ _ _ _ symm

/-- The common text of trmm.hpp:110-152 and trsm.hpp:114-156; `f` is the routine called. -/
def lgTrmWith (f : Side → Uplo → Op → Diag → T → MatV Nat → MatV Nat → M Nat T Unit)
    (layout : Layout) (side : Side) (uplo : Uplo) (trans : Op) (diag : Diag) (m n : Nat)
    (alpha : T) (A lda B ldb : Nat) : M Nat T Unit := do
  check (!(side ≠ .Left ∧ side ≠ .Right : Bool))
  check (!notTri uplo)
  check (!lgBadOp trans)
  check (!(lda < (if side = .Left then m else n) : Bool))
  check (!(ldb < (if layout = .RowMajor then n else m) : Bool))
  if m = 0 ∨ n = 0 then pure () else
  let row : Bool := layout = .RowMajor
  let side' := if row then lgFlipSide side else side
  let uplo' := if row then lgFlip uplo else uplo
  let m' := if row then n else m
  let n' := if row then m else n
  let A_ ← (if side' = .Left then lgCol A m' m' lda else lgCol A n' n' lda : M Nat T (MatV Nat))
  let B_ ← lgCol B m' n' ldb
  if alpha = 0 then forUp_ 0 n' fun j => forUp_ 0 m' fun i => B_.set i j 0
  else f side' uplo' trans diag alpha A_ B_

/-- legacy_api/blas/trmm.hpp:98-152. -/
def lgTrmm := @lgTrmWith T _ _ trmm
/-- legacy_api/blas/trsm.hpp:102-156. -/
def lgTrsm := @lgTrmWith T _ _ trsm

/-- The common text of the rank-k wrappers herk.hpp:98-158 and syrk.hpp:100-160.  `opX` is the
rejected operation for complex data, `opT` the one it is replaced by, `cj` what is done to `alpha`
in the row-major case (`herk.hpp:131` conjugates it), `f` the routine called. -/
def lgRankWith (opX opT : Op) (cj : T → T) (isComplex : Bool)
    (f : Uplo → Op → T → MatV Nat → Coef T → MatV Nat → M Nat T Unit)
    (layout : Layout) (uplo : Uplo) (trans : Op) (n k : Nat) (alpha : T) (A lda : Nat)
    (beta : T) (C ldc : Nat) : M Nat T Unit := do
  check (!notTriGen uplo)
  check (!lgBadOp trans)
  check (!(isComplex && (trans = opX : Bool)))
  check (!(lda < (if layout = .RowMajor then (if trans = .NoTrans then k else n)
    else (if trans = .NoTrans then n else k)) : Bool))
  check (!(ldc < n : Bool))
  if n = 0 ∨ ((alpha = 0 ∨ k = 0) ∧ beta = 1) then pure () else
  let row : Bool := layout = .RowMajor
  let trans1 := if trans = opX then opT else trans
  let uplo' := if row then lgFlip uplo else uplo
  let trans' := if row then (if trans1 = .NoTrans then opT else .NoTrans) else trans1
  let alpha' := if row then cj alpha else alpha
  let A_ ← (if trans' = .NoTrans then lgCol A n k lda else lgCol A k n lda : M Nat T (MatV Nat))
  let C_ ← lgCol C n n ldc
  if alpha' = 0 then lgScaleM beta C_
  else f uplo' trans' alpha' A_ (lgCoef beta) C_

/-- legacy_api/blas/herk.hpp:87-158. -/
def lgHerk (isComplex : Bool) := lgRankWith (T := T) .Trans .ConjTrans star isComplex herk
/-- legacy_api/blas/syrk.hpp:89-160. -/
def lgSyrk (isComplex : Bool) := lgRankWith (T := T) .ConjTrans .Trans id isComplex syrk

/-- The common text of her2k.hpp:113-180 and syr2k.hpp:114-180. -/
def lgRank2With (opX opT : Op) (cj : T → T) (isComplex : Bool)
    (f : Uplo → Op → T → MatV Nat → MatV Nat → Coef T → MatV Nat → M Nat T Unit)
    (layout : Layout) (uplo : Uplo) (trans : Op) (n k : Nat) (alpha : T) (A lda B ldb : Nat)
    (beta : T) (C ldc : Nat) : M Nat T Unit := do
  check (!notTriGen uplo)
  check (!lgBadOp trans)
  check (!(isComplex && (trans = opX : Bool)))
  check (!(lda < (if layout = .RowMajor then (if trans = .NoTrans then k else n)
    else (if trans = .NoTrans then n else k)) : Bool))
  check (!(ldb < (if layout = .RowMajor then (if trans = .NoTrans then k else n)
    else (if trans = .NoTrans then n else k)) : Bool))
  check (!(ldc < n : Bool))
  if n = 0 ∨ ((alpha = 0 ∨ k = 0) ∧ beta = 1) then pure () else
  let row : Bool := layout = .RowMajor
  let trans1 := if trans = opX then opT else trans
  let uplo' := if row then lgFlip uplo else uplo
  let trans' := if row then (if trans1 = .NoTrans then opT else .NoTrans) else trans1
  let alpha' := if row then cj alpha else alpha
  let A_ ← (if trans' = .NoTrans then lgCol A n k lda else lgCol A k n lda : M Nat T (MatV Nat))
  let B_ ← (if trans' = .NoTrans then lgCol B n k ldb else lgCol B k n ldb : M Nat T (MatV Nat))
  let C_ ← lgCol C n n ldc
  if alpha' = 0 then lgScaleM beta C_
  else f uplo' trans' alpha' A_ B_ (lgCoef beta) C_

/-- legacy_api/blas/her2k.hpp:101-180. -/
def lgHer2k [OfNat T 2] (isComplex : Bool) :=
  lgRank2With (T := T) .Trans .ConjTrans star isComplex her2k
/-- legacy_api/blas/syr2k.hpp:102-180. -/
def lgSyr2k (isComplex : Bool) := lgRank2With (T := T) .ConjTrans .Trans id isComplex syr2k

end TLA
