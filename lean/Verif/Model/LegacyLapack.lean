import Verif.Model.Legacy
import Verif.Model.Auxil
import Verif.Model.Chol
import Verif.Model.House
import Verif.Model.BlockRefl
import Verif.Model.Norm

/-!
# The legacy (pointer, leading dimension, increment) LAPACK interface

/repo/include/tlapack/legacy_api/lapack/*.hpp: geqr2, lacpy, laset, lange, lanhe, lansy, lantr,
larf, larfb, larft, lascl, lassq, potrf, potrs, ung2r, unmqr.  Memory and simplifications as in
Model/Legacy.lean.  The memory that the called routines allocate for themselves is the argument
`work`.  Not modelled: larfg (its alpha and tau are separate references), larnv, and unm2r, which
passes the raw pointer `A` where a matrix is needed (legacy_api/lapack/unm2r.hpp:96) and so cannot be
instantiated.
-/

namespace TLA
variable {T : Type}
variable [Zero T] [One T] [Add T] [Mul T] [Sub T] [Neg T] [Div T] [Star T] [ReIm T] [DecidableEq T]
variable {R : Type} [Field R] [LinearOrder R]

/-- `create_vector(tau, k)` (legacy_api/base/legacyArray.hpp:57-62). -/
def lgTau (k tau : Nat) : VecV Nat := (LVec.mk k tau 1 .Forward).view

/-- `enum class MatrixType` (legacy_api/base/types.hpp), the values used here. -/
inductive MatrixType
  | General | Lower | Upper | Hessenberg | LowerBand | UpperBand | Band
deriving DecidableEq

/-- legacy_api/lapack/lacpy.hpp:35-50, the overload with `uplo`. -/
def lgLacpy (uplo : Uplo) (m n A lda B ldb : Nat) : M Nat T Unit := do
  check (!notTriGen uplo)
  let A_ ← lgCol A m n lda
  let B_ ← lgCol B m n ldb
  lacpy uplo A_ B_

/-- `uplo` for a `MatrixType` (lacpy.hpp:85-95, laset.hpp:81-91). -/
def mtUplo (t : MatrixType) : Uplo :=
  if t = .Upper then .Upper else if t = .Lower then .Lower else .General

/-- legacy_api/lapack/lacpy.hpp:76-96. -/
def lgLacpyT (t : MatrixType) (m n A lda B ldb : Nat) : M Nat T Unit :=
  lgLacpy (mtUplo t) m n A lda B ldb

/-- legacy_api/lapack/laset.hpp:30-48. -/
def lgLaset (uplo : Uplo) (m n : Nat) (alpha beta : T) (A lda : Nat) : M Nat T Unit := do
  check (!notTriGen uplo)
  if m = 0 ∨ n = 0 then pure () else
  let A_ ← lgCol A m n lda
  laset uplo alpha beta A_

/-- legacy_api/lapack/laset.hpp:71-92. -/
def lgLasetT (t : MatrixType) (m n : Nat) (alpha beta : T) (A lda : Nat) : M Nat T Unit :=
  lgLaset (mtUplo t) m n alpha beta A lda

/-- legacy_api/lapack/lange.hpp:44-63. -/
def lgLange (o : HhOps T R) (nt : Norm) (m n A lda : Nat) : M Nat T R := do
  check (normOK nt)
  if m = 0 ∨ n = 0 then pure 0 else
  let A_ ← lgCol A m n lda
  lange o nt A_

/-- legacy_api/lapack/lansy.hpp:43-62. -/
def lgLansy (o : HhOps T R) (nt : Norm) (uplo : Uplo) (n A lda : Nat) : M Nat T R := do
  check (normOK nt)
  check (!notTri uplo)
  if n = 0 then pure 0 else
  let A_ ← lgCol A n n lda
  lansy o nt uplo A_

/-- legacy_api/lapack/lanhe.hpp:43-62. -/
def lgLanhe (o : HhOps T R) (nt : Norm) (uplo : Uplo) (n A lda : Nat) : M Nat T R := do
  check (normOK nt)
  check (!notTri uplo)
  if n = 0 then pure 0 else
  let A_ ← lgCol A n n lda
  lanhe o nt uplo A_

/-- legacy_api/lapack/lantr.hpp:55-80. -/
def lgLantr (o : HhOps T R) (nt : Norm) (uplo : Uplo) (diag : Diag) (m n A lda : Nat) :
    M Nat T R := do
  check (normOK nt)
  check (!notTri uplo)
  if m = 0 ∨ n = 0 then pure 0 else
  let A_ ← lgCol A m n lda
  lantr o nt uplo diag A_

/-- legacy_api/lapack/lassq.hpp:50-62 (no NaN in exact arithmetic); returns the new `(scl, sumsq)`. -/
def lgLassq (o : HhOps T R) (n x : Nat) (incx : Int) (scl sumsq : R) : M Nat T (R × R) :=
  if n = 0 then pure (scl, sumsq)
  else lassq o (lgVec n x incx) scl sumsq

/-- legacy_api/lapack/potrf.hpp:66-78; `thr` as in Model/Chol.lean, `nb` the default block size. -/
def lgPotrf [RealOps T] (thr : Bool) (nb : Nat) (uplo : Uplo) (n A lda : Nat) : M Nat T Nat := do
  check (!notTri uplo)
  let A_ ← lgCol A n n lda
  potrfBlocked thr nb uplo A_

/-- legacy_api/lapack/potrs.hpp:39-59. -/
def lgPotrs (uplo : Uplo) (n nrhs A lda B ldb : Nat) : M Nat T Unit := do
  check (!notTri uplo)
  let A_ ← lgCol A n n lda
  let B_ ← lgCol B n nrhs ldb
  potrs uplo A_ B_

/-- legacy_api/lapack/geqr2.hpp:31-50. -/
def lgGeqr2 (o : HhOps T R) (m n A lda tau : Nat) (work : VecV Nat) : M Nat T Nat := do
  check (!(lda < m : Bool))
  if n = 0 then pure 0 else
  let A_ ← lgCol A m n lda
  geqr2 o A_ (lgTau (min m n) tau) work

/-- legacy_api/lapack/ung2r.hpp:42-62. -/
def lgUng2r (m n k A lda tau : Nat) (work : VecV Nat) : M Nat T Nat := do
  check (!(n > m : Bool))
  check (!(k > n : Bool))
  check (!(lda < m : Bool))
  if n = 0 then pure 0 else
  let A_ ← lgCol A m n lda
  ungq .Forward .Columnwise A_ (lgTau (min m n) tau) work

/-- legacy_api/lapack/unmqr.hpp:88-120; `nb` the default block size of unmqr. -/
def lgUnmqr (isReal : Bool) (nb : Nat) (side : Side) (trans : Op) (m n k A lda tau C ldc : Nat)
    (work : VecV Nat) : M Nat T Nat := do
  check (!(side ≠ .Left ∧ side ≠ .Right : Bool))
  check (!lgBadOp trans)
  let A_ ← (if side = .Left then lgCol A m k lda else lgCol A n k lda : M Nat T (MatV Nat))
  let C_ ← lgCol C m n ldc
  unmqBlk isReal nb side trans .Forward .Columnwise A_ (lgTau k tau) C_ work

/-- legacy_api/lapack/larf.hpp:46-77. -/
def lgLarf (side : Side) (m n v : Nat) (incv : Int) (tau : T) (C ldc : Nat) (work : VecV Nat) :
    M Nat T Unit := do
  check (!(side ≠ .Left ∧ side ≠ .Right : Bool))
  check (!(incv = 0 : Bool))
  check (!(ldc < m : Bool))
  let lenv := if side = .Left then m else n
  let C_ ← lgCol C m n ldc
  larf side .Forward .Columnwise (lgVec lenv v incv) tau C_ work

/-- legacy_api/lapack/larft.hpp:81-118. -/
def lgLarft (dir : Direction) (store : StoreV) (n k V ldv tau Tp ldt : Nat) : M Nat T Nat := do
  check (!(k < 1 : Bool))
  check (!(ldv < (if store = .Columnwise then n else k) : Bool))
  check (!(ldt < k : Bool))
  if n = 0 ∨ k = 0 then pure 0 else
  let V_ ← (if store = .Columnwise then lgCol V n k ldv else lgCol V k n ldv : M Nat T (MatV Nat))
  let T_ ← lgCol Tp k k ldt
  larft dir store V_ (lgTau k tau) T_

/-- legacy_api/lapack/larfb.hpp:75-125. -/
def lgLarfb (isReal : Bool) (side : Side) (trans : Op) (dir : Direction) (store : StoreV)
    (m n k V ldv Tp ldt C ldc : Nat) (work : VecV Nat) : M Nat T Nat := do
  check (!(side ≠ .Left ∧ side ≠ .Right : Bool))
  check (!(trans ≠ .NoTrans ∧ trans ≠ .ConjTrans ∧ (trans ≠ .Trans ∨ isReal = false) : Bool))
  if m = 0 ∨ n = 0 then pure 0 else
  let V_ ← (if store = .Columnwise then lgCol V (if side = .Left then m else n) k ldv
    else lgCol V k (if side = .Left then m else n) ldv : M Nat T (MatV Nat))
  let T_ ← lgCol Tp k k ldt
  let C_ ← lgCol C m n ldc
  larfb isReal side trans dir store V_ T_ C_ work

/-- `create_banded_matrix(A, m, n, kl, ku)` (legacyArray.hpp:44-49) with the constructor's check
(LegacyBandedMatrix.hpp:64-70) as a view; lascl only touches entries in the band. -/
def lgBand (p m n kl ku : Nat) : M Nat T (MatV Nat) := do
  check ((kl + 1 ≤ m ∨ m = 0) ∧ (ku + 1 ≤ n ∨ n = 0) : Bool)
  pure ⟨m, n, fun i j => p + ((ku + i) + j * (ku + kl))⟩

/-- The access type lascl selects for the dense matrix types (legacy_api/lapack/lascl.hpp:103-126). -/
def mtUplo4 (t : MatrixType) : Uplo :=
  match t with
  | .General => .General
  | .Lower => .Lower
  | .Upper => .Upper
  | _ => .UpperHessenberg

/-- legacy_api/lapack/lascl.hpp:70-158; the checks of kl and ku against m - 1 and n - 1 use signed
`max(m - 1, 0)` on an unsigned type, which for `m = 0` wraps: then any kl passes. -/
def lgLascl (emb : R → T) (small big : R) (fuel : Nat) (t : MatrixType) (kl ku : Nat) (b a : R)
    (m n A lda : Nat) : M Nat T Nat := do
  let band : Bool := t = .LowerBand ∨ t = .UpperBand ∨ t = .Band
  check (!(band && (m ≠ 0 : Bool) && (kl > m - 1 : Bool)))
  check (!(band && (n ≠ 0 : Bool) && (ku > n - 1 : Bool)))
  check (!((t = .LowerBand ∨ t = .UpperBand) ∧ kl ≠ ku : Bool))
  check (!(lda < m ∧ (t = .General ∨ t = .Lower ∨ t = .Upper ∨ t = .Hessenberg) : Bool))
  check (!(t = .LowerBand ∧ lda < kl + 1 : Bool))
  check (!(t = .UpperBand ∧ lda < ku + 1 : Bool))
  check (!(t = .Band ∧ lda < 2 * kl + ku + 1 : Bool))
  match t with
  | .LowerBand => do
    let A_ ← lgBand A m n kl 0
    lasclBand emb small big fuel kl 0 b a A_
  | .UpperBand => do
    let A_ ← lgBand A m n 0 ku
    lasclBand emb small big fuel 0 ku b a A_
  | .Band => do
    let A_ ← lgBand A m n kl ku
    lasclBand emb small big fuel kl ku b a A_
  | t => do
    let A_ ← lgCol A m n lda
    lascl emb small big fuel (mtUplo4 t) b a A_

end TLA
