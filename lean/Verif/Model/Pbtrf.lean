import Verif.Model.Chol

/-!
# pbtrf_with_workspace: blocked banded Cholesky factorization of a full-format matrix

`work` is the local nb by nb matrix of lines 74-77.  The results of `potrf` and `potf2` are dropped by the code.
-/

namespace TLA
variable {L T : Type} [DecidableEq L]
variable [Zero T] [One T] [Add T] [Mul T] [Sub T] [Neg T] [Div T] [Star T] [ReIm T] [RealOps T]

/-- The copies between the corner of the band and the workspace (pbtrf_with_workspace.hpp:116-118, 142-146; 192-197, 214-219). -/
def pbCopy (uplo : Uplo) (ib i3 : Nat) (S D : MatV L) : M L T Unit :=
  if uplo = .Upper then
    forUp_ 0 i3 fun jj => forUp_ jj ib fun ii => do D.set ii jj (← S.get ii jj)
  else
    forUp_ 0 ib fun jj => forUp_ 0 (min (jj + 1) i3) fun ii => do D.set ii jj (← S.get ii jj)

/-- pbtrf_with_workspace.hpp:95-107 (Upper), 168-179 (Lower): the panel inside the band. -/
def pbMid (uplo : Uplo) (A A00 : MatV L) (i ib i2 kd n : Nat) : M L T Unit :=
  if uplo = .Upper then do
    let A01 ← A.slice i (ib + i) (i + ib) (min (i + ib + i2) n)
    trsm .Left .Upper .ConjTrans .NonUnit 1 A00 A01
    let A11 ← A.slice (i + ib) (min (i + kd) n) (i + ib) (min (i + kd) n)
    herk .Upper .ConjTrans (-1) A01 (.val 1) A11
  else do
    let A10 ← A.slice (ib + i) (ib + i2 + i) i (ib + i)
    trsm .Right .Lower .ConjTrans .NonUnit 1 A00 A10
    let A11 ← A.slice (ib + i) (ib + i2 + i) (i + ib) (i + ib + i2)
    herk .Lower .NoTrans (-1) A10 (.val 1) A11

/-- pbtrf_with_workspace.hpp:111-146 (Upper), 183-219 (Lower): the triangular corner of the band. -/
def pbTail (uplo : Uplo) (A A00 W : MatV L) (i ib i2 i3 kd n : Nat) : M L T Unit :=
  if uplo = .Upper then do
    let A02 ← A.slice i (i + ib) (i + kd) (i + kd + i3)
    let W02 ← W.slice 0 ib 0 i3
    pbCopy .Upper ib i3 A02 W02
    trsm .Left .Upper .ConjTrans .NonUnit 1 A00 W02
    let A12 ← A.slice (i + ib) (i + kd) (i + kd) (min (i + kd + i3) n)
    let A01 ← A.slice i (ib + i) (i + ib) (min (i + ib + i2) n)
    gemm .ConjTrans .NoTrans (-1) A01 W02 (.val 1) A12
    let A22 ← A.slice (i + kd) (min (i + kd + i3) n) (i + kd) (min (i + kd + i3) n)
    herk .Upper .ConjTrans (-1) W02 (.val 1) A22
    pbCopy .Upper ib i3 W02 A02
  else do
    let A10 ← A.slice (ib + i) (ib + i2 + i) i (ib + i)
    let A20 ← A.slice (kd + i) (min (kd + i3 + i) n) i (i + ib)
    let W20 ← W.slice 0 i3 0 ib
    pbCopy .Lower ib i3 A20 W20
    trsm .Right .Lower .ConjTrans .NonUnit 1 A00 W20
    let A21 ← A.slice (kd + i) (kd + i + i3) (i + ib) (i + ib + i2)
    gemm .NoTrans .ConjTrans (-1) W20 A10 (.val 1) A21
    let A22 ← A.slice (kd + i) (kd + i + i3) (kd + i) (kd + i + i3)
    herk .Lower .NoTrans (-1) W20 (.val 1) A22
    pbCopy .Lower ib i3 W20 A20

/-- One step (pbtrf_with_workspace.hpp:80-148, 153-221).  `kd - ib` wraps around for `kd < ib`, and the slices with `i2` then leave the
matrix: `ub`. -/
def pbStep (dbg internal : Bool) (nbp : Nat) (variant : PotrfVariant) (uplo : Uplo) (A W : MatV L) (kd n nb i : Nat) :
    M L T (Option Unit) := do
  let ib := min nb (n - i)
  let A00 ← A.slice i (i + ib) i (i + ib)
  let _ ← (if uplo = .Upper then potrf dbg internal nbp variant .Upper A00 else potf2 dbg .Lower A00 : M L T Nat)
  (if (if uplo = .Upper then i + ib < n else i + ib ≤ n) then
    if kd + i < n ∧ kd < ib then M.fail .ub
    else do
      let i2 := if kd + i < n then kd - ib else n - i - ib
      let i3 := if i + kd < n then min ib (n - i - kd) else 0
      (if 0 < i2 then pbMid uplo A A00 i ib i2 kd n else pure () : M L T Unit)
      (if 0 < i3 then pbTail uplo A A00 W i ib i2 i3 kd n else pure () : M L T Unit)
  else pure () : M L T Unit)
  pure none

/-- lapack/pbtrf_with_workspace.hpp:52-224; `nbp`, `variant` are the default options of potrf. -/
def pbtrf (dbg internal : Bool) (nbp : Nat) (variant : PotrfVariant) (uplo : Uplo) (A : MatV L) (kd nb : Nat) (W : MatV L) :
    M L T Unit := do
  check (uplo = .Lower ∨ uplo = .Upper : Bool)
  check (A.m = A.n : Bool)
  check (kd < A.m : Bool)
  laset .General 0 0 W
  let _ ← forStep nb A.m (pbStep dbg internal nbp variant uplo A W kd A.m nb) 0
  pure ()

end TLA
