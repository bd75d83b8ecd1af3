import Verif.Model.BlockRefl

/-!
# Model of gelqt: blocked LQ factorization that keeps the triangular factors
-/

namespace TLA
variable {L T : Type} [DecidableEq L]

/-- `diag(A)` (plugins/legacyArray.hpp:530-545 with `diagIdx = 0`): the diagonal as a vector. -/
def MatV.tdiag (A : MatV L) : VecV L := ⟨min A.m A.n, fun i => A.cell i i⟩

/-- A matrix handed to a routine as workspace: `reshape` to its own shape returns the matrix itself
(plugins/legacyArray.hpp:577-601), whatever its layout. -/
def MatV.flat (W : MatV L) : VecV L := ⟨W.m * W.n, fun s => W.cell (s % W.m) (s / W.m)⟩

section
variable [Zero T] [One T] [Add T] [Mul T] [Sub T] [Neg T] [Div T] [Star T] [ReIm T] [DecidableEq T]
variable {R : Type} [Field R] [LinearOrder R]

/-- `gelqt_worksize` (lapack/gelqt.hpp:33-49). -/
def gelqtWorksize (A TT : MatV L) : Nat :=
  gelq2Worksize (A.sub 0 (min TT.n (min A.m A.n)) 0 A.n)

/-- The update of the rows below the panel (lapack/gelqt.hpp:89-95). -/
def gelqtUpdate (isReal : Bool) (A TT A11 TT1 : MatV L) (k j ib : Nat) : M L T Unit :=
  if j + ib < k then do
    let A12 ← A.slice (j + ib) A.m j A.n
    let work1 ← TT.slice (j + ib) A.m 0 ib
    let _ ← larfb isReal .Right .NoTrans .Forward .Rowwise A11 TT1 A12 work1.flat
    pure ()
  else pure ()

/-- One step of gelqt_work (lapack/gelqt.hpp:74-96). -/
def gelqtStep (o : HhOps T R) (A TT : MatV L) (work : VecV L) (k nb j : Nat) : M L T (Option Unit) := do
  let ib := min nb (k - j)
  let TT1 ← TT.slice j (j + ib) 0 ib
  let A11 ← A.slice j (j + ib) j A.n
  let _ ← gelq2 o A11 TT1.tdiag work
  let _ ← larft .Forward .Rowwise A11 TT1.tdiag TT1
  gelqtUpdate o.isReal A TT A11 TT1 k j ib
  pure none

/-- gelqt_work (lapack/gelqt.hpp:60-99).  The check `ncols(TT) < nb` of line 72 compares a number with itself. -/
def gelqt (o : HhOps T R) (A TT : MatV L) (work : VecV L) : M L T Nat := do
  let k := min A.m A.n
  let nb := TT.n
  check (!(TT.m < A.m ∨ TT.n < nb : Bool))
  let _ ← forStep nb k (gelqtStep o A TT work k nb) 0
  pure 0
end

end TLA
