import Verif.Model.BlockRefl
import Verif.Model.Auxil
import Verif.Model.Blas3

/-!
# Model of the regularised least squares solver tik_qr
-/

namespace TLA
variable {L T R : Type} [DecidableEq L]

section
variable [Zero T] [One T] [Add T] [Mul T] [Sub T] [Neg T] [Div T] [Star T] [ReIm T] [DecidableEq T]
  [Field R] [LinearOrder R]

/-- lapack/tik_qr.hpp:37-98.  `nb` is the block size of geqrf and unmqr (32 in the code).  The arrays the routine
allocates (`tau1`, `Raug`, `tau2`, `baug`) are parameters with arbitrary contents; the workspaces which geqrf and
unmqr allocate and free are one parameter `work`. -/
def tikQr (o : HhOps T R) (nb : Nat) (A b : MatV L) (lambda : T) (tau1 : VecV L) (Raug : MatV L) (tau2 : VecV L)
    (baug : MatV L) (work : VecV L) : M L T Unit := do
  let n := A.n
  let k := b.n
  let _ ← geqrf o nb A tau1 work
  let _ ← unmqBlk o.isReal nb .Left .ConjTrans .Forward .Columnwise A tau1 b work
  laset .General 0 0 Raug
  let lam ← Raug.slice n (n + n) 0 n
  let A0 ← A.slice 0 n 0 n
  lacpy .Upper A0 Raug
  laset .General 0 lambda lam
  let _ ← geqrf o nb Raug tau2 work
  let bb ← baug.slice n (n + n) 0 k
  let b0 ← b.slice 0 n 0 k
  lacpy .General b0 baug
  laset .General 0 0 bb
  let _ ← unmqBlk o.isReal nb .Left .ConjTrans .Forward .Columnwise Raug tau2 baug work
  let bv ← baug.slice 0 n 0 k
  let R0 ← Raug.slice 0 n 0 n
  trsm .Left .Upper .NoTrans .NonUnit 1 R0 bv
  lacpy .General bv b

/-- lapack/tkhnv.hpp:21-31 with the default variant `TikVariant::QR`. -/
def tkhnvQr (o : HhOps T R) (nb : Nat) (A b : MatV L) (lambda : T) (tau1 : VecV L) (Raug : MatV L) (tau2 : VecV L)
    (baug : MatV L) (work : VecV L) : M L T Unit := do
  check (decide (A.m ≥ A.n))
  tikQr o nb A b lambda tau1 Raug tau2 baug work

end
end TLA
