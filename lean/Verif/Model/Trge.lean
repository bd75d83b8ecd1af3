import Verif.Model.House

/-!
# Model of trge_qr2 and trge_ung2r

QR factorization of a triangle on top of a rectangle.  The local workspace (trge_qr2.hpp:44-45, trge_ung2r.hpp:55-56) is an argument.
-/

namespace TLA
variable {L T : Type} [DecidableEq L]
variable [Zero T] [One T] [Add T] [Mul T] [Sub T] [Neg T] [Div T] [Star T] [ReIm T] [DecidableEq T]
variable {R : Type} [Field R] [LinearOrder R]

/-- Generation of reflector `i` (trge_qr2.hpp:48-50, 59-61). -/
def trgeGen (o : HhOps T R) (A : MatV L) (tau : VecV L) (i : Nat) : M L T Unit := do
  let v ← A.sliceCol A.n A.m i
  let a ← A.get i i
  let r ← larfg o .Columnwise a v
  A.set i i r.1
  tau.set i r.2

/-- trge_qr2 (trge_qr2.hpp:17-62).  For `n = 0` the bound `n - 1` wraps around and the loop leaves the matrix. -/
def trgeQr2 (o : HhOps T R) (A : MatV L) (tau work : VecV L) : M L T Unit := do
  if A.n = 0 then M.fail .ub
  else do
    forUp_ 0 (A.n - 1) fun i => do
      trgeGen o A tau i
      let v ← A.sliceCol A.n A.m i
      let C0 ← A.sliceRow i (i + 1) A.n
      let C1 ← A.slice A.n A.m (i + 1) A.n
      let t ← tau.get i
      larfC .Left .Columnwise v (star t) C0 C1 work
    trgeGen o A tau (A.n - 1)

/-- One column of trge_ung2r (trge_ung2r.hpp:51-64 for the last one, 66-78 for the others); `n` is the number of
reflectors.  The test `k > n` of line 58 is made for the last column only. -/
def trgeUngStep (W : MatV L) (tau work : VecV L) (i : Nat) : M L T Unit := do
  let v ← W.sliceCol tau.n W.m i
  let W0 ← W.sliceRow i (i + 1) W.n
  let W1 ← W.slice tau.n W.m (i + 1) W.n
  let t ← tau.get i
  (if i + 1 = tau.n ∧ ¬ W.n > tau.n then pure ()
   else larfC .Left .Columnwise v t W0 W1 work : M L T Unit)
  forUp_ 0 i fun j => W.set j i 0
  scal (-t) v
  W.set i i (1 - t)

/-- trge_ung2r (trge_ung2r.hpp:17-79).  For `n = 0` the index `n - 1` of line 51 is outside the matrix. -/
def trgeUng2r (W : MatV L) (tau work : VecV L) : M L T Unit := do
  let n := tau.n
  let W0 ← W.slice 0 n n W.n
  laset .General 0 0 W0
  let W1 ← W.slice n W.m n W.n
  laset .General 0 1 W1
  if n = 0 then M.fail .ub
  else forDown_ 0 n fun i => trgeUngStep W tau work i

end TLA
