import Verif.Model.Reduce

/-!
# Model of ungbr: the unitary factors of the bidiagonal reduction
-/

namespace TLA
variable {L T : Type} [DecidableEq L]
variable [Zero T] [One T] [Add T] [Mul T] [Sub T] [Neg T] [Div T] [Star T] [ReIm T] [DecidableEq T]

/-- `ungbr_q_worksize` (lapack/ungbr.hpp:48-69); `tn` is the length of `tau`. -/
def ungbrQWorksize (k : Nat) (A : MatV L) (tn nb : Nat) : WorkInfo :=
  if A.m ≥ k then ungqBlkWorksize .Forward .Columnwise A tn nb
  else ungqBlkWorksize .Forward .Columnwise (A.sub 0 (A.m - 1) 0 (A.m - 1)) (A.m - 1) nb

/-- `ungbr_p_worksize` (lapack/ungbr.hpp:92-113). -/
def ungbrPWorksize (k : Nat) (A : MatV L) (tn nb : Nat) : WorkInfo :=
  if A.n ≤ k then ungqBlkWorksize .Forward .Rowwise (A.sub 0 (A.n - 1) 0 (A.n - 1)) (A.n - 1) nb
  else ungqBlkWorksize .Forward .Rowwise A tn nb

/-- The body of the loop of ungbr_q_work that moves column `j - 1` to column `j` (lapack/ungbr.hpp:151-153). -/
def ungbrQShift (A : MatV L) (j : Nat) : M L T Unit := do
  A.set 0 j 0
  forUp_ (j + 1) A.m fun i => do
    let a ← A.get i (j - 1)
    A.set i j a

/-- The call of ungq for the trailing block (lapack/ungbr.hpp:158-164, 269-274); `m` is the order. -/
def ungbrTail (isReal : Bool) (nb : Nat) (store : StoreV) (m : Nat) (A : MatV L) (tau work : VecV L) : M L T Nat :=
  if m > 1 then do
    let A2 ← A.slice 1 m 1 m
    let tau2 ← tau.slice 0 (m - 1)
    let _ ← ungqBlk isReal nb .Forward store A2 tau2 work
    pure 0
  else pure 0

/-- ungbr_q_work (lapack/ungbr.hpp:126-168).  For `m = 0 < k` the unsigned `m - 1` wraps and the first access is out
of range. -/
def ungbrQ (isReal : Bool) (nb k : Nat) (A : MatV L) (tau work : VecV L) : M L T Nat :=
  if A.m ≥ k then do
    let _ ← ungqBlk isReal nb .Forward .Columnwise A tau work
    pure 0
  else if A.m = 0 then M.fail .ub
  else do
    forDown_ 1 A.m fun j => ungbrQShift A j
    A.set 0 0 1
    forUp_ 1 A.m fun i => A.set i 0 0
    ungbrTail isReal nb .Columnwise A.m A tau work

/-- Column `j` in the loop of ungbr_p_work (lapack/ungbr.hpp:264-267). -/
def ungbrPShift (A : MatV L) (j : Nat) : M L T Unit := do
  forDown_ 1 j fun i => do
    let a ← A.get (i - 1) j
    A.set i j a
  A.set 0 j 0

/-- ungbr_p_work (lapack/ungbr.hpp:231-278). -/
def ungbrP (isReal : Bool) (nb k : Nat) (A : MatV L) (tau work : VecV L) : M L T Nat :=
  if k < A.n then do
    let _ ← ungqBlk isReal nb .Forward .Rowwise A tau work
    pure 0
  else do
    A.set 0 0 1
    forUp_ 1 A.n fun i => A.set i 0 0
    forUp_ 1 A.n fun j => ungbrPShift A j
    ungbrTail isReal nb .Rowwise A.n A tau work

end TLA
