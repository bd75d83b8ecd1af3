import Verif.Model.Reduce

/-!
# Model of lahr2 and gehrd: blocked reduction to Hessenberg form
-/

namespace TLA
variable {L T : Type} [DecidableEq L]
variable [Zero T] [One T] [Add T] [Mul T] [Sub T] [Neg T] [Div T] [Star T] [ReIm T] [DecidableEq T]
variable {R : Type} [Field R] [LinearOrder R]

/-- Column `i` is brought up to date with the reflectors of the panel so far, and the entry overwritten by a one is put
back (lapack/lahr2.hpp:82-140).  The two loops of lines 95-96 and 98-99 are the loop of `conjugate`. -/
def lahr2Head (k nb i : Nat) (A Tm Y : MatV L) (ei : T) : M L T Unit :=
  if 0 < i then do
    let n := A.m
    let Y2 ← Y.slice (k + 1) n 0 i
    let Vti ← A.sliceRow (k + i) 0 i
    let b ← A.sliceCol (k + 1) n i
    conjugate Vti
    gemv .NoTrans (-1) Y2 Vti (.val 1) b
    conjugate Vti
    let b1 ← b.slice 0 i
    let b2 ← b.slice i b.n
    let V ← A.slice (k + 1) n 0 i
    let V1 ← V.slice 0 i 0 i
    let V2 ← V.slice i V.m 0 i
    let w ← Tm.sliceCol 0 i (nb - 1)
    copy b1 w
    trmv .Lower .ConjTrans .Unit V1 w
    gemv .ConjTrans 1 V2 b2 (.val 1) w
    let T2 ← Tm.slice 0 i 0 i
    trmv .Upper .ConjTrans .NonUnit T2 w
    gemv .NoTrans (-1) V2 w (.val 1) b2
    trmv .Lower .NoTrans .Unit V1 w
    axpy (-1) w b1
    A.set (k + i) (i - 1) ei
  else pure ()

/-- The next columns of `Y` and of `T` (lapack/lahr2.hpp:152-167). -/
def lahr2Next (k i : Nat) (A : MatV L) (tau : VecV L) (Tm Y : MatV L) (v : VecV L) : M L T Unit := do
  let n := A.m
  let A2 ← A.slice (k + 1) n (i + 1) (n - k)
  let y ← Y.sliceCol (k + 1) n i
  gemv .NoTrans 1 A2 v .strongZero y
  let t ← Tm.sliceCol 0 i i
  let A3 ← A.slice (k + i + 1) n 0 i
  gemv .ConjTrans 1 A3 v .strongZero t
  let Y2 ← Y.slice (k + 1) n 0 i
  gemv .NoTrans (-1) Y2 t (.val 1) y
  let ti ← tau.get i
  scal ti y
  let ti ← tau.get i
  scal (-ti) t
  let T2 ← Tm.slice 0 i 0 i
  trmv .Upper .NoTrans .NonUnit T2 t
  let ti ← tau.get i
  Tm.set i i ti

/-- One column of the panel; carries the scalar `ei` (lapack/lahr2.hpp:81-168). -/
def lahr2Step (o : HhOps T R) (k nb : Nat) (A : MatV L) (tau : VecV L) (Tm Y : MatV L) (i : Nat) (ei : T) : M L T T := do
  lahr2Head k nb i A Tm Y ei
  let v ← A.sliceCol (k + i + 1) A.m i
  let t ← larfgV o .Forward .Columnwise v
  tau.set i t
  let ei ← v.get 0
  v.set 0 1
  lahr2Next k i A tau Tm Y v
  pure ei

/-- The rows of `Y` above the panel (lapack/lahr2.hpp:173-184). -/
def lahr2Top (k nb : Nat) (A Tm Y : MatV L) : M L T Unit := do
  let n := A.m
  let A4 ← A.slice 0 (k + 1) 1 (nb + 1)
  let Y3 ← Y.slice 0 (k + 1) 0 nb
  lacpy .General A4 Y3
  let V1 ← A.slice (k + 1) (k + nb + 1) 0 nb
  let Y1 ← Y.slice 0 (k + 1) 0 nb
  trmm .Right .Lower .NoTrans .Unit 1 V1 Y1
  (if k + nb + 1 < n then do
    let A5 ← A.slice 0 (k + 1) (nb + 1) (n - k)
    let V2 ← A.slice (k + nb + 1) n 0 nb
    gemm .NoTrans .NoTrans 1 A5 V2 (.val 1) Y1
  else (pure () : M L T Unit))
  trmm .Right .Upper .NoTrans .NonUnit 1 Tm Y1

/-- lahr2 (lapack/lahr2.hpp:61-187). -/
def lahr2 (o : HhOps T R) (k nb : Nat) (A : MatV L) (tau : VecV L) (Tm Y : MatV L) : M L T Nat :=
  if A.m ≤ 1 then pure 0
  else do
    let ei ← forUp 0 nb (0 : T) fun i ei => lahr2Step o k nb A tau Tm Y i ei
    A.set (k + nb) (nb - 1) ei
    lahr2Top k nb A Tm Y
    pure 0

/-- `gehrd_worksize` (lapack/gehrd.hpp:52-86). -/
def gehrdWorksize (nb0 nxs ilo ihi : Nat) (A : MatV L) : WorkInfo :=
  let nb := if ilo < ihi then min nb0 (ihi - ilo - 1) else 0
  let nx := max nb nxs
  if 0 < A.n then
    let w : WorkInfo := if ilo < ihi ∧ nx < ihi - ilo - 1 then
        (WorkInfo.ofMat (A.n + nb) nb).minMax
          (larfbWorksize .Left (ihi - (ilo + 1)) (A.n - (ilo + nb)) nb).transpose
      else .ofSize 0
    w.minMax (gehd2Worksize ilo ihi A)
  else .ofSize 0

/-- The update of the columns of the trailing block from the right: the last entry of the panel is replaced by a one
for the product (lapack/gehrd.hpp:151-164). -/
def gehrdRight (i nb ihi : Nat) (A V Y : MatV L) : M L T Unit :=
  if i + nb < ihi then do
    let V2 ← V.slice (nb - 1) (ihi - i - 1) 0 nb
    let ei ← V.get (nb - 1) (nb - 1)
    V.set (nb - 1) (nb - 1) 1
    let A3 ← A.slice 0 ihi (i + nb) ihi
    let Y2 ← Y.slice 0 ihi 0 nb
    gemm .NoTrans .ConjTrans (-1) Y2 V2 (.val 1) A3
    V.set (nb - 1) (nb - 1) ei
  else pure ()

/-- The rows above the panel in the columns of the panel (lapack/gehrd.hpp:166-171). -/
def gehrdTop (i nb : Nat) (A Y Ys : MatV L) : M L T Unit := do
  let V1 ← A.slice (i + 1) (i + nb + 1) i (i + nb)
  trmm .Right .Lower .ConjTrans .Unit 1 V1 Ys
  forUp_ 0 (nb - 1) fun j => do
    let A4 ← A.sliceCol 0 (i + 1) (i + j + 1)
    let yj ← Y.sliceCol 0 (i + 1) j
    axpy (-1) yj A4

/-- One block of gehrd_work (lapack/gehrd.hpp:142-177).  The transposed `Y` is the workspace of larfb: the `n nb` cells
it was made of. -/
def gehrdStep (o : HhOps T R) (nb ihi : Nat) (A : MatV L) (tau : VecV L) (Y Tm : MatV L) (yw : VecV L) (i : Nat) :
    M L T Unit := do
  let nb2 := min nb (ihi - i - 1)
  let V ← A.slice (i + 1) ihi i (i + nb2)
  let A2 ← A.slice 0 ihi i ihi
  let tau2 ← tau.slice i ihi
  let Ts ← Tm.slice 0 nb2 0 nb2
  let Ys ← Y.slice 0 A.n 0 nb2
  let _ ← lahr2 o i nb2 A2 tau2 Ts Ys
  gehrdRight i nb2 ihi A V Y
  gehrdTop i nb2 A Y Ys
  let A5 ← A.slice (i + 1) ihi (i + nb2) A.n
  let _ ← larfb o.isReal .Left .ConjTrans .Forward .Columnwise V Ts A5 yw
  pure ()

/-- The loop over the blocks, `for (; i + nx < ihi - 1; i = i + nb)`, returning the final `i`
(lapack/gehrd.hpp:141-142); with `nb = 0` it never ends. -/
def gehrdLoop (o : HhOps T R) (nb nx ihi : Nat) (A : MatV L) (tau : VecV L) (Y Tm : MatV L) (yw : VecV L) :
    Nat → Nat → M L T Nat
  | 0, i => if i + nx < ihi - 1 then M.fail .diverge else pure i
  | fuel + 1, i => if i + nx < ihi - 1 then do
      gehrdStep o nb ihi A tau Y Tm yw i
      gehrdLoop o nb nx ihi A tau Y Tm yw fuel (i + nb)
    else pure i

/-- gehrd_work (lapack/gehrd.hpp:99-180).  `idx_t` is unsigned: for `ihi = 0` the `ihi - 1` of the loop wraps around and
the first slice of the loop is out of range; `n = 0` fails the first check.  The fuel `ihi` is enough for every
`nb > 0`. -/
def gehrd (o : HhOps T R) (nb0 nxs ilo ihi : Nat) (A : MatV L) (tau work : VecV L) : M L T Nat := do
  let n := A.n
  let nb := if ilo < ihi then min nb0 (ihi - ilo - 1) else 0
  let nx := max nb nxs
  check (!(decide (n ≤ ilo)))
  check (!(decide (n < ihi)))
  check (decide (A.n = A.m))
  check (!(decide (tau.n < n - 1)))
  let blk : Bool := ilo < ihi ∧ nx < ihi - ilo - 1
  let (Y, work2) ← if blk then reshapeWM work n nb else reshapeWM work 0 0
  let (Tm, _) ← if blk then reshapeWM work2 nb nb else reshapeWM work2 0 0
  laset .General 0 0 Y
  if ihi = 0 then M.fail .ub
  else do
    let i ← gehrdLoop o nb nx ihi A tau Y Tm (work.sub 0 (Y.m * Y.n)) ihi ilo
    gehd2 o i ihi A tau work

end TLA
