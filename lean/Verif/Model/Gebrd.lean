import Verif.Model.Gehrd

/-!
# Model of labrd and gebrd: blocked reduction to bidiagonal form

The steps of the two branches of labrd differ only in the ranges of the slices; the parts they share are written once,
with the ranges as parameters.
-/

namespace TLA
variable {L T : Type} [DecidableEq L]
variable [Zero T] [One T] [Add T] [Mul T] [Sub T] [Neg T] [Div T] [Star T] [ReIm T] [DecidableEq T]
variable {R : Type} [Field R] [LinearOrder R]

/-- `conjugate(x); gemv(trans, -one, A, x, one, y); conjugate(x)` (lapack/labrd.hpp:82-84, 140-143, 147-149, 214-216,
261-263). -/
def gemvConj (trans : Op) (A : MatV L) (x y : VecV L) : M L T Unit := do
  conjugate x
  gemv trans (-1) A x (.val 1) y
  conjugate x

/-- Column `i`, rows `r0..m`, is brought up to date with `A(:,0:k1) Y(i,0:k1)^H` (lapack/labrd.hpp:79-84, 258-263). -/
def brdColY (r0 k1 i : Nat) (A Y : MatV L) : M L T Unit := do
  let y ← Y.sliceRow i 0 k1
  let A2 ← A.slice r0 A.m 0 k1
  let a21 ← A.sliceCol r0 A.m i
  gemvConj .NoTrans A2 y a21

/-- Row `i`, columns `c0..n`, is brought up to date with the rows of `A` and row `i` of `X`
(lapack/labrd.hpp:145-149, 212-216). -/
def brdRowX (c0 i : Nat) (A X : MatV L) : M L T Unit := do
  let w ← A.sliceRow i c0 A.n
  let A3 ← A.slice 0 i c0 A.n
  let x ← X.sliceRow i 0 i
  gemvConj .ConjTrans A3 x w

/-- Column `i` of `Y` (lapack/labrd.hpp:105-126 with `r0 = i`, `k2 = i`; 281-303 with `r0 = k2 = i + 1`). -/
def brdY (r0 k2 i : Nat) (A X Y : MatV L) (v : VecV L) (tauq : VecV L) : M L T Unit := do
  let m := A.m
  let n := A.n
  let y11 ← Y.sliceCol (i + 1) n i
  let A0 ← A.slice r0 m (i + 1) n
  gemv .ConjTrans 1 A0 v (.val 0) y11
  let A1 ← A.slice r0 m 0 i
  let t ← Y.sliceCol 0 i i
  gemv .ConjTrans 1 A1 v (.val 0) t
  let Y2 ← Y.slice (i + 1) n 0 i
  gemv .NoTrans (-1) Y2 t (.val 1) y11
  let t2 ← Y.sliceCol 0 k2 i
  let X2 ← X.slice r0 m 0 k2
  gemv .ConjTrans 1 X2 v (.val 0) t2
  let A2 ← A.slice 0 k2 (i + 1) n
  gemv .ConjTrans (-1) A2 t2 (.val 1) y11
  let ti ← tauq.get i
  scal ti y11

/-- The corrections to column `i` of `X` (lapack/labrd.hpp:170-182 with `c0 = k1 = i + 1`; 237-249 with
`c0 = k1 = i`). -/
def brdXrest (c0 k1 i : Nat) (A X Y : MatV L) (w x11 : VecV L) : M L T Unit := do
  let m := A.m
  let n := A.n
  let Y4 ← Y.slice c0 n 0 k1
  let t2 ← X.sliceCol 0 k1 i
  gemv .ConjTrans 1 Y4 w (.val 0) t2
  let A5 ← A.slice (i + 1) m 0 k1
  gemv .NoTrans (-1) A5 t2 (.val 1) x11
  let A6 ← A.slice 0 i c0 n
  let t3 ← X.sliceCol 0 i i
  gemv .NoTrans 1 A6 w (.val 0) t3
  let X4 ← X.slice (i + 1) m 0 i
  gemv .NoTrans (-1) X4 t3 (.val 1) x11

/-- Column `i` of `X` (lapack/labrd.hpp:163-186, 229-254): the guard `i > 0` of line 235 is there in the second branch
only. -/
def brdX (c0 k1 i : Nat) (guard : Bool) (A X Y : MatV L) (w : VecV L) (taup : VecV L) : M L T Unit := do
  let m := A.m
  let n := A.n
  let x11 ← X.sliceCol (i + 1) m i
  let A4 ← A.slice (i + 1) m c0 n
  gemv .NoTrans 1 A4 w (.val 0) x11
  (if guard then brdXrest c0 k1 i A X Y w x11 else pure ())
  let ti ← taup.get i
  scal ti x11
  conjugate w

/-- The start of a step, `m >= n`: column `i` is brought up to date (lapack/labrd.hpp:78-92). -/
def labrdHeadU (A X Y : MatV L) (i : Nat) : M L T Unit :=
  if 0 < i then do
    let m := A.m
    brdColY i i i A Y
    let a21 ← A.sliceCol i m i
    let X2 ← X.slice i m 0 i
    let a22 ← A.sliceCol 0 i i
    let e ← A.get (i - 1) i
    A.set (i - 1) i 1
    gemv .NoTrans (-1) X2 a22 (.val 1) a21
    A.set (i - 1) i (ReIm.re e)
  else pure ()

/-- Row `i` is conjugated and brought up to date, `m >= n` (lapack/labrd.hpp:131-150). -/
def labrdRowU (A X Y : MatV L) (i : Nat) : M L T Unit := do
  let n := A.n
  let a11 ← A.sliceRow i (i + 1) n
  let s ← A.sliceRow i 0 (i + 1)
  conjugate a11
  let Y3 ← Y.slice (i + 1) n 0 (i + 1)
  gemvConj .NoTrans Y3 s a11
  brdRowX (i + 1) i A X

/-- One step, `m >= n` (lapack/labrd.hpp:76-191). -/
def labrdStepU (o : HhOps T R) (A : MatV L) (tauq taup : VecV L) (X Y : MatV L) (i : Nat) : M L T Unit := do
  let m := A.m
  let n := A.n
  labrdHeadU A X Y i
  let v ← A.sliceCol i m i
  let t ← larfgV o .Forward .Columnwise v
  tauq.set i t
  if i < n - 1 then do
    let d ← A.get i i
    A.set i i 1
    brdY i i i A X Y v tauq
    labrdRowU A X Y i
    let w ← A.sliceRow i (i + 1) n
    let t ← larfgV o .Forward .Columnwise w
    taup.set i t
    let e ← A.get i (i + 1)
    A.set i (i + 1) 1
    brdX (i + 1) (i + 1) i true A X Y w taup
    A.set i i (ReIm.re d)
    A.set i (i + 1) (ReIm.re e)
  else pure ()

/-- The start of a step, `m < n`: row `i`, conjugated already, is brought up to date (lapack/labrd.hpp:202-217). -/
def labrdHeadL (A X Y : MatV L) (w : VecV L) (i : Nat) : M L T Unit :=
  if 0 < i then do
    let n := A.n
    let Y2 ← Y.slice i n 0 i
    let s ← A.sliceRow i 0 i
    conjugate s
    let e ← A.get i (i - 1)
    A.set i (i - 1) 1
    gemv .NoTrans (-1) Y2 s (.val 1) w
    A.set i (i - 1) (ReIm.re e)
    conjugate s
    brdRowX i i A X
  else pure ()

/-- Column `i` is brought up to date, `m < n` (lapack/labrd.hpp:257-268). -/
def labrdColL (A X Y : MatV L) (i : Nat) : M L T Unit := do
  let m := A.m
  brdColY (i + 1) i i A Y
  let a21 ← A.sliceCol (i + 1) m i
  let X2 ← X.slice (i + 1) m 0 (i + 1)
  let a22 ← A.sliceCol 0 (i + 1) i
  gemv .NoTrans (-1) X2 a22 (.val 1) a21

/-- One step, `m < n` (lapack/labrd.hpp:197-311). -/
def labrdStepL (o : HhOps T R) (A : MatV L) (tauq taup : VecV L) (X Y : MatV L) (i : Nat) : M L T Unit := do
  let m := A.m
  let n := A.n
  let w ← A.sliceRow i i n
  conjugate w
  labrdHeadL A X Y w i
  let t ← larfgV o .Forward .Columnwise w
  taup.set i t
  if i + 1 < m then do
    let d ← A.get i i
    A.set i i 1
    brdX i i i (decide (0 < i)) A X Y w taup
    labrdColL A X Y i
    let v ← A.sliceCol (i + 1) m i
    let t ← larfgV o .Forward .Columnwise v
    tauq.set i t
    let e ← A.get (i + 1) i
    A.set (i + 1) i 1
    brdY (i + 1) (i + 1) i A X Y v tauq
    A.set i i (ReIm.re d)
    A.set (i + 1) i (ReIm.re e)
  else conjugate w

/-- labrd (lapack/labrd.hpp:55-315). -/
def labrd (o : HhOps T R) (A : MatV L) (tauq taup : VecV L) (X Y : MatV L) : M L T Nat :=
  if A.m = 0 ∨ A.n = 0 then pure 0
  else if A.n ≤ A.m then do
    forUp_ 0 X.n fun i => labrdStepU o A tauq taup X Y i
    pure 0
  else do
    forUp_ 0 X.n fun i => labrdStepL o A tauq taup X Y i
    pure 0

/-- `gebrd_worksize` (lapack/gebrd.hpp:47-63). -/
def gebrdWorksize (nb0 : Nat) (A : MatV L) : WorkInfo := .ofMat (A.m + A.n) (min nb0 (min A.m A.n))

/-- The trailing update of a block, with the off-diagonal entry at `(r, c)` replaced by a one for the two products
(lapack/gebrd.hpp:117-141). -/
def gebrdTrail (i ib r c : Nat) (A X Y : MatV L) : M L T Unit := do
  let m := A.m
  let n := A.n
  let A3 ← A.slice (i + ib) m (i + ib) n
  let e ← A.get r c
  A.set r c 1
  let V ← A.slice (i + ib) m i (i + ib)
  let Y3 ← Y.slice (i + ib) n 0 ib
  gemm .NoTrans .ConjTrans (-1) V Y3 (.val 1) A3
  let U ← A.slice i (i + ib) (i + ib) n
  let X3 ← X.slice (i + ib) m 0 ib
  gemm .NoTrans .NoTrans (-1) X3 U (.val 1) A3
  A.set r c (ReIm.re e)

/-- One block of gebrd_work (lapack/gebrd.hpp:101-142); with `i = ib = 0` the index `i + ib - 1` of lines 119 and 133 wraps
around and the access is out of range. -/
def gebrdStep (o : HhOps T R) (nb : Nat) (A : MatV L) (tauv tauw : VecV L) (X Y : MatV L) (i : Nat) : M L T Unit := do
  let m := A.m
  let n := A.n
  let ib := min nb (min m n - i)
  let A2 ← A.slice i m i n
  let tauq ← tauv.slice i (i + ib)
  let taup ← tauw.slice i (i + ib)
  let X2 ← X.slice i m 0 ib
  let Y2 ← Y.slice i n 0 ib
  let _ ← labrd o A2 tauq taup X2 Y2
  if i + ib < m ∧ i + ib < n then
    if i + ib = 0 then M.fail .ub
    else if n ≤ m then gebrdTrail i ib (i + ib - 1) (i + ib) A X Y
    else gebrdTrail i ib (i + ib) (i + ib - 1) A X Y
  else pure ()

/-- gebrd_work (lapack/gebrd.hpp:76-145). -/
def gebrd (o : HhOps T R) (nb0 : Nat) (A : MatV L) (tauv tauw work : VecV L) : M L T Nat := do
  let m := A.m
  let n := A.n
  let k := min m n
  let nb := min nb0 k
  let (X, work2) ← reshapeWM work m nb
  let (Y, _) ← reshapeWM work2 n nb
  laset .General 0 0 X
  laset .General 0 0 Y
  let _ : Option Unit ← forStep nb k (fun i => do gebrdStep o nb A tauv tauw X Y i; pure none) 0
  pure 0

end TLA
