import Verif.Model.BlockRefl

/-!
# Model of the two-sided reductions

gehd2 (Hessenberg), gebd2 (bidiagonal), hetd2 (Hermitian tridiagonal) and the routines that form or
apply their unitary factors: unghr, unmhr, ungtr.

Workspaces are vectors, as in Model/House.lean; ungtr allocates the workspace of ungqr/ungql itself,
here it is an argument.
-/

namespace TLA
variable {L T : Type} [DecidableEq L]

section reduce
variable [Zero T] [One T] [Add T] [Mul T] [Sub T] [Neg T] [Div T] [Star T] [ReIm T] [DecidableEq T]
variable {R : Type} [Field R] [LinearOrder R]

/-! ### Hessenberg -/

/-- `gehd2_worksize` (lapack/gehd2.hpp:38-63). -/
def gehd2Worksize (ilo ihi : Nat) (A : MatV L) : WorkInfo :=
  if ilo + 1 < ihi ∧ 0 < A.n then
    (WorkInfo.ofSize (larfWorksize .Right ihi (ihi - (ilo + 1)))).minMax
      (.ofSize (larfWorksize .Left (ihi - (ilo + 1)) (A.n - (ilo + 1))))
  else .ofSize 0

/-- The body of the loop of gehd2_work (lapack/gehd2.hpp:97-109). -/
def gehd2Step (o : HhOps T R) (A : MatV L) (tau work : VecV L) (ihi i : Nat) : M L T Unit := do
  let v ← A.sliceCol (i + 1) ihi i
  let t ← larfgV o .Forward .Columnwise v
  tau.set i t
  let C0 ← A.slice 0 ihi (i + 1) ihi
  let t ← tau.get i
  larf .Right .Forward .Columnwise v t C0 work
  let C1 ← A.slice (i + 1) ihi (i + 1) A.n
  let t ← tau.get i
  larf .Left .Forward .Columnwise v (star t) C1 work

/-- gehd2_work (lapack/gehd2.hpp:76-113).  `idx_t` is unsigned: for `n = 0` the `n - 1` of the check on
line 90 wraps around to the largest index, so that the check fails; for `ihi = 0` the `ihi - 1` of
line 95 does, so that the loop runs and its first slice is out of range. -/
def gehd2 (o : HhOps T R) (ilo ihi : Nat) (A : MatV L) (tau work : VecV L) : M L T Nat := do
  check (decide (A.n = A.m))
  check (decide (0 < A.n) && !(tau.n < A.n - 1 : Bool))
  if ihi = 0 then M.fail .ub
  else do
    forUp_ ilo (ihi - 1) fun i => gehd2Step o A tau work ihi i
    pure 0

/-- `unghr_worksize` (lapack/unghr.hpp:39-56). -/
def unghrWorksize (ilo ihi : Nat) (A : MatV L) : WorkInfo :=
  if ilo + 1 < ihi then
    ungqBlkWorksize .Forward .Columnwise (A.sub (ilo + 1) ihi (ilo + 1) ihi) (ihi - 1 - ilo) 32
  else .ofSize 0

/-- Shifting column `j - 1` into column `j` (lapack/unghr.hpp:97-105). -/
def unghrShift (A : MatV L) (ihi j : Nat) : M L T Unit := do
  forUp_ 0 j fun i => A.set i j 0
  forUp_ (j + 1) ihi fun i => do
    let a ← A.get i (j - 1)
    A.set i j a
  forUp_ ihi A.n fun i => A.set i j 0

/-- Column `j` becomes that of the identity (lapack/unghr.hpp:108-111, 114-117). -/
def unghrUnit (A : MatV L) (j : Nat) : M L T Unit := do
  forUp_ 0 A.n fun i => A.set i j 0
  A.set j j 1

/-- The final call of unghr_work (lapack/unghr.hpp:122-129). -/
def unghrGen (isReal : Bool) (ilo ihi : Nat) (A : MatV L) (tau work : VecV L) : M L T Nat :=
  if ihi > ilo + 1 then do
    let As ← A.slice (ilo + 1) ihi (ilo + 1) ihi
    let taus ← tau.slice ilo (ihi - 1)
    ungqBlk isReal 32 .Forward .Columnwise As taus work
  else pure 0

/-- unghr_work (lapack/unghr.hpp:69-130).  For `ihi = 0` the unsigned `ihi - 1` of line 96 wraps and the
first access of the loop is out of range. -/
def unghr (isReal : Bool) (ilo ihi : Nat) (A : MatV L) (tau work : VecV L) : M L T Nat := do
  check (!(tau.n + 1 < min A.m A.n : Bool))
  if ihi = 0 then M.fail .ub
  else do
    forDown_ (ilo + 1) ihi fun j => unghrShift A ihi j
    forUp_ 0 (ilo + 1) fun j => unghrUnit A j
    forUp_ ihi A.n fun j => unghrUnit A j
    unghrGen isReal ilo ihi A tau work

/-- `unmhr_worksize` (lapack/unmhr.hpp:51-70). -/
def unmhrWorksize (side : Side) (ilo ihi : Nat) (C : MatV L) : Nat :=
  unmqWorksize side (if side = .Left then C.sub (ilo + 1) ihi 0 C.n else C.sub 0 C.m (ilo + 1) ihi)

/-- unmhr_work (lapack/unmhr.hpp:83-103). -/
def unmhr (isReal : Bool) (side : Side) (trans : Op) (ilo ihi : Nat) (A : MatV L) (tau : VecV L)
    (C : MatV L) (work : VecV L) : M L T Nat := do
  let As ← A.slice (ilo + 1) ihi ilo (ihi - 1)
  let taus ← tau.slice ilo (ihi - 1)
  let Cs ← unmqPart side C (ilo + 1) ihi
  unmq isReal side trans .Forward .Columnwise As taus Cs work

/-! ### Bidiagonal -/

/-- `gebd2_worksize` (lapack/gebd2.hpp:36-63). -/
def gebd2Worksize (A : MatV L) : WorkInfo :=
  if A.n > 1 then
    let w := WorkInfo.ofSize (larfWorksize .Left A.m (A.n - 1))
    if A.m > 1 then w.minMax (.ofSize (larfWorksize .Right (A.m - 1) (A.n - 1))) else w
  else .ofSize 0

/-- The second half of a step, `m >= n` (lapack/gebd2.hpp:109-117). -/
def gebd2Row (o : HhOps T R) (A : MatV L) (tauw work : VecV L) (j : Nat) : M L T Unit := do
  let w ← A.sliceRow j (j + 1) A.n
  let t ← larfgV o .Forward .Rowwise w
  tauw.set j t
  if j < A.m - 1 then do
    let B11 ← A.slice (j + 1) A.m (j + 1) A.n
    let t ← tauw.get j
    larf .Right .Forward .Rowwise w t B11 work
  else pure ()

/-- One step, `m >= n` (lapack/gebd2.hpp:99-121). -/
def gebd2StepU (o : HhOps T R) (A : MatV L) (tauv tauw work : VecV L) (j : Nat) : M L T Unit := do
  let v ← A.sliceCol j A.m j
  let t ← larfgV o .Forward .Columnwise v
  tauv.set j t
  if j < A.n - 1 then do
    let A11 ← A.slice j A.m (j + 1) A.n
    let t ← tauv.get j
    larf .Left .Forward .Columnwise v (star t) A11 work
    gebd2Row o A tauw work j
  else tauw.set j 0

/-- The second half of a step, `m < n` (lapack/gebd2.hpp:140-148). -/
def gebd2Col (o : HhOps T R) (A : MatV L) (tauv work : VecV L) (j : Nat) : M L T Unit := do
  let v ← A.sliceCol (j + 1) A.m j
  let t ← larfgV o .Forward .Columnwise v
  tauv.set j t
  if j < A.n - 1 then do
    let B11 ← A.slice (j + 1) A.m (j + 1) A.n
    let t ← tauv.get j
    larf .Left .Forward .Columnwise v (star t) B11 work
  else pure ()

/-- One step, `m < n` (lapack/gebd2.hpp:130-152). -/
def gebd2StepL (o : HhOps T R) (A : MatV L) (tauv tauw work : VecV L) (j : Nat) : M L T Unit := do
  let w ← A.sliceRow j j A.n
  let t ← larfgV o .Forward .Rowwise w
  tauw.set j t
  if j < A.m - 1 then do
    let A11 ← A.slice (j + 1) A.m j A.n
    let t ← tauw.get j
    larf .Right .Forward .Rowwise w t A11 work
    gebd2Col o A tauv work j
  else tauv.set j 0

/-- gebd2_work (lapack/gebd2.hpp:76-157). -/
def gebd2 (o : HhOps T R) (A : MatV L) (tauv tauw work : VecV L) : M L T Nat := do
  check (!(tauv.n < min A.m A.n : Bool))
  check (!(tauw.n < min A.m A.n : Bool))
  if A.n = 0 then pure 0
  else if A.n ≤ A.m then do
    forUp_ 0 A.n fun j => gebd2StepU o A tauv tauw work j
    pure 0
  else do
    forUp_ 0 A.m fun j => gebd2StepL o A tauv tauw work j
    pure 0

/-! ### Hermitian tridiagonal -/

/-- The update `C -= v w^H + w v^H` of hetd2, with the pivot entry of `v` set to one meanwhile
(lapack/hetd2.hpp:87-105, 134-152): `(pr, pc)` is the pivot's place in `A`; `half` is 0.5. -/
def hetd2Upd (half : T) (uplo : Uplo) (A : MatV L) (v : VecV L) (C : MatV L) (w : VecV L) (pr pc : Nat)
    (taui : T) : M L T Unit := do
  let beta ← A.get pr pc
  A.set pr pc 1
  hemv uplo taui C v .strongZero w
  let d ← dot w v
  axpy (-half * taui * d) v w
  her2 uplo (-1) v w C
  A.set pr pc beta

/-- One step, upper (lapack/hetd2.hpp:78-112). -/
def hetd2StepU (o : HhOps T R) (half : T) (A : MatV L) (tau : VecV L) (i : Nat) : M L T Unit := do
  let v ← A.sliceCol 0 (i + 1) (i + 1)
  let taui ← larfgV o .Backward .Columnwise v
  (if taui ≠ 0 then do
    let C ← A.slice 0 (i + 1) 0 (i + 1)
    let w ← tau.slice 0 (i + 1)
    hetd2Upd half .Upper A v C w i (i + 1) taui
  else A.modify i i re : M L T Unit)
  tau.set i taui

/-- One step, lower (lapack/hetd2.hpp:125-159). -/
def hetd2StepL (o : HhOps T R) (half : T) (A : MatV L) (tau : VecV L) (i : Nat) : M L T Unit := do
  let n := A.n
  let v ← A.sliceCol (i + 1) n i
  let taui ← larfgV o .Forward .Columnwise v
  (if taui ≠ 0 then do
    let C ← A.slice (i + 1) n (i + 1) n
    let w ← tau.slice i (n - 1)
    hetd2Upd half .Lower A v C w (i + 1) i taui
  else A.modify (i + 1) (i + 1) re : M L T Unit)
  tau.set i taui

/-- hetd2 (lapack/hetd2.hpp:47-164); for `n = 0` the unsigned `n - 1` of the check on line 63 wraps and the
check fails (`hetd2Check` of Model/Wrap.lean). -/
def hetd2 (o : HhOps T R) (half : T) (uplo : Uplo) (A : MatV L) (tau : VecV L) : M L T Nat := do
  let n := A.n
  check (!(uplo ≠ .Lower ∧ uplo ≠ .Upper : Bool))
  check (decide (A.m = n))
  check (decide (0 < n) && decide (n - 1 ≤ tau.n))
  if uplo = .Upper then do
    A.modify (n - 1) (n - 1) re
    forDown_ 0 (n - 1) fun i => hetd2StepU o half A tau i
    pure 0
  else do
    A.modify 0 0 re
    forUp_ 0 (n - 1) fun i => hetd2StepL o half A tau i
    pure 0

/-- Lower case of ungtr (lapack/ungtr.hpp:59-75). -/
def ungtrL (isReal : Bool) (Q : MatV L) (tau work : VecV L) : M L T Nat := do
  let n := Q.n
  forDown_ 2 n fun j2 =>
    forUp_ j2 n fun i => do
      let q ← Q.get i (j2 - 1 - 1)
      Q.set i (j2 - 1) q
  forUp_ 1 n fun i => do
    Q.set i 0 0
    Q.set 0 i 0
  Q.set 0 0 1
  let Qr ← Q.slice 1 n 1 n
  ungqBlk isReal 32 .Forward .Columnwise Qr tau work

/-- Upper case of ungtr (lapack/ungtr.hpp:79-93). -/
def ungtrU (isReal : Bool) (Q : MatV L) (tau work : VecV L) : M L T Nat := do
  let n := Q.n
  forUp_ 1 (n - 1) fun j =>
    forUp_ 0 j fun i => do
      let q ← Q.get i (j + 1)
      Q.set i j q
  forUp_ 0 (n - 1) fun i => do
    Q.set i (n - 1) 0
    Q.set (n - 1) i 0
  Q.set (n - 1) (n - 1) 1
  let Qr ← Q.slice 0 (n - 1) 0 (n - 1)
  ungqBlk isReal 32 .Backward .Columnwise Qr tau work

/-- ungtr (lapack/ungtr.hpp:42-95). -/
def ungtr (isReal : Bool) (uplo : Uplo) (Q : MatV L) (tau work : VecV L) : M L T Nat :=
  if Q.n = 0 then pure 0
  else if uplo = .Lower then ungtrL isReal Q tau work
  else ungtrU isReal Q tau work

end reduce
end TLA
