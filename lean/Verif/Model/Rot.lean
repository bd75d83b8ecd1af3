import Verif.Model.Blas1
import Verif.Model.Layout

/-!
# Model of the routines built on plane rotations

rot_sequence, gghrd, hessenberg_rq.
-/

namespace TLA
variable {L T : Type} [DecidableEq L]

/-! ### rot_sequence -/

/-- Lines that are rotated become columns: `A` itself for `side == Left`, its transpose for `side == Right`
(the branches of rot_sequence.hpp for the two sides differ in `A(i,j)` / `A(j,i)` and `s` / `conj(s)`). -/
def rsView (side : Side) (A : MatV L) : MatV L :=
  if side = .Left then A else ⟨A.n, A.m, fun i j => A.cell j i⟩

section
variable [Zero T] [One T] [Add T] [Mul T] [Sub T] [Neg T] [Star T] [DecidableEq T]

/-- Rotation `i` on line `j` (rot_sequence.hpp:105-108, 144-146, 155-158, 192-194, 233-236, 244-246, 280-283,
290-292; also hessenberg_rq.hpp:64-66, 72-75); `f` is `id` or `conj`. -/
def rsPair (f : T → T) (X : MatV L) (c s : VecV L) (i j : Nat) : M L T Unit := do
  let ci ← c.get i
  let si0 ← s.get i
  let si := f si0
  let a ← X.get i j
  let b ← X.get (i + 1) j
  let temp := ci * a + si * b
  X.set (i + 1) j (-star si * a + ci * b)
  X.set i j temp

/-- Three rotations `i`, `i-1`, `i-2` on line `j` (rot_sequence.hpp:120-136, 210-225). -/
def rsTripleF (f : T → T) (X : MatV L) (c s : VecV L) (i j : Nat) : M L T Unit := do
  let c0 ← c.get i
  let s0 ← s.get i
  let c1 ← c.get (i - 1)
  let s1 ← s.get (i - 1)
  let c2 ← c.get (i - 2)
  let s2 ← s.get (i - 2)
  let temp ← X.get (i + 1) j
  let temp0 ← X.get i j
  let temp1 ← X.get (i - 1) j
  X.set (i + 1) j (-star (f s0) * temp0 + c0 * temp)
  let temp0 := c0 * temp0 + f s0 * temp
  X.set i j (-star (f s1) * temp1 + c1 * temp0)
  let temp1 := c1 * temp1 + f s1 * temp0
  let a ← X.get (i - 2) j
  X.set (i - 1) j (-star (f s2) * a + c2 * temp1)
  let a' ← X.get (i - 2) j
  X.set (i - 2) j (c2 * a' + f s2 * temp1)

/-- Three rotations `i`, `i+1`, `i+2` on line `j` (rot_sequence.hpp:169-185, 258-273). -/
def rsTripleB (f : T → T) (X : MatV L) (c s : VecV L) (i j : Nat) : M L T Unit := do
  let c0 ← c.get i
  let s0 ← s.get i
  let c1 ← c.get (i + 1)
  let s1 ← s.get (i + 1)
  let c2 ← c.get (i + 2)
  let s2 ← s.get (i + 2)
  let temp ← X.get i j
  let temp0 ← X.get (i + 1) j
  let temp1 ← X.get (i + 2) j
  X.set i j (c0 * temp + f s0 * temp0)
  let temp0 := -star (f s0) * temp + c0 * temp0
  X.set (i + 1) j (c1 * temp0 + f s1 * temp1)
  let temp1 := -star (f s1) * temp0 + c1 * temp1
  let b ← X.get (i + 3) j
  X.set (i + 2) j (c2 * temp1 + f s2 * b)
  let b' ← X.get (i + 3) j
  X.set (i + 3) j (-star (f s2) * temp1 + c2 * b')

/-- Line by line (rot_sequence.hpp:102-110, 153-161, 241-248, 288-294). -/
def rsLines (f : T → T) (dir : Direction) (X : MatV L) (c s : VecV L) (k : Nat) : M L T Unit :=
  forUp_ 0 X.n fun j =>
    if dir = .Forward then forDown_ 0 k fun i => rsPair f X c s i j
    else forUp_ 0 k fun i => rsPair f X c s i j

/-- Rotation by rotation, three at a time (rot_sequence.hpp:115-148, 166-196, 205-238, 255-285).  The loops
`for (i2 = k; i2 > k % 3; i2 -= 3)` and `for (i = 0; i + 1 < k - k % 3; i += 3)` run `k / 3` times; they are
indexed by the number of the pass. -/
def rsBlocks (f : T → T) (dir : Direction) (X : MatV L) (c s : VecV L) (k : Nat) : M L T Unit :=
  if dir = .Forward then do
    forUp_ 0 (k / 3) fun t => forUp_ 0 X.n fun j => rsTripleF f X c s (k - 3 * t - 1) j
    forDown_ 0 (k % 3) fun i => forUp_ 0 X.n fun j => rsPair f X c s i j
  else do
    forUp_ 0 (k / 3) fun t => forUp_ 0 X.n fun j => rsTripleB f X c s (3 * t) j
    forUp_ (k - k % 3) k fun i => forUp_ 0 X.n fun j => rsPair f X c s i j

/-- lapack/rot_sequence.hpp:81-300; `colMajor` is `layout<A_t> == Layout::ColMajor`.  For an empty dimension
`k = m - 1` wraps around and the check of the length of `c` fails. -/
def rotSequence (colMajor : Bool) (side : Side) (dir : Direction) (c s : VecV L) (A : MatV L) : M L T Nat := do
  let q := if side = .Left then A.m else A.n
  let k := q - 1
  check (decide (q ≠ 0) && decide (c.n = k))
  check (decide (q ≠ 0) && decide (s.n = k))
  if k < 1 then pure 0
  else do
    let f : T → T := if side = .Left then id else star
    (if colMajor = decide (side = .Left) then rsLines f dir (rsView side A) c s k
     else rsBlocks f dir (rsView side A) c s k : M L T Unit)
    pure 0

/-! ### gghrd and hessenberg_rq -/

/-- blas/rotg.hpp for the scalar type at hand: the final values of `a`, `b`, `c`, `s`; `none` is a division by zero
or the square root of a negative number (see Model/Kernel.lean). -/
structure RotOps (T : Type) where
  gen : T → T → Option (T × T × T × T)

/-- `rotg(A(i,j), A(k,l), c, s)`. -/
def rotgAt (o : RotOps T) (A : MatV L) (i j k l : Nat) : M L T (T × T) := do
  let a ← A.get i j
  let b ← A.get k l
  match o.gen a b with
  | none => M.fail .ub
  | some (r, z, c, s) => do
    A.set i j r
    A.set k l z
    pure (c, s)

/-- gghrd.hpp:83-101: rotation of rows `i-1`, `i`. -/
def gghrdLeft (o : RotOps T) (wantq : Bool) (A B Q : MatV L) (n j i : Nat) : M L T Unit := do
  let (c, s) ← rotgAt o A (i - 1) j i j
  A.set i j 0
  let a1 ← A.sliceRow (i - 1) (j + 1) n
  let a2 ← A.sliceRow i (j + 1) n
  rot a1 a2 c s
  let b1 ← B.sliceRow (i - 1) (i - 1) n
  let b2 ← B.sliceRow i (i - 1) n
  rot b1 b2 c s
  if wantq then do
    let q1 ← Q.sliceCol 0 n (i - 1)
    let q2 ← Q.sliceCol 0 n i
    rot q1 q2 c (star s)
  else pure ()

/-- gghrd.hpp:105-121: rotation of columns `i`, `i-1`. -/
def gghrdRight (o : RotOps T) (wantz : Bool) (ihi : Nat) (A B Z : MatV L) (n i : Nat) : M L T Unit := do
  let (c, s) ← rotgAt o B i i i (i - 1)
  B.set i (i - 1) 0
  let a1 ← A.sliceCol 0 ihi i
  let a2 ← A.sliceCol 0 ihi (i - 1)
  rot a1 a2 c s
  let b1 ← B.sliceCol 0 i i
  let b2 ← B.sliceCol 0 i (i - 1)
  rot b1 b2 c s
  if wantz then do
    let z1 ← Z.sliceCol 0 n i
    let z2 ← Z.sliceCol 0 n (i - 1)
    rot z1 z2 c s
  else pure ()

/-- lapack/gghrd.hpp:42-126. -/
def gghrd (o : RotOps T) (wantq wantz : Bool) (ilo ihi : Nat) (A B Q Z : MatV L) : M L T Nat := do
  let n := A.n
  check (decide (ilo < n))
  check (decide (ilo < ihi) && decide (ihi ≤ n))
  check (decide (n = A.m))
  check (decide (n = B.n))
  check (decide (n = B.m))
  check (decide (n = Q.n))
  check (decide (n = Q.m))
  check (decide (n = Z.n))
  check (decide (n = Z.m))
  if n ≤ 1 then pure 0
  else do
    forUp_ 0 n fun j => forUp_ (j + 1) n fun i => B.set i j 0
    forUp_ ilo (ihi - 2) fun j =>
      forDown_ (j + 2) ihi fun i => do
        gghrdLeft o wantq A B Q n j i
        gghrdRight o wantz ihi A B Z n i
    pure 0

/-- hessenberg_rq.hpp:79-86. -/
def hessRqStep (o : RotOps T) (A : MatV L) (cr sr : VecV L) (i : Nat) : M L T Unit := do
  let (c, s) ← rotgAt o A i i i (i - 1)
  cr.set (i - 1) c
  sr.set (i - 1) s
  let s0 ← sr.get (i - 1)
  sr.set (i - 1) (-s0)
  A.set i (i - 1) 0
  let t1 ← A.sliceCol 0 i (i - 1)
  let t2 ← A.sliceCol 0 i i
  let c' ← cr.get (i - 1)
  let s' ← sr.get (i - 1)
  rot t1 t2 c' (star s')

/-- lapack/hessenberg_rq.hpp:49-88.  For `n = 0` the unsigned `n - 1`, `n - 2` wrap around and `cl[n-2]` is
accessed: `ub`. -/
def hessenbergRq (o : RotOps T) (A : MatV L) (cl sl cr sr : VecV L) : M L T Unit :=
  let n := A.n
  if n = 0 then M.fail .ub
  else if n - 1 < 1 then pure ()
  else do
    forDown_ 0 (n - 1) fun j => rsPair id A cl sl j (n - 1)
    forDown_ 1 n fun i => do
      forDown_ 0 i fun j => rsPair id A cl sl j (i - 1)
      hessRqStep o A cr sr i

end
end TLA
