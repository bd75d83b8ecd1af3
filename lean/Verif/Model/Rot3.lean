import Verif.Model.Rot

/-!
# Model of rot_sequence3

lapack/rot_sequence3.hpp: `l` sequences of `k` rotations applied in wavefront order.  The eight branches (storage order
of `A`, side, direction) are one text up to: `A(i1, g)` for `A(g, i1)` and `conj(S)` for `S` when `side == Right`
(`rsView`, `f`, as for rot_sequence); `g = m - 2 - g2` when `direction == Forward`; and the loop over the lines `i1`
outside or inside the loops over the waves.
-/

namespace TLA
variable {L T : Type} [DecidableEq L]

/-- `for (; j < n; j += d)` with `d > 0` fixed by the caller (2 or 256 below); `d = 0` would never advance. -/
def forBy_ (d n : Nat) (body : Nat → M L T Unit) (j : Nat) : M L T Unit :=
  if h : j < n then do
    body j
    if hb : d = 0 then M.fail .diverge else forBy_ d n body (j + d)
  else pure ()
termination_by n - j
decreasing_by omega

section
variable [Zero T] [One T] [Add T] [Mul T] [Sub T] [Neg T] [Star T] [DecidableEq T]

/-- Rotation `C(g,i)`, `S(g,i)` of rows `g`, `g+1` on line `i1` (rot_sequence3.hpp:140-144 and the same five
statements at 200-204, 220-224, 239-243, 299-303, 319-322, 340-344, ...). -/
def r3Pair (f : T → T) (X C S : MatV L) (g i i1 : Nat) : M L T Unit := do
  let c ← C.get g i
  let s ← S.get g i
  let a ← X.get g i1
  let b ← X.get (g + 1) i1
  let temp := c * a + f s * b
  X.set (g + 1) i1 (-star (f s) * a + c * b)
  X.set g i1 temp

/-- The fused 2-by-2 block of rotations, `Forward` (rot_sequence3.hpp:159-189, 358-390, 558-588, 761-793). -/
def r3KernF (f : T → T) (X C S : MatV L) (g i i1 : Nat) : M L T Unit := do
  let c1 ← C.get g i
  let s1 ← S.get g i
  let c2 ← C.get (g - 1) i
  let s2 ← S.get (g - 1) i
  let c3 ← C.get (g + 1) (i + 1)
  let s3 ← S.get (g + 1) (i + 1)
  let c4 ← C.get g (i + 1)
  let s4 ← S.get g (i + 1)
  let a ← X.get g i1
  let b ← X.get (g + 1) i1
  let temp1 := c1 * a + f s1 * b
  let temp2 := -star (f s1) * a + c1 * b
  let p ← X.get (g - 1) i1
  let temp3 := -star (f s2) * p + c2 * temp1
  X.set (g - 1) i1 (c2 * p + f s2 * temp1)
  let q ← X.get (g + 2) i1
  let temp4 := c3 * temp2 + f s3 * q
  X.set (g + 2) i1 (-star (f s3) * temp2 + c3 * q)
  X.set g i1 (c4 * temp3 + f s4 * temp4)
  X.set (g + 1) i1 (-star (f s4) * temp3 + c4 * temp4)

/-- The fused 2-by-2 block of rotations, `Backward` (rot_sequence3.hpp:257-288, 457-487, 657-688, 860-890). -/
def r3KernB (f : T → T) (X C S : MatV L) (g i i1 : Nat) : M L T Unit := do
  let c1 ← C.get g i
  let s1 ← S.get g i
  let c2 ← C.get (g + 1) i
  let s2 ← S.get (g + 1) i
  let c3 ← C.get (g - 1) (i + 1)
  let s3 ← S.get (g - 1) (i + 1)
  let c4 ← C.get g (i + 1)
  let s4 ← S.get g (i + 1)
  let a ← X.get g i1
  let b ← X.get (g + 1) i1
  let temp1 := c1 * a + f s1 * b
  let temp2 := -star (f s1) * a + c1 * b
  let q ← X.get (g + 2) i1
  let temp3 := c2 * temp2 + f s2 * q
  X.set (g + 2) i1 (-star (f s2) * temp2 + c2 * q)
  let p ← X.get (g - 1) i1
  let temp4 := -star (f s3) * p + c3 * temp1
  X.set (g - 1) i1 (c3 * p + f s3 * temp1)
  X.set g i1 (c4 * temp4 + f s4 * temp3)
  X.set (g + 1) i1 (-star (f s4) * temp4 + c4 * temp3)

/-- The row index `g` of a rotation: `g = m - 2 - g2` for `Forward` (e.g. rot_sequence3.hpp:139), `g = g2` for
`Backward`. -/
def r3g (dir : Direction) (m t : Nat) : Nat := if dir = .Forward then m - 2 - t else t

/-- The fused block at wave position `t`. -/
def r3Kern (f : T → T) (dir : Direction) (X C S : MatV L) (i t i1 : Nat) : M L T Unit :=
  if dir = .Forward then r3KernF f X C S (r3g dir X.m t) i i1 else r3KernB f X C S (r3g dir X.m t) i i1

/-- A single rotation at wave position `t`. -/
def r3One (f : T → T) (dir : Direction) (X C S : MatV L) (i t i1 : Nat) : M L T Unit :=
  r3Pair f X C S (r3g dir X.m t) i i1

/-- The two rotations left over in each pair of waves when `l` is odd (rot_sequence3.hpp:192-211, 291-310, 393-413,
490-510, 592-614, 692-714, 795-815, 892-911): `g` and then `g - 1` (`Forward`) or `g + 1` (`Backward`). -/
def r3Tail (f : T → T) (dir : Direction) (X C S : MatV L) (i t i1 : Nat) : M L T Unit := do
  r3Pair f X C S (r3g dir X.m t) i i1
  r3Pair f X C S (if dir = .Forward then r3g dir X.m t - 1 else r3g dir X.m t + 1) i i1

/-- Start-up waves (rot_sequence3.hpp:137-138, 237-238, 336-337, 437-438, 536-537, 637-638, 739-740, 840-841). -/
def r3Start (l : Nat) (op : Nat → Nat → M L T Unit) : M L T Unit :=
  forUp_ 0 (l - 1) fun j => forUp_ 0 (j + 1) fun i => op i (j - i)

/-- Pairs of full waves (rot_sequence3.hpp:150-152, 192-197, 249-251, 349-350, ...). -/
def r3Pipe (m l : Nat) (kern tail : Nat → Nat → M L T Unit) : M L T Unit :=
  forBy_ 2 (m - 2) (fun j => do
    forBy_ 2 (l - 1) (fun i => kern i (j - i)) 0
    if l % 2 = 1 then tail (l - 1) (j - (l - 1)) else pure ()) (l - 1)

/-- Shut-down waves (rot_sequence3.hpp:217-218, 316-317, 417-418, 513-514, 617-618, 717-718, 820-821, 916-917). -/
def r3End (m l : Nat) (op : Nat → Nat → M L T Unit) : M L T Unit :=
  forUp_ ((m - l + 1) % 2) l fun j => forUp_ j l fun i => op i (m - 2 - (i - j))

/-- The body of the loop over blocks of 256 lines (rot_sequence3.hpp:133-228, 233-326, 333-429, 434-524, 533-629,
634-728, 735-831, 836-926). The start-up phase runs over all lines, not over those of the block, when
`side == Left` and `direction == Forward` (lines 136 and 539). -/
def r3Block (lines startAll : Bool) (f : T → T) (dir : Direction) (X C S : MatV L) (l ib : Nat) : M L T Unit := do
  let ib2 := min (ib + 256) X.n
  let lo := if startAll then 0 else ib
  let hi := if startAll then X.n else ib2
  if lines then do
    forUp_ lo hi fun i1 => r3Start l fun i t => r3One f dir X C S i t i1
    forUp_ ib ib2 fun i1 => r3Pipe X.m l (fun i t => r3Kern f dir X C S i t i1) (fun i t => r3Tail f dir X C S i t i1)
    forUp_ ib ib2 fun i1 => r3End X.m l fun i t => r3One f dir X C S i t i1
  else do
    r3Start l fun i t => forUp_ lo hi fun i1 => r3One f dir X C S i t i1
    r3Pipe X.m l (fun i t => forUp_ ib ib2 fun i1 => r3Kern f dir X C S i t i1)
      (fun i t => forUp_ ib ib2 fun i1 => r3Tail f dir X C S i t i1)
    r3End X.m l fun i t => forUp_ ib ib2 fun i1 => r3One f dir X C S i t i1

/-- lapack/rot_sequence3.hpp:92-930; `colMajor` is `layout<A_t> == Layout::ColMajor`.  For an empty dimension
`k = m - 1` wraps around and the check of the number of rows of `C` fails. -/
def rotSequence3 (colMajor : Bool) (side : Side) (dir : Direction) (C S A : MatV L) : M L T Unit := do
  let q := if side = .Left then A.m else A.n
  let k := q - 1
  let l := C.n
  check (decide (S.n = l))
  check (decide (q ≠ 0) && decide (C.m = k))
  check (decide (q ≠ 0) && decide (S.m = k))
  if k < 1 ∨ l < 1 then pure ()
  else if l = 1 ∨ k < l then
    forUp_ 0 l fun j => do
      let c ← C.sliceCol 0 C.m j
      let s ← S.sliceCol 0 S.m j
      let _ ← rotSequence colMajor side dir c s A
      pure ()
  else do
    let f : T → T := if side = .Left then id else star
    let X := rsView side A
    forBy_ 256 X.n (r3Block (colMajor = decide (side = .Left)) (side = .Left && dir = .Forward) f dir X C S l) 0

end
end TLA
