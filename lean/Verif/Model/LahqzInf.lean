import Verif.Model.Rot

/-!
# Model of the deflation of infinite eigenvalues in lahqz

`want_s` is true: `istart_m = 0`, `istop_m = n` (lahqz.hpp:151-160).
-/

namespace TLA
variable {L T : Type} [DecidableEq L]
variable [Zero T] [One T] [Add T] [Mul T] [Sub T] [Neg T] [Star T] [DecidableEq T]

/-- The rotation of columns `j`, `j-1` that annihilates `B(j-1,j-1)` (lahqz.hpp:230-247). -/
def lzInfRight (o : RotOps T) (wantz : Bool) (A B Z : MatV L) (n j : Nat) : M L T Unit := do
  let (c, s) ← rotgAt o B (j - 1) j (j - 1) (j - 1)
  B.set (j - 1) (j - 1) 0
  let b1 ← B.sliceCol 0 (j - 1) j
  let b2 ← B.sliceCol 0 (j - 1) (j - 1)
  rot b1 b2 c s
  let a1 ← A.sliceCol 0 (min (j + 2) n) j
  let a2 ← A.sliceCol 0 (min (j + 2) n) (j - 1)
  rot a1 a2 c s
  if wantz then do
    let z1 ← Z.sliceCol 0 Z.m j
    let z2 ← Z.sliceCol 0 Z.m (j - 1)
    rot z1 z2 c s
  else pure ()

/-- The rotation of rows `p`, `p+1` that annihilates `A(p+1,k)`: lahqz.hpp:251-265 with `k = p-1`, 270-284 with `k = p`. -/
def lzInfLeft (o : RotOps T) (wantq : Bool) (A B Q : MatV L) (n p k : Nat) : M L T Unit := do
  let (c, s) ← rotgAt o A p k (p + 1) k
  A.set (p + 1) k 0
  let a1 ← A.sliceRow p (k + 1) n
  let a2 ← A.sliceRow (p + 1) (k + 1) n
  rot a1 a2 c s
  let b1 ← B.sliceRow p (p + 1) n
  let b2 ← B.sliceRow (p + 1) (p + 1) n
  rot b1 b2 c s
  if wantq then do
    let q1 ← Q.sliceCol 0 Q.m p
    let q2 ← Q.sliceCol 0 Q.m (p + 1)
    rot q1 q2 c (star s)
  else pure ()

/-- The zero on the diagonal of `B` moves from `i` up to `istart`, and `A(istart+1,istart)` is annihilated
(lahqz.hpp:225-285). -/
def lzInfChase (o : RotOps T) (wantq wantz : Bool) (A B Q Z : MatV L) (n istart istop i : Nat) : M L T Unit := do
  B.set i i 0
  forDown_ (istart + 1) (i + 1) fun j => do
    lzInfRight o wantz A B Z n j
    if j < istop - 1 then lzInfLeft o wantq A B Q n j (j - 1) else pure ()
  if istart + 1 < istop then lzInfLeft o wantq A B Q n istart istart else pure ()

/-- The loop over the diagonal of `B` (lahqz.hpp:221-290); `negl x` is `abs1(x) <= max(small_num, eps * bnorm)`.  The vectors `alpha`,
`beta` are functions of the index.  Returns `istart`, `alpha`, `beta`. -/
def lzInf (o : RotOps T) (negl : T → Bool) (wantq wantz : Bool) (A B Q Z : MatV L) (n istart istop : Nat)
    (al be : Nat → T) : M L T (Nat × (Nat → T) × (Nat → T)) :=
  forUp istart istop (istart, al, be) fun i st => do
    let b ← B.get i i
    if negl b then do
      lzInfChase o wantq wantz A B Q Z n st.1 istop i
      let a ← A.get st.1 st.1
      pure (st.1 + 1, Function.update st.2.1 st.1 a, Function.update st.2.2 st.1 0)
    else pure st

end TLA
