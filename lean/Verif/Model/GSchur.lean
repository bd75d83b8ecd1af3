import Verif.Model.Schur

/-!
# Model of the reordering of a generalized Schur form by 1×1 blocks

generalized_schur_swap and generalized_schur_move for complex matrices, and the 1×1 case of the real
generalized_schur_swap (generalized_schur_swap.hpp:117-180 is the same code, `conj` being the identity on reals).
-/

namespace TLA
variable {L T : Type} [DecidableEq L]
variable [Zero T] [One T] [Add T] [Mul T] [Sub T] [Neg T] [Star T] [DecidableEq T]

/-- generalized_schur_swap.hpp:183-195 (real: 139-151): columns `j0`, `j0+1` of A, B and Z. -/
def gsRight (wantz : Bool) (A B Z : MatV L) (j : Nat) (cr sr : T) : M L T Unit := do
  let a1 ← A.sliceCol 0 (j + 2) j
  let a2 ← A.sliceCol 0 (j + 2) (j + 1)
  rot a2 a1 cr sr
  let b1 ← B.sliceCol 0 (j + 2) j
  let b2 ← B.sliceCol 0 (j + 2) (j + 1)
  rot b2 b1 cr sr
  if wantz then do
    let z1 ← Z.sliceCol 0 Z.m j
    let z2 ← Z.sliceCol 0 Z.m (j + 1)
    rot z2 z1 cr sr
  else pure ()

/-- generalized_schur_swap.hpp:1208-1223 (real: 164-179): rows `j0`, `j0+1` of A and B, columns of Q, and the two
explicit zeros. -/
def gsLeft (wantq : Bool) (A B Q : MatV L) (j : Nat) (cl sl : T) : M L T Unit := do
  let n := A.n
  let a1 ← A.sliceRow j j n
  let a2 ← A.sliceRow (j + 1) j n
  rot a1 a2 cl sl
  let b1 ← B.sliceRow j j n
  let b2 ← B.sliceRow (j + 1) j n
  rot b1 b2 cl sl
  (if wantq then do
    let q1 ← Q.sliceCol 0 Q.m j
    let q2 ← Q.sliceCol 0 Q.m (j + 1)
    rot q1 q2 cl (star sl)
  else pure () : M L T Unit)
  A.set (j + 1) j 0
  B.set (j + 1) j 0

/-- Two 1×1 blocks (generalized_schur_swap.hpp:117-180 for real, 1159-1223 for complex matrices); `absGt x y` is
`abs(x) > abs(y)`. -/
def gschurSwap11 (o : RotOps T) (absGt : T → T → Bool) (wantq wantz : Bool) (A B Q Z : MatV L) (j0 : Nat) :
    M L T Unit := do
  let a00 ← A.get j0 j0
  let a01 ← A.get j0 (j0 + 1)
  let a11 ← A.get (j0 + 1) (j0 + 1)
  let b00 ← B.get j0 j0
  let b01 ← B.get j0 (j0 + 1)
  let b11 ← B.get (j0 + 1) (j0 + 1)
  let useB := absGt (b11 * a00) (b00 * a11)
  let temp := b11 * a00 - a11 * b00
  let temp2 := b11 * a01 - a11 * b01
  match o.gen temp2 temp with
  | none => M.fail .ub
  | some (_, _, cr, sr) => do
    gsRight wantz A B Z j0 cr sr
    let (temp, temp2) ← (if useB then do
        let t ← B.get j0 j0
        let t2 ← B.get (j0 + 1) j0
        pure (t, t2)
      else do
        let t ← A.get j0 j0
        let t2 ← A.get (j0 + 1) j0
        pure (t, t2) : M L T (T × T))
    match o.gen temp temp2 with
    | none => M.fail .ub
    | some (_, _, cl, sl) => gsLeft wantq A B Q j0 cl sl

/-- generalized_schur_swap for complex matrices (generalized_schur_swap.hpp:1133-1226). -/
def gschurSwapC (o : RotOps T) (absGt : T → T → Bool) (wantq wantz : Bool) (A B Q Z : MatV L) (j0 n1 n2 : Nat) :
    M L T Nat := do
  let n := A.n
  check (decide (A.m = n))
  check (decide (Q.m = n))
  check (decide (Q.n = n))
  check (decide (j0 < n))
  check (decide (n1 = 1))
  check (decide (n2 = 1))
  gschurSwap11 o absGt wantq wantz A B Q Z j0
  pure 0

/-- generalized_schur_move for complex matrices (generalized_schur_move.hpp:53-136 with `is_real<T>` false, so that every
block has size 1, and the swap always returning 0). Returns the error code and the final `ifst`, `ilst`.
`while (here != ilst)` runs from `ifst` to `ilst` one step at a time. -/
def gschurMoveC (o : RotOps T) (absGt : T → T → Bool) (wantq wantz : Bool) (A B Q Z : MatV L) (ifst ilst : Nat) :
    M L T (Nat × Nat × Nat) := do
  if A.n = 0 then pure (0, ifst, ilst)
  else do
    (if ifst < ilst then
      forUp_ ifst ilst fun here => do
        let _ ← gschurSwapC o absGt wantq wantz A B Q Z here 1 1
        pure ()
    else
      forDown_ ilst ifst fun here => do
        let _ ← gschurSwapC o absGt wantq wantz A B Q Z here 1 1
        pure () : M L T Unit)
    pure (0, ifst, ilst)

end TLA
