import Verif.Model.Rot

/-!
# Model of the reordering of a Schur form by 1×1 blocks

schur_swap and schur_move for complex matrices, and the 1×1 case of the real schur_swap.
-/

namespace TLA
variable {L T : Type} [DecidableEq L]
variable [Zero T] [One T] [Add T] [Mul T] [Sub T] [Neg T] [Star T] [DecidableEq T]

/-- The rotation `(cs, sn)` of rows `j`, `j+1` right of the diagonal block, of columns `j`, `j+1` above it, and of the
columns of `Q` (schur_swap.hpp:116-131, 398-413, 424-439 for real, 495-510 for complex matrices; `conj` is the
identity on reals). -/
def schurRot (wantq : Bool) (A Q : MatV L) (j : Nat) (cs sn : T) : M L T Unit := do
  let n := A.n
  (if j + 2 < n then do
    let r1 ← A.sliceRow j (j + 2) n
    let r2 ← A.sliceRow (j + 1) (j + 2) n
    rot r1 r2 cs sn
  else pure () : M L T Unit)
  (if 0 < j then do
    let c1 ← A.sliceCol 0 j j
    let c2 ← A.sliceCol 0 j (j + 1)
    rot c1 c2 cs (star sn)
  else pure () : M L T Unit)
  if wantq then do
    let q1 ← Q.sliceCol 0 Q.m j
    let q2 ← Q.sliceCol 0 Q.m (j + 1)
    rot q1 q2 cs (star sn)
  else pure ()

/-- Two 1×1 blocks (schur_swap.hpp:98-132 for real, 474-510 for complex matrices). -/
def schurSwap11 (o : RotOps T) (wantq : Bool) (A Q : MatV L) (j0 : Nat) : M L T Unit := do
  let t00 ← A.get j0 j0
  let t11 ← A.get (j0 + 1) (j0 + 1)
  let temp ← A.get j0 (j0 + 1)
  let temp2 := t11 - t00
  match o.gen temp temp2 with
  | none => M.fail .ub
  | some (_, _, cs, sn) => do
    A.set (j0 + 1) (j0 + 1) t00
    A.set j0 j0 t11
    schurRot wantq A Q j0 cs sn

/-- schur_swap for complex matrices (schur_swap.hpp:453-513). -/
def schurSwapC (o : RotOps T) (wantq : Bool) (A Q : MatV L) (j0 n1 n2 : Nat) : M L T Nat := do
  let n := A.n
  check (decide (A.m = n))
  check (decide (Q.m = n))
  check (decide (Q.n = n))
  check (decide (j0 < n))
  check (decide (n1 = 1))
  check (decide (n2 = 1))
  schurSwap11 o wantq A Q j0
  pure 0

/-- schur_move for complex matrices (schur_move.hpp:47-125 with `is_real<T>` false, so that every block has size 1, and
schur_swap always returning 0).  Returns the error code and the final `ifst`, `ilst`.  `while (here != ilst)` runs from
`ifst` to `ilst` one step at a time. -/
def schurMoveC (o : RotOps T) (wantq : Bool) (A Q : MatV L) (ifst ilst : Nat) : M L T (Nat × Nat × Nat) := do
  if A.n = 0 then pure (0, ifst, ilst)
  else do
    (if ifst < ilst then
      forUp_ ifst ilst fun here => do
        let _ ← schurSwapC o wantq A Q here 1 1
        pure ()
    else
      forDown_ ilst ifst fun here => do
        let _ ← schurSwapC o wantq A Q here 1 1
        pure () : M L T Unit)
    pure (0, ifst, ilst)

end TLA
