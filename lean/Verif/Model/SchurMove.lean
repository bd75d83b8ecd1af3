import Verif.Model.SchurBlk

/-!
# Model of schur_move for real matrices
-/

namespace TLA
variable {L : Type} [DecidableEq L]

/-- schur_move.hpp:64-66 (75-77): the first row of the block that the index is in. -/
noncomputable def smFirst (A : MatV L) (i : Nat) : M L ℝ Nat :=
  if 0 < i then do
    let x ← A.get i (i - 1)
    pure (if x ≠ 0 then i - 1 else i)
  else pure i

/-- schur_move.hpp:69-72 (80-83, 92-95): the order of the block that starts at the row. -/
noncomputable def smSize (A : MatV L) (i : Nat) : M L ℝ Nat :=
  if i + 1 < A.n then do
    let x ← A.get (i + 1) i
    pure (if x ≠ 0 then 2 else 1)
  else pure 1

/-- schur_move.hpp:109-112: the order of the block above the row. -/
noncomputable def smPrev (A : MatV L) (here : Nat) : M L ℝ Nat :=
  if 1 < here then do
    let x ← A.get (here - 1) (here - 2)
    pure (if x ≠ 0 then 2 else 1)
  else pure 1

/-- schur_move.hpp:90-104; `swap` is schur_swap.  The first argument bounds the number of passes: each pass moves down by at least one row, and schur_swap refuses
windows that are not inside the matrix.  Returns the error code and `here` (the new `ilst` in both cases). -/
noncomputable def smDown (swap : Nat → Nat → Nat → M L ℝ Nat) (A : MatV L) (nbf ilst : Nat) : Nat → Nat → M L ℝ (Nat × Nat)
  | 0, _ => M.fail .diverge
  | fuel + 1, here =>
    if here ≠ ilst then do
      let nbnext ← smSize A (here + nbf)
      let ierr ← swap here nbf nbnext
      if ierr ≠ 0 then pure (1, here)
      else smDown swap A nbf ilst fuel (here + nbnext)
    else pure (0, here)

/-- schur_move.hpp:107-121. `here - nbnext` would wrap around: the window is then refused by schur_swap. -/
noncomputable def smUp (swap : Nat → Nat → Nat → M L ℝ Nat) (A : MatV L) (nbf ilst : Nat) : Nat → Nat → M L ℝ (Nat × Nat)
  | 0, _ => M.fail .diverge
  | fuel + 1, here =>
    if here ≠ ilst then do
      let nbnext ← smPrev A here
      if here < nbnext then M.fail .check
      else do
        let ierr ← swap (here - nbnext) nbnext nbf
        if ierr ≠ 0 then pure (1, here)
        else smUp swap A nbf ilst fuel (here - nbnext)
    else pure (0, here)

/-- schur_move for real matrices (schur_move.hpp:47-125).  Returns the error code and the final `ifst`, `ilst`. -/
noncomputable def schurMoveR (swap : Nat → Nat → Nat → M L ℝ Nat) (A : MatV L) (ifst ilst : Nat) : M L ℝ (Nat × Nat × Nat) := do
  if A.n = 0 then pure (0, ifst, ilst)
  else do
    let ifst ← smFirst A ifst
    let nbf ← smSize A ifst
    let ilst ← smFirst A ilst
    let nbl ← smSize A ilst
    if ifst < ilst then do
      let ilst := if nbf = 2 ∧ nbl = 1 then ilst - 1 else if nbf = 1 ∧ nbl = 2 then ilst + 1 else ilst
      let r ← smDown swap A nbf ilst (A.n + 1) ifst
      pure (r.1, ifst, r.2)
    else do
      let r ← smUp swap A nbf ilst (A.n + 1) ifst
      pure (r.1, ifst, r.2)

end TLA
