import Verif.Spec
import Verif.Model.House

/-!
# Specification vocabulary for Householder reflectors

`Direction` and `StoreV` are the option enumerations of base/types.hpp.
-/

namespace TLA
variable {T : Type}

/-- Position of the entry 1 in a reflector vector of length `n`: first for Forward, last for
Backward. -/
def pidx (dir : Direction) (n : Nat) : Nat := if dir = .Forward then 0 else n - 1

/-- The reflector vector stored in `v`: its pivot entry counts as 1, the others as stored
(Columnwise) or conjugated (Rowwise, where the *row* `v` is the conjugate transpose of it). -/
def hvec [One T] [Star T] (dir : Direction) (store : StoreV) (n : Nat) (v : Nat → T) : Nat → T :=
  fun i => if i = pidx dir n then 1 else match store with
    | .Columnwise => v i
    | .Rowwise => star (v i)

/-- Entries of the reflector `I - tau u u^H`. -/
def reflF [Zero T] [One T] [Sub T] [Mul T] [Star T] (tau : T) (u : Nat → T) : Nat → Nat → T :=
  fun r c => (if r = c then 1 else 0) - tau * u r * star (u c)

/-- Row of the entry 1 of the `i`-th of `k` reflector vectors of length `q`. -/
def hpiv (dir : Direction) (q k i : Nat) : Nat := if dir = .Forward then i else q - k + i

/-- The `i`-th of the `k` reflector vectors of length `q` stored in `V`, by columns (Columnwise) or,
conjugated, by rows (Rowwise): entry 1 at the pivot, zeros before it (Forward) or after it
(Backward), stored entries on the other side. -/
def houseVec [Zero T] [One T] [Star T] (dir : Direction) (store : StoreV) (q k : Nat)
    (V : Nat → Nat → T) (i : Nat) : Nat → T := fun r =>
  if r = hpiv dir q k i then 1
  else if (if dir = .Forward then r < hpiv dir q k i else hpiv dir q k i < r) then 0
  else match store with
    | .Columnwise => V r i
    | .Rowwise => star (V i r)

/-- The `i`-th reflector `H_i = I - tau_i v_i v_i^H`. -/
def houseH [Zero T] [One T] [Sub T] [Mul T] [Star T] (dir : Direction) (store : StoreV) (q k : Nat)
    (V : Nat → Nat → T) (t : Nat → T) (i : Nat) : Matrix (Fin q) (Fin q) T :=
  mat q q (reflF (t i) (houseVec dir store q k V i))

/-- The matrix `Q` of the documentation: `H_0 H_1 ... H_{k-1}` (Forward, Columnwise: geqr2),
`H_{k-1} ... H_1 H_0` (Backward, Columnwise: geql2), `H_{k-1}^H ... H_0^H` (Forward, Rowwise: gelq2),
`H_0^H ... H_{k-1}^H` (Backward, Rowwise: gerq2). -/
def houseQ [Ring T] [StarRing T] (dir : Direction) (store : StoreV) (q k : Nat)
    (V : Nat → Nat → T) (t : Nat → T) : Matrix (Fin q) (Fin q) T :=
  let H := houseH dir store q k V t
  let up := List.range k
  match dir, store with
  | .Forward, .Columnwise => (up.map H).prod
  | .Backward, .Columnwise => (up.reverse.map H).prod
  | .Forward, .Rowwise => (up.reverse.map fun i => (H i).conjTranspose).prod
  | .Backward, .Rowwise => (up.map fun i => (H i).conjTranspose).prod

/-- `op(Q)` for a matrix. -/
def opQ [Star T] {q : Nat} (trans : Op) (Q : Matrix (Fin q) (Fin q) T) : Matrix (Fin q) (Fin q) T :=
  match trans with
  | .NoTrans => Q
  | .Trans => Q.transpose
  | .ConjTrans => Q.conjTranspose
  | .Conj => Q.map star

/-! ### Admissible calls

No two entries of a written operand share a memory cell, written operands are disjoint from the
others, the shapes agree, and the workspace has at least the size the `_worksize` function returns. -/

section adm
variable {L : Type}

/-- Admissible call of larf on a matrix. -/
structure LarfOK (side : Side) (v : VecV L) (C : MatV L) (work : VecV L) : Prop where
  hside : side = .Left ∨ side = .Right
  vn : v.n = if side = .Left then C.m else C.n
  inj : C.Inj
  winj : work.Inj
  vC : v.DisjM C
  vw : v.Disj work
  Cw : C.DisjV work
  wn : larfWorksize side C.m C.n ≤ work.n

/-- The operands of a factorization do not overlap. -/
structure QrOK (A : MatV L) (tau work : VecV L) : Prop where
  inj : A.Inj
  tinj : tau.Inj
  winj : work.Inj
  At : A.DisjV tau
  Aw : A.DisjV work
  tw : tau.Disj work

/-- Admissible call of unmq_level2: `V` and `tau` are only read. -/
structure UnmqOK (side : Side) (store : StoreV) (V : MatV L) (tau : VecV L) (C : MatV L) (work : VecV L) : Prop where
  hside : side = .Left ∨ side = .Right
  inj : C.Inj
  winj : work.Inj
  VC : V.Disj C
  Vw : V.DisjV work
  tC : tau.DisjM C
  tw : tau.Disj work
  Cw : C.DisjV work
  vm : if store = .Columnwise then V.m = (if side = .Left then C.m else C.n) ∧ V.n = tau.n
    else V.n = (if side = .Left then C.m else C.n) ∧ V.m = tau.n
  kq : tau.n ≤ if side = .Left then C.m else C.n
  wn : unmqWorksize side C ≤ work.n

/-- Admissible call of ungq_level2. -/
structure UngqOK (store : StoreV) (A : MatV L) (tau work : VecV L) : Prop extends QrOK A tau work where
  shape : if store = .Columnwise then A.n ≤ A.m ∧ tau.n ≤ A.n else A.m ≤ A.n ∧ tau.n ≤ A.m
  wn : ungqWorksize store A ≤ work.n

end adm

/-- The first (Forward) or last (Backward) `n` columns of the identity of order `m`. -/
def eyeF [Zero T] [One T] (dir : Direction) (m n : Nat) : Nat → Nat → T := fun r c =>
  if (if dir = .Forward then r = c else r + n = c + m) then 1 else 0

end TLA
