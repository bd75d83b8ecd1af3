import Verif.SpecHouse
import Verif.Model.BlockRefl

/-!
# Specification vocabulary for blocks of reflectors
-/

namespace TLA
section
variable {T : Type}

/-- The product of the reflectors a block stands for: `H_0 H_1 ... H_{k-1}` (Forward),
`H_{k-1} ... H_1 H_0` (Backward), whatever the storage. -/
def houseProd [Ring T] [StarRing T] (dir : Direction) (store : StoreV) (q k : Nat) (V : Nat → Nat → T) (t : Nat → T) :
    Matrix (Fin q) (Fin q) T :=
  ((match dir with | .Forward => List.range k | .Backward => (List.range k).reverse).map
    (houseH dir store q k V t)).prod

/-- The block reflector `I - U T U^H`: the columns of `U` are the reflector vectors, `T` is upper
triangular (Forward) or lower triangular (Backward); the other triangle of the array is not looked at. -/
def blockRefl [Ring T] [StarRing T] (dir : Direction) (store : StoreV) (q k : Nat) (V Tf : Nat → Nat → T) :
    Matrix (Fin q) (Fin q) T :=
  let U : Matrix (Fin q) (Fin k) T := mat q k fun r i => houseVec dir store q k V i r
  (1 : Matrix (Fin q) (Fin q) T) - U * mat k k (triF (match dir with | .Forward => .Upper | .Backward => .Lower) .NonUnit Tf) * U.conjTranspose
end

variable {L : Type}

/-- Number of entries of a reflector vector stored in `V`, and number of vectors. -/
def vlen (store : StoreV) (V : MatV L) : Nat := if store = .Columnwise then V.m else V.n
def vcnt (store : StoreV) (V : MatV L) : Nat := if store = .Columnwise then V.n else V.m

/-- Admissible operands of larft. -/
structure LarftOK (store : StoreV) (V : MatV L) (tau : VecV L) (Tm : MatV L) : Prop where
  inj : Tm.Inj
  VT : V.Disj Tm
  tT : tau.DisjM Tm
  kc : tau.n ≤ vcnt store V
  kq : tau.n ≤ vlen store V
  km : tau.n ≤ Tm.m
  kn : tau.n ≤ Tm.n

/-- Admissible call of larfb. -/
structure LarfbOK (side : Side) (store : StoreV) (V Tm C : MatV L) (work : VecV L) : Prop where
  hside : side = .Left ∨ side = .Right
  inj : C.Inj
  winj : work.Inj
  VC : V.Disj C
  Vw : V.DisjV work
  TC : Tm.Disj C
  Tw : Tm.DisjV work
  Cw : C.DisjV work
  Tsq : Tm.m = Tm.n
  Vk : vcnt store V = Tm.m
  Vq : vlen store V = if side = .Left then C.m else C.n
  kq : Tm.m ≤ vlen store V
  wn : (larfbWorksize side C.m C.n Tm.m).size ≤ work.n

/-- Admissible call of the blocked unmq; `nb0` is the block size option. -/
structure UnmqBlkOK (nb0 : Nat) (side : Side) (store : StoreV) (V : MatV L) (tau : VecV L) (C : MatV L) (work : VecV L) : Prop where
  hside : side = .Left ∨ side = .Right
  inj : C.Inj
  winj : work.Inj
  VC : V.Disj C
  Vw : V.DisjV work
  tC : tau.DisjM C
  tw : tau.Disj work
  Cw : C.DisjV work
  vm : if store = .Columnwise then V.m = (if side = .Left then C.m else C.n) ∧ V.n = tau.n
    else V.n = (if side = .Left then C.m else C.n) ∧ V.m = tau.n
  kq : tau.n ≤ if side = .Left then C.m else C.n
  nb : 0 < nb0
  wn : (unmqBlkWorksize side C tau.n nb0).size ≤ work.n

/-- Admissible call of the blocked ungq. -/
structure UngqBlkOK (nb0 : Nat) (dir : Direction) (store : StoreV) (A : MatV L) (tau work : VecV L) : Prop extends QrOK A tau work where
  shape : if store = .Columnwise then A.n ≤ A.m ∧ tau.n ≤ A.n else A.m ≤ A.n ∧ tau.n ≤ A.m
  nb : 0 < nb0
  k : 0 < tau.n ∨ A.m = 0 ∨ A.n = 0
  wn : A.m ≠ 0 → A.n ≠ 0 → (ungqBlkWorksize dir store A tau.n nb0).size ≤ work.n

end TLA
