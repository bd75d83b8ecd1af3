import Verif.Model.BlockRefl

/-!
# The named generators and multipliers of Q

The routines below only fix the direction and the storage of ungq and unmq.  `work` is the workspace that ungq.hpp and unmq.hpp allocate.
-/

namespace TLA
variable {L T : Type} [DecidableEq L]
variable [Zero T] [One T] [Add T] [Mul T] [Sub T] [Neg T] [Div T] [Star T] [ReIm T] [DecidableEq T]

/-- ungqr.hpp:47-50. -/
def ungqr (isReal : Bool) (nb : Nat) (A : MatV L) (tau work : VecV L) : M L T Nat := ungqBlk isReal nb .Forward .Columnwise A tau work
/-- ungql.hpp:50-53. -/
def ungql (isReal : Bool) (nb : Nat) (A : MatV L) (tau work : VecV L) : M L T Nat := ungqBlk isReal nb .Backward .Columnwise A tau work
/-- unglq.hpp:54-57. -/
def unglq (isReal : Bool) (nb : Nat) (A : MatV L) (tau work : VecV L) : M L T Nat := ungqBlk isReal nb .Forward .Rowwise A tau work
/-- ungrq.hpp:51-54. -/
def ungrq (isReal : Bool) (nb : Nat) (A : MatV L) (tau work : VecV L) : M L T Nat := ungqBlk isReal nb .Backward .Rowwise A tau work

/-- unmqr.hpp:158-167. -/
def unmqr (isReal : Bool) (nb : Nat) (side : Side) (trans : Op) (V : MatV L) (tau : VecV L) (C : MatV L) (work : VecV L) : M L T Nat :=
  unmqBlk isReal nb side trans .Forward .Columnwise V tau C work
/-- unmql.hpp:171-180. -/
def unmql (isReal : Bool) (nb : Nat) (side : Side) (trans : Op) (V : MatV L) (tau : VecV L) (C : MatV L) (work : VecV L) : M L T Nat :=
  unmqBlk isReal nb side trans .Backward .Columnwise V tau C work
/-- unmlq.hpp:159-168. -/
def unmlq (isReal : Bool) (nb : Nat) (side : Side) (trans : Op) (V : MatV L) (tau : VecV L) (C : MatV L) (work : VecV L) : M L T Nat :=
  unmqBlk isReal nb side trans .Forward .Rowwise V tau C work
/-- unmrq.hpp:159-168. -/
def unmrq (isReal : Bool) (nb : Nat) (side : Side) (trans : Op) (V : MatV L) (tau : VecV L) (C : MatV L) (work : VecV L) : M L T Nat :=
  unmqBlk isReal nb side trans .Backward .Rowwise V tau C work

end TLA
