import Verif.SpecBlk

/-!
# Specification vocabulary for the factorizations that keep the triangular factors
-/

namespace TLA
variable {L : Type}

/-- Admissible operands of gelqt. -/
structure GqtOK (A TT : MatV L) (work : VecV L) : Prop where
  inj : A.Inj
  tinj : TT.Inj
  winj : work.Inj
  AT : A.Disj TT
  Aw : A.DisjV work
  Tw : TT.DisjV work

end TLA
