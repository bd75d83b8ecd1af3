import Verif.SpecHouse

/-! Vocabulary for move_bulge. -/

namespace TLA
variable {L : Type}

/-- The 3 by 3 reflector `I - tau u u^H` stored as `(tau, u1, u2)` with `u0 = 1`. -/
def refl3 {T : Type} [Zero T] [One T] [Sub T] [Mul T] [Star T] (v : Nat → T) : Matrix (Fin 3) (Fin 3) T :=
  mat 3 3 (reflF (v 0) (hvec .Forward .Columnwise 3 v))

/-- Admissible arguments of move_bulge: a 4 by 4 view, a reflector of length 3 and the local array. -/
structure BulgeOK (H : MatV L) (v vt : VecV L) : Prop where
  Hm : H.m = 4
  Hn : H.n = 4
  vn : v.n = 3
  tn : vt.n = 3
  injH : H.Inj
  injV : v.Inj
  injT : vt.Inj
  vH : v.DisjM H
  tH : vt.DisjM H
  vt : v.Disj vt

end TLA
