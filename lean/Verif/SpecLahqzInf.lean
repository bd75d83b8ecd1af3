import Verif.SpecRot

/-! # Vocabulary for the deflation of infinite eigenvalues in lahqz -/

namespace TLA
open Matrix
variable {T : Type}

/-- A sum of `k` matrices `δ x yᴴ` with unit vectors `x`, `y` and negligible `δ`. -/
inductive NegSum [CommRing T] [StarRing T] (negl : T → Bool) {n : Nat} : Nat → Matrix (Fin n) (Fin n) T → Prop
  | zero : NegSum negl 0 0
  | add {k : Nat} {F : Matrix (Fin n) (Fin n) T} {δ : T} {x y : Fin n → T} : NegSum negl k F → negl δ = true →
      star x ⬝ᵥ x = 1 → star y ⬝ᵥ y = 1 → NegSum negl (k + 1) (F + δ • vecMulVec x (star y))

end TLA
