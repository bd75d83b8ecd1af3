import Verif.Spec
import Verif.RealScalar
import Mathlib.Analysis.RCLike.Basic
import Mathlib.Data.Matrix.Mul
import Mathlib.LinearAlgebra.Matrix.ConjTranspose

/-! # Vocabulary of eigenvectors of a triangular matrix -/

namespace TLA
open Matrix

/-- `z` is a right eigenvector of the upper triangle of `t` for the eigenvalue `t i i`: a positive number in position `i`, zeros below. -/
def IsRightEv (n : Nat) (t : Nat → Nat → ℂ) (i : Nat) (z : Nat → ℂ) : Prop :=
  (∃ s : ℝ, 0 < s ∧ z i = (s : ℂ)) ∧ (∀ j, i < j → j < n → z j = 0) ∧
    (mat n n (triF .Upper .NonUnit t)).mulVec (vec n z) = t i i • vec n z

/-- `z` is a left eigenvector of the upper triangle of `t` for the eigenvalue `t i i`, `z^H T = t i i z^H`: a positive number in position `i`, zeros above. -/
def IsLeftEv (n : Nat) (t : Nat → Nat → ℂ) (i : Nat) (z : Nat → ℂ) : Prop :=
  (∃ s : ℝ, 0 < s ∧ z i = (s : ℂ)) ∧ (∀ j, j < i → z j = 0) ∧
    Matrix.vecMul (star (vec n z)) (mat n n (triF .Upper .NonUnit t)) = t i i • star (vec n z)

/-- The number of selected indices below `i`. -/
def selRank (sel : Nat → Bool) (i : Nat) : Nat := ((Finset.range i).filter fun j => sel j = true).card

end TLA
