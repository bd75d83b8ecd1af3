import Verif.Spec
import Verif.Model.Steqr
import Mathlib.Analysis.RCLike.Basic
import Mathlib.LinearAlgebra.Matrix.ConjTranspose
import Mathlib.Analysis.SpecialFunctions.Sqrt

/-!
# Vocabulary of the symmetric tridiagonal eigenvalue problem
-/

namespace TLA

/-- The symmetric tridiagonal matrix with diagonal `d` and off-diagonal `e`. -/
def triS (d e : Nat → ℝ) : Nat → Nat → ℝ := fun i j =>
  if i = j then d i else if i + 1 = j then e i else if j + 1 = i then e j else 0

/-- Frobenius norm. -/
noncomputable def frobN {m n : Nat} (E : Matrix (Fin m) (Fin n) ℝ) : ℝ := Real.sqrt (∑ i, ∑ j, E i j ^ 2)

/-- The perturbation one deflation of steqr may cause in a matrix of Frobenius norm `t`. -/
noncomputable def stqTol (ulp safmin t : ℝ) : ℝ := Real.sqrt (2 * (ulp ^ 2 * t ^ 2 + safmin))

end TLA
