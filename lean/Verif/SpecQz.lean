import Mathlib.Analysis.Complex.Basic
import Mathlib.LinearAlgebra.Matrix.NonsingularInverse
import Mathlib.LinearAlgebra.Matrix.Notation
import Mathlib.LinearAlgebra.Matrix.Determinant.Basic
import Mathlib.Data.Real.Sqrt

/-! Specification vocabulary of the generalized eigenvalue problem for 2 by 2 pencils. -/

namespace TLA.Kernel
open Matrix

/-- `p = (alpha1, beta1)` and `q = (alpha2, beta2)` are the eigenvalues, with multiplicity, of the pencil `(A, B)` (`beta A - alpha B`
singular): the determinant of the pencil is their product up to a nonzero constant. -/
def PencilEigs (A B : Matrix (Fin 2) (Fin 2) ℂ) (p q : ℂ × ℝ) : Prop :=
  ∃ κ : ℂ, κ ≠ 0 ∧ ∀ x y : ℂ, (x • A - y • B).det = κ * (x * p.1 - y * p.2) * (x * q.1 - y * q.2)

/-- A real 2 by 2 matrix as a complex one. -/
def cmat (M : Matrix (Fin 2) (Fin 2) ℝ) : Matrix (Fin 2) (Fin 2) ℂ := M.map (fun x => (x : ℂ))

/-- The leading 3 by 3 block of a real matrix, as a complex matrix. -/
def cmat3 (a : Nat → Nat → ℝ) : Matrix (Fin 3) (Fin 3) ℂ := of fun i j => (a i j : ℂ)

/-- The first column of `(beta2 A - s2 B) B⁻¹ (beta1 A - s1 B) B⁻¹`. -/
noncomputable def qzShiftCol {K : Type} [Field K] (A B : Matrix (Fin 3) (Fin 3) K) (s1 s2 beta1 beta2 : K) : Fin 3 → K :=
  ((beta2 • A - s2 • B) * B⁻¹ * (beta1 • A - s1 • B) * B⁻¹) *ᵥ ![1, 0, 0]

end TLA.Kernel
