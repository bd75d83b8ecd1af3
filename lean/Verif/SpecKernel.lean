import Mathlib.Analysis.Complex.Basic
import Mathlib.LinearAlgebra.Matrix.Charpoly.Coeff
import Mathlib.LinearAlgebra.Matrix.Notation

/-! Specification vocabulary of the scalar kernels: 2 by 2 matrices written out. -/

namespace TLA.Kernel
open Matrix Polynomial

/-- The plane rotation `[c s; -s c]`. -/
def G (c s : ℝ) : Matrix (Fin 2) (Fin 2) ℝ := !![c, s; -s, c]

/-- The complex plane rotation `[c s; -conj(s) c]`, `c` real. -/
noncomputable def GC (c : ℝ) (s : ℂ) : Matrix (Fin 2) (Fin 2) ℂ := !![(c : ℂ), s; -star s, (c : ℂ)]

/-- `s1`, `s2` are the eigenvalues of `A`, with multiplicity. -/
def EigsOf {K : Type} [CommRing K] (A : Matrix (Fin 2) (Fin 2) K) (s1 s2 : K) : Prop :=
  A.charpoly = (X - C s1) * (X - C s2)

/-- A real 2 by 2 matrix in standard Schur form: upper triangular, or equal diagonal entries and
off-diagonal entries of opposite sign (a complex conjugate pair). -/
def StdSchur (T : Matrix (Fin 2) (Fin 2) ℝ) : Prop :=
  T 1 0 = 0 ∨ (T 0 0 = T 1 1 ∧ T 0 1 * T 1 0 < 0)

end TLA.Kernel
