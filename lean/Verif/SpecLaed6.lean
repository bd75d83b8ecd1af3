import Verif.Model.Laed6
import Mathlib.Algebra.BigOperators.Fin

/-!
# Vocabulary for the secular equation with three poles
-/

namespace TLA.Kernel
open Finset

/-- `f(x) = rho + z0/(d0-x) + z1/(d1-x) + z2/(d2-x)`. -/
noncomputable def secular3 (rho : ℝ) (d z : Fin 3 → ℝ) (x : ℝ) : ℝ := rho + ∑ i, z i / (d i - x)

/-- The documented input of laed6: increasing nonzero poles, positive weights, the origin between the two poles next to the root, `finit = f(0)`, and `r` a root
between these poles. -/
structure L6In (orgati : Bool) (rho : ℝ) (d z : Fin 3 → ℝ) (finit r : ℝ) : Prop where
  d01 : d 0 < d 1
  d12 : d 1 < d 2
  dz : ∀ i, d i ≠ 0
  zp : ∀ i, 0 < z i
  lo0 : l6Lo orgati d < 0
  hi0 : 0 < l6Hi orgati d
  fin : finit = secular3 rho d z 0
  lor : l6Lo orgati d < r
  hir : r < l6Hi orgati d
  root : secular3 rho d z r = 0

/-- What the stopping criteria of laed6 guarantee for the returned `tau`: it is the root; or the value of the function there is below `4 eps` times a sum of moduli of its
terms; or it has a relative error of at most `4 eps`; or it is one of the two poles. -/
def L6Accept (eps : ℝ) (orgati : Bool) (rho : ℝ) (d z : Fin 3 → ℝ) (finit r tau : ℝ) : Prop :=
  tau = r ∨
  ((∀ i, d i ≠ tau) ∧ |secular3 rho d z tau| ≤ 4 * eps * (8 * (|finit| + |tau| * ∑ i, |z i / (d i * (d i - tau))|) + |tau| * ∑ i, z i / (d i - tau) ^ 2)) ∨
  |tau - r| ≤ 4 * eps * |tau| ∨
  tau = l6Lo orgati d ∨ tau = l6Hi orgati d

end TLA.Kernel
