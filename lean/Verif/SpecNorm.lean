import Verif.Spec
import Verif.Model.Norm
import Mathlib.Analysis.RCLike.Basic

/-! Specification of the matrix norms. -/

namespace TLA
open Finset

/-- `r` is the norm of kind `nt` of the `m × n` matrix `a`: the largest absolute value, the largest
column sum, the largest row sum (each at least 0, also for an empty matrix), the Frobenius norm. -/
def IsNorm {𝕜 : Type} [RCLike 𝕜] (nt : Norm) (m n : Nat) (a : Nat → Nat → 𝕜) (r : ℝ) : Prop :=
  match nt with
  | .Max => IsGreatest ({0} ∪ {x | ∃ i j, i < m ∧ j < n ∧ x = ‖a i j‖}) r
  | .One => IsGreatest ({0} ∪ {x | ∃ j, j < n ∧ x = ∑ i ∈ range m, ‖a i j‖}) r
  | .Inf => IsGreatest ({0} ∪ {x | ∃ i, i < m ∧ x = ∑ j ∈ range n, ‖a i j‖}) r
  | .Fro => r = Real.sqrt (∑ i ∈ range m, ∑ j ∈ range n, ‖a i j‖ ^ 2)
  | .Two => False

/-- What is assumed of a real type with NaN (`nn` = "nonnegative, infinite or NaN"): comparisons with NaN
are false, the others are those of a linear order, absolute values are `nn`, and a sum of such values is
NaN exactly when one of the summands is. -/
structure NanLaws {T R : Type} (o : NOps T R) (nn : R → Prop) : Prop where
  zero : o.isnan o.zero = false
  one : o.isnan o.one = false
  gt_nan : ∀ a b, o.gt a b = true → o.isnan a = false
  irrefl : ∀ a, o.gt a a = false
  trans : ∀ a b c, o.gt a b = true → o.gt c b = false → o.isnan c = false → o.gt c a = false
  nn_zero : nn o.zero
  nn_one : nn o.one
  nn_abs : ∀ x, nn (o.abs x)
  nn_absRe : ∀ x, nn (o.absRe x)
  nn_add : ∀ a b, nn a → nn b → nn (o.add a b)
  add : ∀ a b, nn a → nn b → (o.isnan (o.add a b) = true ↔ o.isnan a = true ∨ o.isnan b = true)

end TLA
