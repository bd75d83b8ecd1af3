import Verif.Spec

/-!
# Specification: which cells a call may depend on and which it may change
-/

namespace TLA

variable {L T α : Type}

/-- The call `x` looks only at cells satisfying `R` and changes only cells satisfying `W`.

* `result`: run from two memories that agree on `R`, it returns the same value, or fails with the
  same error;
* `values`: and every cell that held the same value before holds the same value after;
* `writes`: every cell outside `W` keeps its value.

It holds whether or not the call succeeds, and for any scalar arithmetic. -/
structure Confined (R W : L → Prop) (x : M L T α) : Prop where
  result : ∀ μ μ', (∀ l, R l → μ l = μ' l) → (x μ).1 = (x μ').1
  values : ∀ μ μ', (∀ l, R l → μ l = μ' l) → ∀ l, μ l = μ' l → (x μ).2 l = (x μ').2 l
  writes : ∀ μ l, ¬ W l → (x μ).2 l = μ l

/-- `l` is a cell of the triangle of `A` selected by `uplo`, and not a diagonal cell if `diag` says
that the diagonal is implicitly one. -/
def MatV.OwnsTri (A : MatV L) (uplo : Uplo) (diag : Diag) (l : L) : Prop :=
  ∃ i j, i < A.m ∧ j < A.n ∧ inTri uplo i j ∧ (diag = .Unit → i ≠ j) ∧ A.cell i j = l

end TLA
