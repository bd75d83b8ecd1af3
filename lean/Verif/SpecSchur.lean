import Verif.Spec
import Mathlib.Analysis.RCLike.Basic
import Mathlib.Analysis.SpecialFunctions.Sqrt

/-!
# Vocabulary for the reordering of Schur forms
-/

namespace TLA
variable {L T : Type}

/-- Admissible arguments: `A`, `Q` square of the same order, `A` and (if wanted) `Q` without repeated cells and apart
from each other. -/
structure SchurOK (wantq : Bool) (A Q : MatV L) : Prop where
  Am : A.m = A.n
  Qm : Q.m = A.n
  Qn : Q.n = A.n
  injA : A.Inj
  injQ : wantq = true → Q.Inj
  AQ : wantq = true → A.Disj Q

/-- Admissible arguments of lahqr: `A`, `Z` square of the same order, `w` of that length, `ilo ≤ ihi ≤ n`; no repeated
cells and no overlaps. -/
structure HqrOK (wantz : Bool) (ilo ihi : Nat) (A : MatV L) (w : VecV L) (Z : MatV L) : Prop where
  Am : A.m = A.n
  wn : w.n = A.n
  Zm : wantz = true → Z.m = A.n
  Zn : wantz = true → Z.n = A.n
  injA : A.Inj
  injW : w.Inj
  injZ : wantz = true → Z.Inj
  AZ : wantz = true → A.Disj Z
  wA : w.DisjM A
  wZ : wantz = true → w.DisjM Z
  lo : ilo ≤ ihi
  hi : ihi ≤ A.n

/-- Moving the item at position `a` to position `b` and shifting those in between by one: the old position of the item
that ends up at position `i`. -/
def moveIdx (a b i : Nat) : Nat :=
  if i = b then a else if a ≤ i ∧ i < b then i + 1 else if b < i ∧ i ≤ a then i - 1 else i

/-- The pairs `(a, b)` and `(a', b')` are the same generalized eigenvalue `a/b`: one is a nonzero multiple of the
other. -/
def SameEig [Mul T] [Zero T] (a b a' b' : T) : Prop := ∃ t, t ≠ 0 ∧ a' = t * a ∧ b' = t * b

/-- Frobenius norm of a real or complex matrix. -/
noncomputable def frobM {𝕜 : Type} [RCLike 𝕜] {m n : Nat} (E : Matrix (Fin m) (Fin n) 𝕜) : ℝ :=
  Real.sqrt (∑ i, ∑ j, ‖E i j‖ ^ 2)

end TLA
