import Verif.Spec
import Verif.RealScalar
import Mathlib.Analysis.RCLike.Basic
import Mathlib.LinearAlgebra.Matrix.ConjTranspose
import Mathlib.LinearAlgebra.Matrix.NonsingularInverse

/-! # Vocabulary of the Bunch-Kaufman factorization -/

namespace TLA
open Matrix
variable {𝕜 : Type} [RCLike 𝕜]

/-- A diagonal block of order 1 or 2 beginning in row `k`, and the row `p` it was interchanged with. -/
structure Blk where
  k : Nat
  two : Bool
  p : Nat

/-- The order of a block. -/
def Blk.sz (b : Blk) : Nat := if b.two then 2 else 1

/-- The row interchanged with `p`: the last one of the block if uplo = Lower, the first one if uplo = Upper. -/
def Blk.s (uplo : Uplo) (b : Blk) : Nat := if b.two ∧ uplo = .Lower then b.k + 1 else b.k

/-- The blocks described by the first `j` entries of the pivot array (uplo = Lower): a nonnegative entry is a block of order 1, interchanged with the row
given by the entry; two equal negative entries are a block of order 2, the interchange `p` being stored as `-p-1`. -/
inductive IsBlks (n : Nat) (ipiv : Nat → Int) : List Blk → Nat → Prop
  | nil : IsBlks n ipiv [] 0
  | one {bs : List Blk} {k p : Nat} : IsBlks n ipiv bs k → k ≤ p → p < n → ipiv k = (p : Int) → IsBlks n ipiv (bs ++ [⟨k, false, p⟩]) (k + 1)
  | two {bs : List Blk} {k p : Nat} : IsBlks n ipiv bs k → k + 1 ≤ p → p < n → ipiv k = -(p : Int) - 1 → ipiv (k + 1) = -(p : Int) - 1 →
      IsBlks n ipiv (bs ++ [⟨k, true, p⟩]) (k + 2)

/-- The Hermitian or symmetric matrix given by a triangle. -/
noncomputable def fullF (herm : Bool) (uplo : Uplo) (a : Nat → Nat → 𝕜) : Nat → Nat → 𝕜 := if herm then hermF uplo a else symF uplo a

/-- The conjugate transpose or the transpose. -/
noncomputable def adjM (herm : Bool) {m n : Nat} (M : Matrix (Fin m) (Fin n) 𝕜) : Matrix (Fin n) (Fin m) 𝕜 := if herm then Mᴴ else Mᵀ

/-- The interchange of a block. -/
noncomputable def ldlP (uplo : Uplo) (n : Nat) (b : Blk) : Matrix (Fin n) (Fin n) 𝕜 :=
  mat n n fun i j => if Equiv.swap (b.s uplo) b.p i = j then 1 else 0

/-- The unit triangular factor of a block: the strip of `a` below (Lower) or above (Upper) the block. -/
noncomputable def ldlL (uplo : Uplo) (n : Nat) (a : Nat → Nat → 𝕜) (b : Blk) : Matrix (Fin n) (Fin n) 𝕜 :=
  mat n n fun i c => if i = c then 1 else
    if (b.k ≤ c ∧ c < b.k + b.sz) ∧ (if uplo = .Lower then b.k + b.sz ≤ i else i < b.k) then a i c else 0

/-- The product of the interchanges and triangular factors, in order. -/
noncomputable def ldlM (uplo : Uplo) (n : Nat) (a : Nat → Nat → 𝕜) (bl : List Blk) : Matrix (Fin n) (Fin n) 𝕜 :=
  (bl.map fun b => ldlP uplo n b * ldlL uplo n a b).prod

open Classical in
/-- The block diagonal matrix: the diagonal, and the off-diagonal entries of the blocks of order 2. -/
noncomputable def ldlD (herm : Bool) (uplo : Uplo) (a : Nat → Nat → 𝕜) (bl : List Blk) : Nat → Nat → 𝕜 :=
  fullF herm uplo fun i c => if i = c ∨ (∃ b ∈ bl, b.two = true ∧ ((i = b.k + 1 ∧ c = b.k) ∨ (i = b.k ∧ c = b.k + 1))) then a i c else 0

end TLA
