import Verif.Core
import Mathlib.Data.Matrix.Mul
import Mathlib.Algebra.BigOperators.Intervals
import Mathlib.Algebra.BigOperators.Fin
import Mathlib.Data.Fintype.BigOperators
import Mathlib.LinearAlgebra.Matrix.ConjTranspose

/-!
# Specification vocabulary

What the property theorems are stated with.  Nothing here refers to the model's loops.
-/

namespace TLA

variable {L T : Type}

/-! ### Views: which cells they own, when they overlap -/

/-- In-range entries of the view are pairwise distinct cells. -/
def MatV.Inj (A : MatV L) : Prop :=
  ∀ i j i' j', i < A.m → j < A.n → i' < A.m → j' < A.n → A.cell i j = A.cell i' j' →
    i = i' ∧ j = j'

/-- In-range entries of the vector view are pairwise distinct cells. -/
def VecV.Inj (x : VecV L) : Prop :=
  ∀ i i', i < x.n → i' < x.n → x.cell i = x.cell i' → i = i'

/-- `l` is one of the in-range cells of the view. -/
def MatV.Owns (A : MatV L) (l : L) : Prop := ∃ i j, i < A.m ∧ j < A.n ∧ A.cell i j = l

/-- `l` is one of the in-range cells of the vector view. -/
def VecV.Owns (x : VecV L) (l : L) : Prop := ∃ i, i < x.n ∧ x.cell i = l

/-- No in-range cell of `A` is an in-range cell of `B`. -/
def MatV.Disj (A B : MatV L) : Prop := ∀ i j, i < A.m → j < A.n → ¬ B.Owns (A.cell i j)

def MatV.DisjV (A : MatV L) (y : VecV L) : Prop :=
  ∀ i j, i < A.m → j < A.n → ¬ y.Owns (A.cell i j)

def VecV.DisjM (x : VecV L) (B : MatV L) : Prop := ∀ i, i < x.n → ¬ B.Owns (x.cell i)

def VecV.Disj (x y : VecV L) : Prop := ∀ i, i < x.n → ¬ y.Owns (x.cell i)

/-! ### Matrices seen through views -/

/-- Entry `(i,j)` of the matrix stored in view `A` by memory `μ`. -/
def entry (μ : Store L T) (A : MatV L) : Nat → Nat → T := fun i j => μ (A.cell i j)

/-- Entry `i` of the vector stored in view `x` by memory `μ`. -/
def ventry (μ : Store L T) (x : VecV L) : Nat → T := fun i => μ (x.cell i)

/-- The `m × n` Mathlib matrix with the given entries. -/
def mat (m n : Nat) (a : Nat → Nat → T) : Matrix (Fin m) (Fin n) T := fun i j => a i j

/-- The vector of length `n` with the given entries. -/
def vec (n : Nat) (x : Nat → T) : Fin n → T := fun i => x i

/-- op(A): `A`, its transpose, its conjugate transpose or its conjugate. -/
def opF [Star T] (op : Op) (a : Nat → Nat → T) : Nat → Nat → T := fun i j =>
  match op with
  | .NoTrans => a i j
  | .Trans => a j i
  | .ConjTrans => star (a j i)
  | .Conj => star (a i j)

/-- `(i,j)` is in the selected triangle (diagonal included); `General` selects everything. -/
def inTri (uplo : Uplo) (i j : Nat) : Prop :=
  match uplo with
  | .Upper => i ≤ j
  | .Lower => j ≤ i
  | .General => True
  | .UpperHessenberg => i ≤ j + 1
  | .LowerHessenberg => j ≤ i + 1
  | .StrictUpper => i < j
  | .StrictLower => j < i

instance instDecInTri (uplo : Uplo) (i j : Nat) : Decidable (inTri uplo i j) :=
  match uplo with
  | .Upper => inferInstanceAs (Decidable (i ≤ j))
  | .Lower => inferInstanceAs (Decidable (j ≤ i))
  | .General => inferInstanceAs (Decidable True)
  | .UpperHessenberg => inferInstanceAs (Decidable (i ≤ j + 1))
  | .LowerHessenberg => inferInstanceAs (Decidable (j ≤ i + 1))
  | .StrictUpper => inferInstanceAs (Decidable (i < j))
  | .StrictLower => inferInstanceAs (Decidable (j < i))

/-- The triangular matrix given by a triangle of `a`, with unit diagonal if asked. -/
def triF [Zero T] [One T] (uplo : Uplo) (diag : Diag) (a : Nat → Nat → T) : Nat → Nat → T :=
  fun i j =>
    if i = j then (match diag with | .Unit => 1 | .NonUnit => a i i)
    else if inTri uplo i j then a i j else 0

/-- The Hermitian matrix given by a triangle of `a` (the diagonal taken real). -/
def hermF [Star T] [ReIm T] (uplo : Uplo) (a : Nat → Nat → T) : Nat → Nat → T := fun i j =>
  if i = j then re (a i i) else if inTri uplo i j then a i j else star (a j i)

/-- The symmetric matrix given by a triangle of `a`. -/
def symF (uplo : Uplo) (a : Nat → Nat → T) : Nat → Nat → T := fun i j =>
  if i = j ∨ inTri uplo i j then a i j else a j i

/-- Cells of `A` outside the selected triangle, or not in `A` at all. -/
def SameOff (A : MatV L) (uplo : Uplo) (μ ν : Store L T) : Prop :=
  ∀ l, (∀ i j, i < A.m → j < A.n → inTri uplo i j → A.cell i j ≠ l) → ν l = μ l

/-! ### Admissible arguments of the BLAS routines

Sizes and options the documentation asks for, plus: distinct output entries are distinct cells
and inputs do not overlap the output. -/

/-- Admissible arguments of gemv: `op(A)` is `m × n`. -/
structure GemvOK (trans : Op) (A : MatV L) (x y : VecV L) (m n : Nat) : Prop where
  Am : (if trans = .NoTrans ∨ trans = .Conj then A.m else A.n) = m
  An : (if trans = .NoTrans ∨ trans = .Conj then A.n else A.m) = n
  xn : x.n = n
  yn : y.n = m
  inj : y.Inj
  Ay : A.DisjV y
  xy : x.Disj y

/-- Admissible arguments of hemv and symv. -/
structure HemvOK (uplo : Uplo) (A : MatV L) (x y : VecV L) (n : Nat) : Prop where
  tri : uplo = .Upper ∨ uplo = .Lower
  Am : A.m = n
  An : A.n = n
  xn : x.n = n
  yn : y.n = n
  inj : y.Inj
  Ay : A.DisjV y
  xy : x.Disj y

/-- Admissible arguments of trmv/trsv. -/
structure TrvOK (uplo : Uplo) (A : MatV L) (x : VecV L) (n : Nat) : Prop where
  tri : uplo = .Upper ∨ uplo = .Lower
  Am : A.m = n
  An : A.n = n
  xn : x.n = n
  inj : x.Inj
  Ax : A.DisjV x

/-- Admissible arguments of gemm: `op(A)` is `m × k`, `op(B)` is `k × n`, `C` is `m × n`. -/
structure GemmOK (transA transB : Op) (A B C : MatV L) (m n k : Nat) : Prop where
  opA : transA ≠ .Conj
  opB : transB ≠ .Conj
  Am : (if transA = .NoTrans then A.m else A.n) = m
  An : (if transA = .NoTrans then A.n else A.m) = k
  Bm : (if transB = .NoTrans then B.m else B.n) = k
  Bn : (if transB = .NoTrans then B.n else B.m) = n
  Cm : C.m = m
  Cn : C.n = n
  inj : C.Inj
  AC : A.Disj C
  BC : B.Disj C

/-- Admissible arguments of hemm and symm. -/
structure HemmOK (side : Side) (uplo : Uplo) (A B C : MatV L) : Prop where
  hside : side = .Left ∨ side = .Right
  tri : uplo = .Upper ∨ uplo = .Lower ∨ uplo = .General
  Am : A.m = A.n
  AB : A.m = if side = .Left then B.m else B.n
  Cm : C.m = B.m
  Cn : C.n = B.n
  inj : C.Inj
  AC : A.Disj C
  BC : B.Disj C

/-- Admissible arguments of the rank-k and rank-2k routines (`tr` is the other admissible op). -/
structure RankOK (tr : Op) (uplo : Uplo) (trans : Op) (A B C : MatV L) (n k : Nat) : Prop where
  tri : uplo = .Upper ∨ uplo = .Lower ∨ uplo = .General
  hop : trans = .NoTrans ∨ trans = tr
  An : (if trans = .NoTrans then A.m else A.n) = n
  Ak : (if trans = .NoTrans then A.n else A.m) = k
  Bm : B.m = A.m
  Bn : B.n = A.n
  Cm : C.m = n
  Cn : C.n = n
  inj : C.Inj
  AC : A.Disj C
  BC : B.Disj C

/-- Admissible arguments of trmm/trsm. -/
structure TrmOK (side : Side) (uplo : Uplo) (trans : Op) (A B : MatV L) : Prop where
  hside : side = .Left ∨ side = .Right
  tri : uplo = .Upper ∨ uplo = .Lower
  hop : trans ≠ .Conj
  Am : A.m = A.n
  AB : A.m = if side = .Left then B.m else B.n
  inj : B.Inj
  disj : A.Disj B

end TLA
