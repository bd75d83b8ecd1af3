import Mathlib.Algebra.Star.Basic
import Mathlib.Algebra.Field.Defs

/-!
# Core of the model: stores, views, the error monad, loops

Models the parts of <T>LAPACK every routine is written with:
element access `A(i,j)` / `x[i]`, `slice`, `tlapack_check`, `tlapack_error`, `for` loops.
-/

namespace TLA

/-- How a call can fail to return normally.
* `check`    – `tlapack_check`/`tlapack_check_false` fired: `std::domain_error`
               (/repo/include/tlapack/base/exceptionHandling.hpp:99-119).
* `runtime k`– `tlapack_error(k, ..)`: `std::runtime_error` whose message carries the code `k`
               (exceptionHandling.hpp:146-178).
* `ub`       – an out-of-range element access or slice, or an integer division by zero.  In the code these are `assert`s
               (/repo/include/tlapack/LegacyMatrix.hpp:43-60, LegacyVector.hpp:49-64,
               plugins/legacyArray.hpp `slice`), i.e. undefined behaviour with `NDEBUG`.
* `divz`     – a floating-point division by zero in the models over the reals (in the code the result is an infinity
               or a NaN).
* `diverge`  – used only by models with an explicit recursion budget: the budget ran out. -/
inductive Err where
  | check
  | runtime (code : Nat)
  | ub
  | divz
  | diverge
  deriving DecidableEq, Repr

/-- Memory: a value for every cell. `L` is the type of cells (addresses). -/
abbrev Store (L T : Type) := L → T

/-- A routine: reads and writes the store, may fail.  C++ functions that mutate their
reference arguments become functions of this type.  The store is kept when an exception is
thrown: what has been written before the `throw` stays written. -/
def M (L T α : Type) := Store L T → Except Err α × Store L T

namespace M
variable {L T α β : Type}

protected def pure (a : α) : M L T α := fun μ => (.ok a, μ)
protected def bind (x : M L T α) (f : α → M L T β) : M L T β := fun μ =>
  match x μ with
  | (.ok a, ν) => f a ν
  | (.error e, ν) => (.error e, ν)

instance : Monad (M L T) where
  pure := M.pure
  bind := M.bind

/-- Abort with an error. -/
def fail (e : Err) : M L T α := fun μ => (.error e, μ)

end M

/-- `tlapack_check(cond)` (exceptionHandling.hpp:99-103): throw `std::domain_error` unless `c`. -/
def check {L T : Type} (c : Bool) : M L T Unit := if c then pure () else M.fail .check

/-- `tlapack_error(k, ..)` (exceptionHandling.hpp:146-148). -/
def error {L T α : Type} (k : Nat) : M L T α := M.fail (.runtime k)

/-- Point update of the store. -/
def upd {L T : Type} [DecidableEq L] (μ : Store L T) (l : L) (v : T) : Store L T :=
  fun l' => if l' = l then v else μ l'

/-- A matrix argument: its sizes `nrows`, `ncols` and the cell of entry `(i,j)`.
Models any class satisfying the library's Matrix concept
(/repo/include/tlapack/base/concepts.hpp); `LegacyMatrix` is an instance (Layout.lean). -/
structure MatV (L : Type) where
  m : Nat
  n : Nat
  cell : Nat → Nat → L

/-- A vector argument: its size and the cell of entry `i`. -/
structure VecV (L : Type) where
  n : Nat
  cell : Nat → L

section access
variable {L T : Type}

/-- Read `A(i,j)`; out of range is `ub` (LegacyMatrix.hpp:43-51). -/
def MatV.get (A : MatV L) (i j : Nat) : M L T T := fun μ =>
  if i < A.m ∧ j < A.n then (.ok (μ (A.cell i j)), μ) else (.error .ub, μ)

/-- Write `A(i,j) = v`; out of range is `ub` (LegacyMatrix.hpp:53-61). -/
def MatV.set [DecidableEq L] (A : MatV L) (i j : Nat) (v : T) : M L T Unit := fun μ =>
  if i < A.m ∧ j < A.n then (.ok (), upd μ (A.cell i j) v) else (.error .ub, μ)

/-- Read `x[i]` (LegacyVector.hpp:49-55). -/
def VecV.get (x : VecV L) (i : Nat) : M L T T := fun μ =>
  if i < x.n then (.ok (μ (x.cell i)), μ) else (.error .ub, μ)

/-- Write `x[i] = v` (LegacyVector.hpp:57-63). -/
def VecV.set [DecidableEq L] (x : VecV L) (i : Nat) (v : T) : M L T Unit := fun μ =>
  if i < x.n then (.ok (), upd μ (x.cell i) v) else (.error .ub, μ)

/-- `A(i,j) = f(A(i,j))`, used for the compound assignments `+=`, `-=`, `*=`, `/=`. -/
def MatV.modify [DecidableEq L] (A : MatV L) (i j : Nat) (f : T → T) : M L T Unit := do
  let v ← A.get i j
  A.set i j (f v)

/-- `x[i] = f(x[i])`, used for the compound assignments. -/
def VecV.modify [DecidableEq L] (x : VecV L) (i : Nat) (f : T → T) : M L T Unit := do
  let v ← x.get i
  x.set i (f v)

/-- The sub-view of rows `r0..r1-1`, columns `c0..c1-1`
(address part of plugins/legacyArray.hpp:399-418; see Layout.lean for the address arithmetic). -/
def MatV.sub (A : MatV L) (r0 r1 c0 c1 : Nat) : MatV L :=
  ⟨r1 - r0, c1 - c0, fun i j => A.cell (r0 + i) (c0 + j)⟩

/-- Part of row `i` as a vector (plugins/legacyArray.hpp:422-437). -/
def MatV.rowv (A : MatV L) (i c0 c1 : Nat) : VecV L :=
  ⟨c1 - c0, fun j => A.cell i (c0 + j)⟩

/-- Part of column `j` as a vector (plugins/legacyArray.hpp:440-455). -/
def MatV.colv (A : MatV L) (r0 r1 j : Nat) : VecV L :=
  ⟨r1 - r0, fun i => A.cell (r0 + i) j⟩

/-- Part of a vector (plugins/legacyArray.hpp:562-574). -/
def VecV.sub (x : VecV L) (a b : Nat) : VecV L :=
  ⟨b - a, fun i => x.cell (a + i)⟩

/-- `slice(A, {r0,r1}, {c0,c1})` with the asserts of plugins/legacyArray.hpp:405-412. -/
def MatV.slice (A : MatV L) (r0 r1 c0 c1 : Nat) : M L T (MatV L) :=
  if ((r0 < A.m ∨ r0 = r1) ∧ r1 ≤ A.m ∧ r0 ≤ r1) ∧
     ((c0 < A.n ∨ c0 = c1) ∧ c1 ≤ A.n ∧ c0 ≤ c1)
  then pure (A.sub r0 r1 c0 c1) else M.fail .ub

/-- The asserts of `slice(A, {r0,r1}, {c0,c1})` alone (plugins/legacyArray.hpp:405-412); used where
the sub-view `A.sub r0 r1 c0 c1` is an argument of a recursive call. -/
def MatV.sliceChk (A : MatV L) (r0 r1 c0 c1 : Nat) : M L T Unit :=
  if ((r0 < A.m ∨ r0 = r1) ∧ r1 ≤ A.m ∧ r0 ≤ r1) ∧
     ((c0 < A.n ∨ c0 = c1) ∧ c1 ≤ A.n ∧ c0 ≤ c1)
  then pure () else M.fail .ub

/-- `slice(A, i, {c0,c1})` with the asserts of plugins/legacyArray.hpp:428-432. -/
def MatV.sliceRow (A : MatV L) (i c0 c1 : Nat) : M L T (VecV L) :=
  if ((c0 < A.n ∨ c0 = c1) ∧ c1 ≤ A.n ∧ c0 ≤ c1) ∧ i < A.m
  then pure (A.rowv i c0 c1) else M.fail .ub

/-- `slice(A, {r0,r1}, j)` with the asserts of plugins/legacyArray.hpp:446-450. -/
def MatV.sliceCol (A : MatV L) (r0 r1 j : Nat) : M L T (VecV L) :=
  if ((r0 < A.m ∨ r0 = r1) ∧ r1 ≤ A.m ∧ r0 ≤ r1) ∧ j < A.n
  then pure (A.colv r0 r1 j) else M.fail .ub

/-- `slice(x, {a,b})` with the asserts of plugins/legacyArray.hpp:567-570. -/
def VecV.slice (x : VecV L) (a b : Nat) : M L T (VecV L) :=
  if (a < x.n ∨ a = b) ∧ b ≤ x.n ∧ a ≤ b then pure (x.sub a b) else M.fail .ub

end access

/-! ### Loops -/

section loops
variable {L T σ : Type}

/-- `cnt` iterations `i = lo, lo+1, ..` with loop-carried local state `s`. -/
def forUpN (lo : Nat) : (cnt : Nat) → σ → (Nat → σ → M L T σ) → M L T σ
  | 0, s, _ => pure s
  | c + 1, s, body => do
    let s' ← body lo s
    forUpN (lo + 1) c s' body

/-- `for (idx_t i = lo; i < hi; ++i) body` with loop-carried local variables `s`. -/
def forUp (lo hi : Nat) (s : σ) (body : Nat → σ → M L T σ) : M L T σ :=
  forUpN lo (hi - lo) s body

/-- `cnt` iterations `i = lo+cnt-1, .., lo`. -/
def forDownN (lo : Nat) : (cnt : Nat) → σ → (Nat → σ → M L T σ) → M L T σ
  | 0, s, _ => pure s
  | c + 1, s, body => do
    let s' ← body (lo + c) s
    forDownN lo c s' body

/-- `for (idx_t i = hi - 1; i != lo - 1; --i) body`; with `lo = 0` this is the idiom
`for (idx_t i = hi - 1; i != idx_t(-1); --i)` (e.g. blas/trsm.hpp:108), see C19 for the
wrap-around justification. -/
def forDown (lo hi : Nat) (s : σ) (body : Nat → σ → M L T σ) : M L T σ :=
  forDownN lo (hi - lo) s body

/-- Ascending loop whose body only acts on memory. -/
def forUp_ (lo hi : Nat) (body : Nat → M L T Unit) : M L T Unit :=
  forUp lo hi () (fun i _ => body i)

/-- Descending loop whose body only acts on memory. -/
def forDown_ (lo hi : Nat) (body : Nat → M L T Unit) : M L T Unit :=
  forDown lo hi () (fun i _ => body i)

/-- Ascending loop that may `return r` from the enclosing function: the body yields
`.inl s'` to go on and `.inr r` to return `r`. -/
def forRetN {ρ : Type} (lo : Nat) :
    (cnt : Nat) → σ → (Nat → σ → M L T (σ ⊕ ρ)) → M L T (σ ⊕ ρ)
  | 0, s, _ => pure (.inl s)
  | c + 1, s, body => do
    match ← body lo s with
    | .inl s' => forRetN (lo + 1) c s' body
    | .inr r => pure (.inr r)

def forRet {ρ : Type} (lo hi : Nat) (s : σ) (body : Nat → σ → M L T (σ ⊕ ρ)) :
    M L T (σ ⊕ ρ) :=
  forRetN lo (hi - lo) s body

end loops

/-- Pure ascending fold: the value of `for (i = lo; i < hi; ++i) s = f(i, s)`. -/
def foldUpN {σ : Type} (lo : Nat) : (cnt : Nat) → σ → (Nat → σ → σ) → σ
  | 0, s, _ => s
  | c + 1, s, f => foldUpN (lo + 1) c (f lo s) f

def foldUp {σ : Type} (lo hi : Nat) (s : σ) (f : Nat → σ → σ) : σ :=
  foldUpN lo (hi - lo) s f

/-- Pure descending fold. -/
def foldDownN {σ : Type} (lo : Nat) : (cnt : Nat) → σ → (Nat → σ → σ) → σ
  | 0, s, _ => s
  | c + 1, s, f => foldDownN lo c (f (lo + c) s) f

def foldDown {σ : Type} (lo hi : Nat) (s : σ) (f : Nat → σ → σ) : σ :=
  foldDownN lo (hi - lo) s f

/-! ### Option enums (/repo/include/tlapack/base/types.hpp) -/

/-- `enum class Op` (base/types.hpp:226-231). -/
inductive Op where
  | NoTrans | Trans | ConjTrans | Conj
  deriving DecidableEq, Repr

/-- `enum class Uplo` (base/types.hpp:48-56). -/
inductive Uplo where
  | General | Upper | Lower | UpperHessenberg | LowerHessenberg | StrictUpper | StrictLower
  deriving DecidableEq, Repr

/-- `enum class Diag` (base/types.hpp:194-197). -/
inductive Diag where
  | NonUnit | Unit
  deriving DecidableEq, Repr

/-- `enum class Side` (base/types.hpp:268-272). -/
inductive Side where
  | Left | Right | Both
  deriving DecidableEq, Repr

/-- The coefficient `beta`: either a scalar or `StrongZero`
(/repo/include/tlapack/base/StrongZero.hpp:43). -/
inductive Coef (T : Type) where
  | strongZero
  | val (b : T)

/-- `c *= beta`: StrongZero.hpp:84-88 (`operator*=`: `lhs = T(0)`), ordinary product otherwise. -/
def Coef.mulAssign {T : Type} [Zero T] [Mul T] (c : T) : Coef T → T
  | .strongZero => 0
  | .val b => c * b

/-- `x + beta * c`: StrongZero.hpp:136-146 (`operator*` gives a StrongZero) and 110-114
(`x + StrongZero` is `x`), ordinary arithmetic otherwise. -/
def Coef.addMul {T : Type} [Add T] [Mul T] (x : T) (c : T) : Coef T → T
  | .strongZero => x
  | .val b => x + b * c

/-- `beta * c + x`, the operands in the other order: StrongZero.hpp:104-108. -/
def Coef.mulAdd {T : Type} [Add T] [Mul T] (c : T) (x : T) : Coef T → T
  | .strongZero => x
  | .val b => b * c + x

/-- `T(beta * c)`: StrongZero.hpp:136-146 and 63-67. -/
def Coef.mulVal {T : Type} [Zero T] [Mul T] (c : T) : Coef T → T
  | .strongZero => 0
  | .val b => b * c

/-- The scalar value of a coefficient (`T(beta)`, StrongZero.hpp:63-67). -/
def Coef.toVal {T : Type} [Zero T] : Coef T → T
  | .strongZero => 0
  | .val b => b

/-- `real(x)`, `imag(x)` embedded in the scalar type (base/utils.hpp:55-90, `std::real`).
Simplification: the real type is identified with the self-adjoint elements of `T`. -/
class ReIm (T : Type) where
  re : T → T
  im : T → T

export ReIm (re im)

/-- Exact scalars: a field with a conjugation, such as the reals, the complex numbers or the
rationals.  (Only used by algebraic theorems, never by the model.) -/
class ExactScalar (T : Type) [Field T] [StarRing T] [ReIm T] : Prop where
  re_add : ∀ a b : T, re (a + b) = re a + re b
  re_mul : ∀ a b : T, re (a * b) = re a * re b - im a * im b
  star_re : ∀ a : T, star (re a) = re a
  star_im : ∀ a : T, star (im a) = im a
  re_of_star : ∀ a : T, star a = a → re a = a
  im_of_star : ∀ a : T, star a = a → im a = 0
  re_star : ∀ a : T, re (star a) = re a
  im_star : ∀ a : T, im (star a) = - im a
  add_star : ∀ a : T, a + star a = re a + re a

end TLA
