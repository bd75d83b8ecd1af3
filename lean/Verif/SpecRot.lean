import Verif.Spec
import Verif.Model.Layout
import Mathlib.Data.Matrix.Mul
import Mathlib.LinearAlgebra.Matrix.ConjTranspose

/-!
# Vocabulary for the routines built on plane rotations
-/

namespace TLA
open Matrix
variable {L T : Type}

/-- Entries of the plane rotation in coordinates `p`, `q`: the identity, except
`(p,p) = c`, `(p,q) = s`, `(q,p) = -conj s`, `(q,q) = c`. -/
def rotF [Zero T] [One T] [Neg T] [Star T] (p q : Nat) (c s : T) : Nat → Nat → T := fun i j =>
  if i = p then (if j = p then c else if j = q then s else 0)
  else if i = q then (if j = p then -star s else if j = q then c else 0)
  else if i = j then 1 else 0

/-- The plane rotation of order `n` in coordinates `p`, `q`. -/
def rotMat [Zero T] [One T] [Neg T] [Star T] (n p q : Nat) (c s : T) : Matrix (Fin n) (Fin n) T :=
  mat n n (rotF p q c s)

/-- `P(lo) P(lo+1) ⋯ P(hi-1)` with `P(i)` the rotation `c i`, `s i` in coordinates `i`, `i+1`. -/
def rotProd [Semiring T] [Neg T] [Star T] (n : Nat) (c s : Nat → T) (lo hi : Nat) : Matrix (Fin n) (Fin n) T :=
  ((List.range' lo (hi - lo)).map fun i => rotMat n i (i + 1) (c i) (s i)).prod

/-- `P(hi-1) ⋯ P(lo+1) P(lo)`. -/
def rotProdRev [Semiring T] [Neg T] [Star T] (n : Nat) (c s : Nat → T) (lo hi : Nat) :
    Matrix (Fin n) (Fin n) T :=
  ((List.range' lo (hi - lo)).reverse.map fun i => rotMat n i (i + 1) (c i) (s i)).prod

/-- `l` sequences of rotations, one per column of `c`, `s`: `Q(l-1) ⋯ Q(1) Q(0)` with `Q(j) = P(0,j) ⋯ P(n-2,j)` for
`Forward` and `Q(j) = P(n-2,j) ⋯ P(0,j)` for `Backward`. -/
def rotWave [Semiring T] [Neg T] [Star T] (dir : Direction) (n : Nat) (c s : Nat → Nat → T) (l : Nat) :
    Matrix (Fin n) (Fin n) T :=
  ((List.range l).reverse.map fun j => if dir = .Forward then rotProd n (fun i => c i j) (fun i => s i j) 0 (n - 1)
    else rotProdRev n (fun i => c i j) (fun i => s i j) 0 (n - 1)).prod

/-- `(c, s)` is a genuine rotation: real cosine and `c² + |s|² = 1`. -/
def IsRot [Semiring T] [Star T] (c s : T) : Prop := star c = c ∧ c * c + s * star s = 1

/-- Admissible arguments of hessenberg_rq: a square, non-empty `A`, vectors of length `n-1`, and no overlap between
what is written (`A`, `cr`, `sr`) and anything else. -/
structure HrqOK (A : MatV L) (cl sl cr sr : VecV L) : Prop where
  sq : A.m = A.n
  lcl : cl.n + 1 = A.n
  lsl : sl.n + 1 = A.n
  lcr : cr.n + 1 = A.n
  lsr : sr.n + 1 = A.n
  inj : A.Inj
  injc : cr.Inj
  injs : sr.Inj
  clA : cl.DisjM A
  slA : sl.DisjM A
  crA : cr.DisjM A
  srA : sr.DisjM A
  clcr : cl.Disj cr
  clsr : cl.Disj sr
  slcr : sl.Disj cr
  slsr : sl.Disj sr
  crsr : cr.Disj sr

/-- Admissible arguments of gghrd: four matrices of the same order; those that are written do not overlap. -/
structure GghrdOK (wantq wantz : Bool) (ilo ihi : Nat) (A B Q Z : MatV L) : Prop where
  lo : ilo < ihi
  hi : ihi ≤ A.n
  Am : A.m = A.n
  Bm : B.m = A.n
  Bn : B.n = A.n
  Qm : Q.m = A.n
  Qn : Q.n = A.n
  Zm : Z.m = A.n
  Zn : Z.n = A.n
  injA : A.Inj
  injB : B.Inj
  injQ : wantq = true → Q.Inj
  injZ : wantz = true → Z.Inj
  AB : A.Disj B
  AQ : wantq = true → A.Disj Q
  BQ : wantq = true → B.Disj Q
  AZ : wantz = true → A.Disj Z
  BZ : wantz = true → B.Disj Z
  QZ : wantq = true → wantz = true → Q.Disj Z

end TLA
