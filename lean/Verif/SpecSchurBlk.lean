import Verif.SpecSchur
import Verif.Props.Lasy2
import Verif.SpecHouse
import Verif.Proofs.HouseScalar
import Mathlib.LinearAlgebra.Matrix.Charpoly.Basic

/-!
# Vocabulary for the exchange of two diagonal blocks of a real Schur form
-/

namespace TLA
open Matrix
variable {L : Type}

/-- The diagonal blocks of order `n1` at `j0` and of order `n2` at `j0 + n1` are blocks of a block upper triangular matrix: everything below them and to the left
of them is zero. -/
structure SwWin (n j0 n1 n2 : Nat) (F : Nat → Nat → ℝ) : Prop where
  zl : ∀ r k, j0 ≤ r → r < n → k < j0 → F r k = 0
  zb : ∀ r k, j0 + (n1 + n2) ≤ r → r < n → k < j0 + (n1 + n2) → F r k = 0
  zm : ∀ r k, j0 + n1 ≤ r → r < j0 + (n1 + n2) → j0 ≤ k → k < j0 + n1 → F r k = 0

/-- The diagonal block of order `m` at `j`. -/
def blkM (F : Nat → Nat → ℝ) (j m : Nat) : Matrix (Fin m) (Fin m) ℝ := mat m m fun r k => F (j + r) (j + k)

/-- `G` has the two diagonal blocks of `F` in the opposite order: it is block upper triangular there with a first block of order `n2` that has the eigenvalues of the
second block of `F`, and the other way round; nothing else changed but the rows and columns of the two blocks. -/
structure SwExch (n j0 n1 n2 : Nat) (F G : Nat → Nat → ℝ) : Prop where
  win : SwWin n j0 n2 n1 G
  out : ∀ r k, r < n → k < n → (r < j0 ∨ j0 + (n1 + n2) ≤ r) → (k < j0 ∨ j0 + (n1 + n2) ≤ k) → G r k = F r k
  c1 : (blkM G j0 n2).charpoly = (blkM F (j0 + n1) n2).charpoly
  c2 : (blkM G (j0 + n2) n1).charpoly = (blkM F j0 n1).charpoly

/-- The two blocks of order two at `j0` and `j0 + 2` are separated: no change of the coefficients below `δ` makes the Sylvester equation singular; and its
solutions are below the overflow range of the norm computation.  `δ` bounds the smallest pivot that lasy2 accepts. -/
structure SwSep (hp : HhPar) (eps small : ℝ) (j0 : Nat) (F : Nat → Nat → ℝ) (δ : ℝ) : Prop where
  small : small ≤ δ
  big : ∀ r k, r < 2 → k < 2 → eps * |F (j0 + r) (j0 + k)| ≤ δ ∧ eps * |F (j0 + 2 + r) (j0 + 2 + k)| ≤ δ
  sep : ∀ E X, (∀ i j k l, |E i j k l| < δ) → Kernel.sylv (blkM F j0 2) (blkM F (j0 + 2) 2) (-1) E X = 0 → X = 0
  bnd : ∀ (s : ℝ) X, 0 < s → s ≤ 1 → blkM F j0 2 * X - X * blkM F (j0 + 2) 2 = s • mat 2 2 (fun r k => F (j0 + r) (j0 + 2 + k)) →
    ∀ i j, |X i j| ≤ hp.tbig / 4
  tbig : 4 ≤ hp.tbig

variable {wantq : Bool} {A Q B V D : MatV L}

/-- The local arrays `B`, `V`, `D` of the routine: no two of their elements share storage with each other or with `A` and `Q`. -/
structure SwScr (wantq : Bool) (A Q B V D : MatV L) : Prop where
  Bi : B.Inj
  Bm : B.m = 3
  Bn : B.n = 2
  Vi : V.Inj
  Vm : V.m = 4
  Vn : V.n = 2
  Di : D.Inj
  Dm : D.m = 4
  Dn : D.n = 4
  AB : A.Disj B
  AV : A.Disj V
  AD : A.Disj D
  QB : wantq = true → Q.Disj B
  QV : wantq = true → Q.Disj V
  QD : wantq = true → Q.Disj D
  DV : D.Disj V

/-- Two blocks of order two are separated; in the other cases the elements of the two blocks are below the overflow range of the norm computation. -/
def SwNum (hp : HhPar) (eps small : ℝ) (j0 n1 n2 : Nat) (F : Nat → Nat → ℝ) : Prop :=
  if n1 = 2 ∧ n2 = 2 then ∃ δ, SwSep hp eps small j0 F δ
  else ∀ r k, j0 ≤ r → r < j0 + 3 → j0 ≤ k → k < j0 + 3 → |F r k| ≤ hp.tbig / 4

/-- The local arrays. -/
def scrOwns (B V D : MatV L) (l : L) : Prop := B.Owns l ∨ V.Owns l ∨ D.Owns l

/-- The block of order two at `j` has a pair of complex conjugate eigenvalues. -/
def CplxBlk (F : Nat → Nat → ℝ) (j : Nat) : Prop := (blkM F j 2).trace ^ 2 < 4 * (blkM F j 2).det

end TLA
