import Verif.SpecEig
import Verif.SpecSchur
import Verif.Core
import Verif.Spec

/-! # Vocabulary of the bidiagonal singular value problem -/

namespace TLA

/-- The real bidiagonal matrix with diagonal `d` and off-diagonal `e`, lower or upper. -/
def bidR (lower : Bool) (d e : Nat → ℝ) : Nat → Nat → ℝ := fun i j =>
  if i = j then d i else if lower = false ∧ i + 1 = j then e i else if lower = true ∧ j + 1 = i then e j else 0

/-- The first `n` columns of a matrix. -/
def MatV.firstCols {L : Type} (U : MatV L) (n : Nat) : MatV L := ⟨U.m, n, U.cell⟩

/-- The first `n` rows of a matrix. -/
def MatV.firstRows {L : Type} (V : MatV L) (n : Nat) : MatV L := ⟨n, V.n, V.cell⟩

open Matrix in
/-- Bound for what svd_qr neglects at a time: `n` times the safe minimum or 100 units in the last place of the norm. -/
noncomputable def svdTol (n : Nat) (eps safmin nrm : ℝ) : ℝ := max (n * safmin) (100 * eps * nrm)

open Matrix in
/-- The bidiagonal `B` of order `n` is, up to a small `E`, `P B' Q` with orthogonal `P`, `Q` and `B'` upper bidiagonal with entries `d'`, `e'`;
the first `n` columns of `U` are multiplied by `P` and the first `n` rows of `Vt` by `Q`, up to positive diagonal factors whose squares differ
from 1 by at most `2 eps^2`; nothing else is written. -/
def BidOK {L 𝕜 : Type} [RCLike 𝕜] (n : Nat) (eps safmin : ℝ) (wu wv : Bool) (U V : MatV L) (μ : Store L 𝕜)
    (B : Matrix (Fin n) (Fin n) ℝ) (d' e' : Nat → ℝ) (ν : Store L 𝕜) : Prop :=
  ∃ (P Q E : Matrix (Fin n) (Fin n) ℝ) (δ1 δ2 : Fin n → ℝ), Pᵀ * P = 1 ∧ Q * Qᵀ = 1 ∧
    B + E = P * mat n n (bidR false d' e') * Q ∧ frobN E ≤ (n - 1 : ℕ) * svdTol n eps safmin (frobN B) ∧
    (∀ i, 0 < δ1 i ∧ |δ1 i ^ 2 - 1| ≤ 2 * eps ^ 2) ∧ (∀ i, 0 < δ2 i ∧ |δ2 i ^ 2 - 1| ≤ 2 * eps ^ 2) ∧
    (wu = true → mat U.m n (entry ν U) = mat U.m n (entry μ U) * (P * diagonal δ1).map (fun x : ℝ => (x : 𝕜))) ∧
    (wv = true → mat n V.n (entry ν V) = (diagonal δ2 * Q).map (fun x : ℝ => (x : 𝕜)) * mat n V.n (entry μ V)) ∧
    ∀ l, ¬ (wu = true ∧ (U.firstCols n).Owns l) → ¬ (wv = true ∧ (V.firstRows n).Owns l) → ν l = μ l

open Matrix in
/-- Singular value decomposition of an `m` by `n` matrix with `k = min m n`: `A + E = W S X` with unitary `W`, `X`, a small `E` and `S` holding the
upper bidiagonal matrix with entries `s`, `e'` in its leading `k` by `k` block.  The columns of `U` are the first columns of `W` and
the rows of `Vt` the first rows of `X`, up to positive factors whose squares differ from 1 by at most `2 eps^2`. -/
def GesvdOK {L 𝕜 : Type} [RCLike 𝕜] (m n : Nat) (eps safmin : ℝ) (wu wv : Bool) (U V : MatV L) (A : Matrix (Fin m) (Fin n) 𝕜)
    (s e' : Nat → ℝ) (ν : Store L 𝕜) : Prop :=
  ∃ (W : Matrix (Fin m) (Fin m) 𝕜) (X : Matrix (Fin n) (Fin n) 𝕜) (E : Matrix (Fin m) (Fin n) 𝕜) (δ1 δ2 : Nat → ℝ),
    Wᴴ * W = 1 ∧ Xᴴ * X = 1 ∧
    A + E = W * mat m n (fun i j => if i < min m n ∧ j < min m n then ((bidR false s e' i j : ℝ) : 𝕜) else 0) * X ∧
    frobM E ≤ (min m n - 1 : ℕ) * svdTol (min m n) eps safmin (frobM A) ∧
    (∀ i, 0 < δ1 i ∧ |δ1 i ^ 2 - 1| ≤ 2 * eps ^ 2) ∧ (∀ i, 0 < δ2 i ∧ |δ2 i ^ 2 - 1| ≤ 2 * eps ^ 2) ∧
    (wu = true → ∀ i j : Fin m, (j : Nat) < U.n → entry ν U i j = W i j * (δ1 j : ℝ)) ∧
    (wv = true → ∀ i j : Fin n, (i : Nat) < V.m → entry ν V i j = (δ2 i : ℝ) * X i j)

end TLA
