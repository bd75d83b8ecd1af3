import Verif.SpecHouse
import Verif.Model.Reduce
import Mathlib.Analysis.RCLike.Basic

/-!
# Specification vocabulary for the two-sided reductions
-/

namespace TLA
variable {T : Type}

/-- The reflector vector kept in column `j` of `V`: entry 1 in row `j + off`, the stored entries in the
rows after it up to `hi`, zeros elsewhere. -/
def reflCol [Zero T] [One T] (off hi : Nat) (V : Nat → Nat → T) (j : Nat) : Nat → T := fun r =>
  if r = j + off then 1 else if j + off < r ∧ r < hi then V r j else 0

/-- The reflector vector kept in row `j` of `V`: entry 1 in column `j + off`, the conjugates of the stored
entries in the columns after it up to `hi`, zeros elsewhere. -/
def reflRow [Zero T] [One T] [Star T] (off hi : Nat) (V : Nat → Nat → T) (j : Nat) : Nat → T := fun c =>
  if c = j + off then 1 else if j + off < c ∧ c < hi then star (V j c) else 0

/-- The product `H_lo H_{lo+1} ... H_{lo+k-1}` of the reflectors `H_i = I - t_i u_i u_i^H` of order `q`. -/
def reflProd [Ring T] [StarRing T] (q lo k : Nat) (t : Nat → T) (u : Nat → Nat → T) : Matrix (Fin q) (Fin q) T :=
  ((List.range k).map fun i => mat q q (reflF (t (lo + i)) (u (lo + i)))).prod

/-- The unitary factor of gehd2: `H_ilo ... H_{ihi-2}`, the vector of `H_i` being kept below the
subdiagonal of column `i`. -/
def hessQ [Ring T] [StarRing T] (n ilo ihi : Nat) (V : Nat → Nat → T) (t : Nat → T) : Matrix (Fin n) (Fin n) T :=
  reflProd n ilo (ihi - 1 - ilo) t (reflCol 1 ihi V)

/-- The upper Hessenberg part. -/
def hessF [Zero T] (G : Nat → Nat → T) : Nat → Nat → T := fun r c => if c + 1 < r then 0 else G r c

/-- The sum of the squared moduli of the entries. -/
noncomputable def frobSq [RCLike T] (m n : Nat) (G : Nat → Nat → T) : ℝ :=
  ∑ r ∈ Finset.range m, ∑ c ∈ Finset.range n, ‖G r c‖ ^ 2

end TLA

namespace TLA
variable {T L : Type}

/-- The upper bidiagonal part. -/
def bidUF [Zero T] (G : Nat → Nat → T) : Nat → Nat → T := fun r c => if r = c ∨ r + 1 = c then G r c else 0

/-- The lower bidiagonal part. -/
def bidLF [Zero T] (G : Nat → Nat → T) : Nat → Nat → T := fun r c => if r = c ∨ c + 1 = r then G r c else 0

/-- The operands of gebd2 do not overlap. -/
structure BrdOK (A : MatV L) (tauv tauw work : VecV L) : Prop where
  qv : QrOK A tauv work
  qw : QrOK A tauw work
  vw : tauv.Disj tauw

end TLA

namespace TLA
variable {T : Type}

/-- The vector of reflector `i` of hetd2: Lower, entry 1 in row `i + 1` and the stored entries of column `i`
below it; Upper, entry 1 in row `i` and the stored entries of column `i + 1` above it. -/
def tridCol [Zero T] [One T] (uplo : Uplo) (n : Nat) (V : Nat → Nat → T) (i : Nat) : Nat → T :=
  if uplo = .Upper then fun r => if r = i then 1 else if r < i then V r (i + 1) else 0
  else reflCol 1 n V i

/-- The unitary factor of hetd2: `H_{n-2} ... H_0` (Upper), `H_0 ... H_{n-2}` (Lower). -/
def tridQ [Ring T] [StarRing T] (uplo : Uplo) (n : Nat) (V : Nat → Nat → T) (t : Nat → T) : Matrix (Fin n) (Fin n) T :=
  ((if uplo = .Upper then (List.range (n - 1)).reverse else List.range (n - 1)).map fun i =>
    mat n n (reflF (t i) (tridCol uplo n V i))).prod

/-- The tridiagonal part. -/
def htridF [Zero T] (G : Nat → Nat → T) : Nat → Nat → T := fun r c => if r ≤ c + 1 ∧ c ≤ r + 1 then G r c else 0

end TLA
