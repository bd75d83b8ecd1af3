import Verif.SpecSchurBlk
import Verif.Model.SchurMove

/-!
# Vocabulary for moving a diagonal block of a real Schur form
-/

namespace TLA
open Matrix
variable {L : Type} [DecidableEq L]

/-- The block of order two at `j` is in standard form: equal diagonal elements, off-diagonal elements of opposite signs. -/
def StdBlk (F : Nat → Nat → ℝ) (j : Nat) : Prop := F j j = F (j + 1) (j + 1) ∧ F j (j + 1) * F (j + 1) j < 0

/-- From row `j` on, `F` of order `n` is in real Schur form with diagonal blocks of the orders in the list: one, or two in standard form. -/
def RSchur (n : Nat) (F : Nat → Nat → ℝ) : Nat → List Nat → Prop
  | j, [] => j = n
  | j, b :: l => (b = 1 ∨ b = 2 ∧ StdBlk F j) ∧ (∀ r k, j + b ≤ r → r < n → j ≤ k → k < j + b → F r k = 0) ∧ RSchur n F (j + b) l

/-- The characteristic polynomials of the diagonal blocks, in order. -/
noncomputable def blkPolys (F : Nat → Nat → ℝ) : Nat → List Nat → List (Polynomial ℝ)
  | _, [] => []
  | j, b :: l => (blkM F j b).charpoly :: blkPolys F (j + b) l

/-- The order of the block at row `i` as read off the matrix. -/
noncomputable def blkAt (n : Nat) (F : Nat → Nat → ℝ) (i : Nat) : Nat := open Classical in if i + 1 < n ∧ F (i + 1) i ≠ 0 then 2 else 1

/-- `i` is a row of the block of order `b` at `s`. -/
def InBlkRow (s b i : Nat) : Prop := s ≤ i ∧ i < s + b

/-- The states that a block of order `b` starting at row `h` in state `μ` goes through when it is exchanged with the next block again and again until it is at row
`e`. -/
inductive DownReach (run : Nat → Nat → Nat → M L ℝ Nat) (A : MatV L) (b h e : Nat) (μ : Store L ℝ) : Nat → Store L ℝ → Prop
  | refl : DownReach run A b h e μ h μ
  | step {i ν ν'} : DownReach run A b h e μ i ν → i ≠ e → run i b (blkAt A.n (entry ν A) (i + b)) ν = (.ok 0, ν') →
      DownReach run A b h e μ (i + blkAt A.n (entry ν A) (i + b)) ν'

/-- The order of the block above row `i`. -/
noncomputable def blkAbove (F : Nat → Nat → ℝ) (i : Nat) : Nat := open Classical in if 1 < i ∧ F (i - 1) (i - 2) ≠ 0 then 2 else 1

/-- The same for exchanges with the block above. -/
inductive UpReach (run : Nat → Nat → Nat → M L ℝ Nat) (A : MatV L) (b h e : Nat) (μ : Store L ℝ) : Nat → Store L ℝ → Prop
  | refl : UpReach run A b h e μ h μ
  | step {i ν ν'} : UpReach run A b h e μ i ν → i ≠ e → run (i - blkAbove (entry ν A) i) (blkAbove (entry ν A) i) b ν = (.ok 0, ν') →
      UpReach run A b h e μ (i - blkAbove (entry ν A) i) ν'

/-- In the second list the item at position `a` of the first has moved behind the `m` items that followed it. -/
def MovedDown {α : Type} (a m : Nat) (ps qs : List α) : Prop :=
  ∃ P1 p P2 P3, P1.length = a ∧ P2.length = m ∧ ps = P1 ++ p :: (P2 ++ P3) ∧ qs = P1 ++ (P2 ++ p :: P3)

/-- What an exchange at `j` of blocks of orders `n1`, `n2` needs (see C96): the numerical hypotheses, and that no exchanged block is one on which the standardization
fails (opposite off-diagonal elements, unequal diagonal elements). -/
def StepOK (hp : HhPar) (ro : RotOps ℝ) (eps small : ℝ) (wantq : Bool) (A Q B V D : MatV L) (j n1 n2 : Nat) (ν : Store L ℝ) : Prop :=
  SwNum hp eps small j n1 n2 (entry ν A) ∧
  ∀ ν1 x, schurExch (hhOps (𝕜 := ℝ) hp) ro eps small wantq A Q B V D j n1 n2 ν = (.ok x, ν1) →
    (n2 = 2 → entry ν1 A j j = entry ν1 A (j + 1) (j + 1) ∨ entry ν1 A j (j + 1) + entry ν1 A (j + 1) j ≠ 0) ∧
    (n1 = 2 → entry ν1 A (j + n2) (j + n2) = entry ν1 A (j + n2 + 1) (j + n2 + 1) ∨ entry ν1 A (j + n2) (j + n2 + 1) + entry ν1 A (j + n2 + 1) (j + n2) ≠ 0)

end TLA
