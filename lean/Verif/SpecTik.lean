import Mathlib.Analysis.RCLike.Basic
import Mathlib.LinearAlgebra.Matrix.ConjTranspose
import Verif.SpecBlk
import Verif.Model.Tik

/-!
# Vocabulary of the Tikhonov property
-/

namespace TLA
open Finset
variable {L 𝕜 : Type} [RCLike 𝕜]

/-- The regularised residual `‖A y - b‖² + lam² ‖y‖²`. -/
noncomputable def tikhonov {m n : Nat} (A : Matrix (Fin m) (Fin n) 𝕜) (b : Fin m → 𝕜) (lam : ℝ) (y : Fin n → 𝕜) : ℝ :=
  ∑ r, ‖A.mulVec y r - b r‖ ^ 2 + lam ^ 2 * ∑ c, ‖y c‖ ^ 2

/-- Admissible call of tik_qr: `A` has at least as many rows as columns, the local arrays have the sizes the routine
allocates, and distinct objects do not overlap. -/
structure TikOK (nb : Nat) (A b : MatV L) (tau1 : VecV L) (Raug : MatV L) (tau2 : VecV L) (baug : MatV L) (work : VecV L) : Prop where
  hmn : A.n ≤ A.m
  hbm : b.m = A.m
  hnb : 0 < nb
  t1n : tau1.n = A.n
  t2n : tau2.n = A.n
  Rm : Raug.m = A.n + A.n
  Rn : Raug.n = A.n
  gm : baug.m = A.n + A.n
  gn : baug.n = b.n
  w1 : (geqrfWorksize A nb).size ≤ work.n
  w2 : (unmqBlkWorksize .Left b A.n nb).size ≤ work.n
  w3 : (geqrfWorksize Raug nb).size ≤ work.n
  w4 : (unmqBlkWorksize .Left baug A.n nb).size ≤ work.n
  Ainj : A.Inj
  binj : b.Inj
  t1inj : tau1.Inj
  Rinj : Raug.Inj
  t2inj : tau2.Inj
  ginj : baug.Inj
  winj : work.Inj
  dAb : A.Disj b
  dAt : A.DisjV tau1
  dAw : A.DisjV work
  dtw : tau1.Disj work
  dtb : tau1.DisjM b
  dbw : b.DisjV work
  dAR : A.Disj Raug
  dbR : b.Disj Raug
  dRt : Raug.DisjV tau2
  dRw : Raug.DisjV work
  duw : tau2.Disj work
  dbu : b.DisjV tau2
  dbg : b.Disj baug
  dRg : Raug.Disj baug
  dug : tau2.DisjM baug
  dgw : baug.DisjV work

end TLA
