import Verif.Model.Blas1
import Verif.Model.Sort
import Verif.Model.Kernel

/-!
# Model of steqr

The arrays `d` and `e` are real while `Z` may be complex: they are values (`RArr`) that a routine returns.
-/

namespace TLA
open Kernel
variable {L T : Type} [DecidableEq L]

/-- A real array argument. -/
structure RArr where
  n : Nat
  f : Nat → ℝ

/-- `d[i]`. -/
def RArr.get (d : RArr) (i : Nat) : M L T ℝ := if i < d.n then pure (d.f i) else M.fail .ub

/-- `d[i] = v`. -/
def RArr.set (d : RArr) (i : Nat) (v : ℝ) : M L T RArr :=
  if i < d.n then pure ⟨d.n, fun k => if k = i then v else d.f k⟩ else M.fail .ub

/-- Result of a scalar kernel of Model/Kernel.lean. -/
def liftO {α : Type} : Option α → M L T α
  | none => M.fail .divz
  | some a => pure a

/-- `lasrt('I', n, d)` (lapack/lasrt.hpp) with `n = size(d)`, on an array that is a value. -/
noncomputable def RArr.sortInc (d : RArr) : M L T RArr := fun μ =>
  match (lasrt (fun x y : ℝ => decide (x < y)) (2 * d.n) 'I' d.n (⟨d.n, id⟩ : VecV Nat) : M Nat ℝ Int) d.f with
  | (.ok _, f) => (.ok ⟨d.n, f⟩, μ)
  | (.error e, _) => (.error e, μ)

section
variable [Zero T] [One T] [Add T] [Mul T] [Sub T] [Neg T] [Star T] [DecidableEq T]

/-- `rot(col(Z, i), col(Z, j), c, s)` if vectors are wanted (lapack/steqr.hpp:150-152, 198-202, 232-236). -/
def stqRot (emb : ℝ → T) (wantz : Bool) (Z : MatV L) (i j : Nat) (c s : ℝ) : M L T Unit :=
  if wantz then do
    let z1 ← Z.sliceCol 0 Z.m i
    let z2 ← Z.sliceCol 0 Z.m j
    rot z1 z2 (emb c) (emb s)
  else pure ()

/-- lapack/steqr.hpp:127-134: look for a negligible off-diagonal entry, from `i` down to `istart + 1`; returns the
new `istart` and `e`. -/
noncomputable def stqScan (p : RotPar) (istart : Nat) (d : RArr) : Nat → RArr → M L T (Nat × RArr)
  | 0, e => pure (istart, e)
  | i + 1, e =>
    if i + 1 > istart then do
      let ei ← e.get i
      let d0 ← d.get i
      let d1 ← d.get (i + 1)
      if ei * ei ≤ p.ulp * p.ulp * |d0| * |d1| + p.safmin then do
        let e ← e.set i 0
        pure (i + 1, e)
      else stqScan p istart d i e
    else pure (istart, e)

/-- The local variables of a sweep. -/
structure StqSw where
  g : ℝ
  s : ℝ
  c : ℝ
  p : ℝ
  d : RArr
  e : RArr

/-- lapack/steqr.hpp:177-180, 211-214: the shifted entry.  `p` is the diagonal entry at the end the shift is taken
from, `q` its neighbour, `ee` the entry that couples them, `dd` the diagonal entry at the other end. -/
noncomputable def stqShift (p q ee dd : ℝ) : M L T ℝ := do
  let g ← liftO (dv (q - p) (2 * ee))
  let r := lapy2R g 1
  let t ← liftO (dv ee (g + sgn g * r))
  pure (dd - p + t)

/-- lapack/steqr.hpp:187-203, one pass of the QR sweep. -/
noncomputable def stqFwdStep (p : RotPar) (emb : ℝ → T) (wantz : Bool) (Z : MatV L) (istart i : Nat) (x : StqSw) :
    M L T StqSw := do
  let ei ← x.e.get i
  let f := x.s * ei
  let b := x.c * ei
  let (c, s, r) ← liftO (lartg p x.g f)
  let e ← (if i ≠ istart then x.e.set (i - 1) r else pure x.e : M L T RArr)
  let di ← x.d.get i
  let g := di - x.p
  let d1 ← x.d.get (i + 1)
  let r := (d1 - g) * s + 2 * c * b
  let pp := s * r
  let d ← x.d.set i (g + pp)
  let g := c * r - b
  stqRot emb wantz Z i (i + 1) c s
  pure ⟨g, s, c, pp, d, e⟩

/-- lapack/steqr.hpp:177-205: QR sweep from top to bottom. -/
noncomputable def stqFwd (p : RotPar) (emb : ℝ → T) (wantz : Bool) (Z : MatV L) (istart istop : Nat) (d e : RArr) :
    M L T (RArr × RArr) := do
  let p0 ← d.get (istop - 1)
  let q ← d.get (istop - 2)
  let ee ← e.get (istop - 2)
  let dd ← d.get istart
  let g ← stqShift p0 q ee dd
  let x ← forUp istart (istop - 1) (⟨g, 1, 1, 0, d, e⟩ : StqSw) (stqFwdStep p emb wantz Z istart)
  let dl ← x.d.get (istop - 1)
  let d ← x.d.set (istop - 1) (dl - x.p)
  let e ← x.e.set (istop - 2) x.g
  pure (d, e)

/-- lapack/steqr.hpp:221-237, one pass of the QL sweep. -/
noncomputable def stqBwdStep (p : RotPar) (emb : ℝ → T) (wantz : Bool) (Z : MatV L) (istop i : Nat) (x : StqSw) :
    M L T StqSw := do
  let ei ← x.e.get (i - 1)
  let f := x.s * ei
  let b := x.c * ei
  let (c, s, r) ← liftO (lartg p x.g f)
  let e ← (if i ≠ istop - 1 then x.e.set i r else pure x.e : M L T RArr)
  let di ← x.d.get i
  let g := di - x.p
  let d1 ← x.d.get (i - 1)
  let r := (d1 - g) * s + 2 * c * b
  let pp := s * r
  let d ← x.d.set i (g + pp)
  let g := c * r - b
  stqRot emb wantz Z i (i - 1) c s
  pure ⟨g, s, c, pp, d, e⟩

/-- lapack/steqr.hpp:211-239: QL sweep from bottom to top. -/
noncomputable def stqBwd (p : RotPar) (emb : ℝ → T) (wantz : Bool) (Z : MatV L) (istart istop : Nat) (d e : RArr) :
    M L T (RArr × RArr) := do
  let p0 ← d.get istart
  let q ← d.get (istart + 1)
  let ee ← e.get istart
  let dd ← d.get (istop - 1)
  let g ← stqShift p0 q ee dd
  let x ← forDown (istart + 1) istop (⟨g, 1, 1, 0, d, e⟩ : StqSw) (stqBwdStep p emb wantz Z istop)
  let dl ← x.d.get istart
  let d ← x.d.set istart (dl - x.p)
  let e ← x.e.set istart x.g
  pure (d, e)

/-- The state of the main loop; `old` is `(istart_old, istop_old)`, `none` standing for the initial values `-1` (the
largest unsigned number). -/
structure StqSt where
  istart : Nat
  istop : Nat
  old : Option (Nat × Nat)
  fwd : Bool
  d : RArr
  e : RArr

/-- lapack/steqr.hpp:144-164: a 2 by 2 block. -/
noncomputable def stqTwo (emb : ℝ → T) (wantz : Bool) (Z : MatV L) (istart : Nat) (d e : RArr) :
    M L T (RArr × RArr) := do
  let a ← d.get istart
  let b ← e.get istart
  let c ← d.get (istart + 1)
  let (s1, s2) ← (if wantz then do
      let ((s1, s2), (cs, sn)) ← liftO (laev2 a b c)
      stqRot emb true Z istart (istart + 1) cs sn
      pure (s1, s2)
    else liftO (lae2 a b c) : M L T (ℝ × ℝ))
  let d ← d.set istart s1
  let d ← d.set (istart + 1) s2
  let e ← e.set istart 0
  pure (d, e)

/-- lapack/steqr.hpp:167-169: choice of the direction of the sweep. -/
noncomputable def stqDir (x : StqSt) (istart : Nat) (d0 d1 : ℝ) : Bool :=
  let redo : Bool := match x.old with
    | none => true
    | some (a, b) => decide (istart ≥ b) || decide (x.istop ≤ a)
  if redo then decide (|d0| > |d1|) else x.fwd

/-- lapack/steqr.hpp:127-240: one iteration, `istop > 1`. -/
noncomputable def stqIter (p : RotPar) (emb : ℝ → T) (wantz : Bool) (Z : MatV L) (x : StqSt) : M L T StqSt := do
  let (istart, e) ← stqScan p x.istart x.d (x.istop - 1) x.e
  if istart = x.istop - 1 then pure { x with istop := x.istop - 1, istart := 0, e := e }
  else if istart + 1 = x.istop - 1 then do
    let (d, e) ← stqTwo emb wantz Z istart x.d e
    pure { x with istop := x.istop - 2, istart := 0, d := d, e := e }
  else do
    let d0 ← x.d.get istart
    let d1 ← x.d.get (x.istop - 1)
    let fwd := stqDir x istart d0 d1
    let (d, e) ← (if fwd then stqFwd p emb wantz Z istart x.istop x.d e
      else stqBwd p emb wantz Z istart x.istop x.d e : M L T (RArr × RArr))
    pure ⟨istart, x.istop, some (istart, x.istop), fwd, d, e⟩

/-- lapack/steqr.hpp:115-241: the main loop with `k` iterations left.  The test `iter == itmax` inside the loop
`for (iter = 0; iter < itmax; iter++)` never holds: a loop that runs out of iterations goes on to the sorting. -/
noncomputable def stqLoop (p : RotPar) (emb : ℝ → T) (wantz : Bool) (Z : MatV L) : Nat → StqSt → M L T StqSt
  | 0, x => pure x
  | k + 1, x =>
    if x.istop ≤ 1 then pure x
    else do
      let y ← stqIter p emb wantz Z x
      stqLoop p emb wantz Z k y

/-- lapack/steqr.hpp:251-258: position and value of the smallest of `d[i..n-1]`. -/
noncomputable def stqMin (d : RArr) (i n : Nat) : M L T (Nat × ℝ) := do
  let p ← d.get i
  forUp (i + 1) n (i, p) fun j kp => do
    let dj ← d.get j
    if dj < kp.2 then pure (j, dj) else pure kp

/-- lapack/steqr.hpp:250-266: selection sort. -/
noncomputable def stqSort (Z : MatV L) (d : RArr) : M L T RArr :=
  forUp 0 (d.n - 1) d fun i d => do
    let (k, p) ← stqMin d i d.n
    if k ≠ i then do
      let di ← d.get i
      let d ← d.set k di
      let d ← d.set i p
      let z1 ← Z.sliceCol 0 Z.m i
      let z2 ← Z.sliceCol 0 Z.m k
      swap z1 z2
      pure d
    else pure d

/-- lapack/steqr.hpp:76-270; returns the code and the final `d`, `e`.  `emb` converts a real number to the type of
`Z`; `p.ulp`, `p.safmin` are `ulp`, `safe_min`. -/
noncomputable def steqr (p : RotPar) (emb : ℝ → T) (wantz : Bool) (d e : RArr) (Z : MatV L) : M L T (Nat × RArr × RArr) := do
  let n := d.n
  if n = 0 ∨ n = 1 then pure (0, d, e)
  else do
    let x ← stqLoop p emb wantz Z (30 * n) ⟨0, n, none, true, d, e⟩
    let d ← (if wantz then stqSort Z x.d else x.d.sortInc : M L T RArr)
    pure (0, d, x.e)

end
end TLA
