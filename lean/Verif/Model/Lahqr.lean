import Verif.Model.Rot
import Verif.Model.Steqr
import Verif.Model.Kernel

/-!
# Model of the small-bulge-free QR algorithm: lahqr

The single-shift algorithm for complex matrices (lapack/lahqr.hpp:419-634), and the deflation scan shared with the real
double-shift algorithm.
-/

namespace TLA
variable {L T : Type} [DecidableEq L]
variable [Zero T] [One T] [Add T] [Mul T] [Sub T] [Neg T] [Star T] [DecidableEq T]

/-- Scalar functions and machine constants used by lahqr (lahqr.hpp:90-96, 432-437): `abs1`, `abs`,
`eps = ulp`, `small_num = safe_min/ulp`. -/
structure HqrPar (T : Type) where
  abs1 : T → ℝ
  abs : T → ℝ
  eps : ℝ
  small : ℝ

/-- One step of the search for a negligible subdiagonal entry (lahqr.hpp:161-202, 496-537): `true` if `A(i,i-1)` was
set to zero.  For `i = n-1 = ihi-1` the test `i < ihi` lets `A(i+1,i)` be read outside of `A`. -/
noncomputable def hqrDefl (p : HqrPar T) (A : MatV L) (ilo ihi i : Nat) : M L T Bool := do
  let sub ← A.get i (i - 1)
  if p.abs1 sub ≤ p.small then do
    A.set i (i - 1) 0
    pure true
  else do
    let d0 ← A.get (i - 1) (i - 1)
    let d1 ← A.get i i
    let tst := p.abs1 d0 + p.abs1 d1
    let tst ← (if tst = 0 then do
        let t1 ← (if ilo + 2 ≤ i then do
          let x ← A.get (i - 1) (i - 2)
          pure (tst + p.abs x)
        else pure tst : M L T ℝ)
        if i < ihi then do
          let x ← A.get (i + 1) i
          pure (t1 + p.abs x)
        else pure t1
      else pure tst : M L T ℝ)
    if p.abs1 sub ≤ p.eps * tst then do
      let sup ← A.get (i - 1) i
      let aij := p.abs1 sub
      let aji := p.abs1 sup
      let ab := if aij > aji then aij else aji
      let ba := if aij < aji then aij else aji
      let aa := max (p.abs1 d1) (p.abs1 (d1 - d0))
      let bb := min (p.abs1 d1) (p.abs1 (d1 - d0))
      let s := aa + ab
      if s = 0 then M.fail .divz
      else if ba * (ab / s) ≤ max p.small (p.eps * (bb * (aa / s))) then do
        A.set i (i - 1) 0
        pure true
      else pure false
    else pure false

/-- `for (i = istop - 1; i > istart; --i)` with `break` on deflation (lahqr.hpp:160-203, 495-538); the argument is the
loop variable; returns the new `istart`. -/
noncomputable def hqrScan (p : HqrPar T) (A : MatV L) (ilo ihi istart : Nat) : Nat → M L T Nat
  | 0 => pure istart
  | i + 1 =>
    if istart < i + 1 then do
      let d ← hqrDefl p A ilo ihi (i + 1)
      if d then pure (i + 1) else hqrScan p A ilo ihi istart i
    else pure istart

/-- Rotation of lines `i`, `i+1` of `X` in positions `lo ≤ j < hi` (lahqr.hpp:611-615; with the transposed view and
`conj(sn)` also 617-621 and 624-628). -/
def hqrPairs (X : MatV L) (c s : T) (i lo hi : Nat) : M L T Unit :=
  forUp_ lo hi fun j => do
    let a ← X.get i j
    let b ← X.get (i + 1) j
    let tmp := c * a + s * b
    X.set (i + 1) j (-star s * a + c * b)
    X.set i j tmp

/-- `rotg` on two temporaries. -/
def hqrRotg (o : RotOps T) (a b : T) : M L T (T × T × T) :=
  match o.gen a b with
  | none => M.fail .ub
  | some (r, _, c, s) => pure (r, c, s)

/-- Search for two consecutive small subdiagonal entries (lahqr.hpp:582-592); the argument is the loop variable;
returns `istart2`. -/
noncomputable def hqrFind (o : RotOps T) (p : HqrPar T) (A : MatV L) (s1 : T) (istart : Nat) : Nat → M L T Nat
  | 0 => pure istart
  | i + 1 =>
    if istart < i + 1 then do
      let a ← A.get (i + 1) (i + 1)
      let h10 ← A.get (i + 2) (i + 1)
      let (_, _, sn) ← hqrRotg o (a - s1) h10
      let sub ← A.get (i + 1) i
      let sup ← A.get (i + 1) (i + 2)
      if p.abs1 (star sn * sub) ≤ p.eps * (p.abs1 sub + p.abs1 sup) then pure (i + 1)
      else hqrFind o p A s1 istart i
    else pure istart

/-- One step of the sweep (lahqr.hpp:596-629); `istart_m`, `istop_m` delimit the updated part. -/
def hqrStep (o : RotOps T) (wantz : Bool) (A Z : MatV L) (s1 : T) (istart istart2 istop istartM istopM i : Nat) :
    M L T Unit := do
  let (cs, sn) ← (if i = istart2 then do
      let a ← A.get i i
      let h10 ← A.get (i + 1) i
      let (_, cs, sn) ← hqrRotg o (a - s1) h10
      (if istart < i then do
        let x ← A.get i (i - 1)
        A.set i (i - 1) (x * cs)
      else pure () : M L T Unit)
      pure (cs, sn)
    else do
      let h00 ← A.get i (i - 1)
      let h10 ← A.get (i + 1) (i - 1)
      let (r, cs, sn) ← hqrRotg o h00 h10
      A.set i (i - 1) r
      A.set (i + 1) (i - 1) 0
      pure (cs, sn) : M L T (T × T))
  hqrPairs A cs sn i i istopM
  hqrPairs (rsView .Right A) cs (star sn) i istartM (min (i + 3) istop)
  if wantz then hqrPairs (rsView .Right Z) cs (star sn) i 0 A.n else pure ()

end TLA

namespace TLA
variable {L : Type} [DecidableEq L]

/-- Choice of the shift (lahqr.hpp:549-572). -/
noncomputable def hqrShift (p : HqrPar ℂ) (A : MatV L) (ilo istop kdefl : Nat) : M L ℂ ℂ := do
  let ann ← A.get (istop - 1) (istop - 1)
  let (a00, a01, a10, a11) ← (if kdefl % 10 = 0 then do
      let x ← A.get (istop - 1) (istop - 2)
      let s := p.abs x
      let s ← (if ilo + 2 < istop then do
        let y ← A.get (istop - 2) (istop - 3)
        pure (s + p.abs y)
      else pure s : M L ℂ ℝ)
      let a00 := ((0.75 : ℝ) * s : ℝ) + ann
      pure (a00, (((-0.4375 : ℝ) * s : ℝ) : ℂ), (s : ℂ), a00)
    else do
      let a00 ← A.get (istop - 2) (istop - 2)
      let a10 ← A.get (istop - 1) (istop - 2)
      let a01 ← A.get (istop - 2) (istop - 1)
      pure (a00, a01, a10, ann) : M L ℂ (ℂ × ℂ × ℂ × ℂ))
  let (s1, s2) ← liftO (Kernel.lahqrEig22C a00 a01 a10 a11)
  pure (if p.abs1 (s1 - ann) > p.abs1 (s2 - ann) then s2 else s1)

/-- `k_defl`, `istop`, `istart`. -/
structure HqrSt where
  kdefl : Nat
  istop : Nat
  istart : Nat

/-- One pass of the main loop (lahqr.hpp:471-630): `.inr r` returns `r` (`break` returns 0). -/
noncomputable def hqrPass (o : RotOps ℂ) (p : HqrPar ℂ) (wantt wantz : Bool) (ilo ihi itmax : Nat) (A : MatV L)
    (w : VecV L) (Z : MatV L) (iter : Nat) (x : HqrSt) : M L ℂ (HqrSt ⊕ Nat) :=
  if iter = itmax then pure (.inr x.istop)
  else if x.istop ≤ x.istart + 1 then do
    (if x.istart + 1 = x.istop then do
      let d ← A.get x.istart x.istart
      w.set x.istart d
    else pure () : M L ℂ Unit)
    pure (.inr 0)
  else do
    let istartM := if wantt then 0 else x.istart
    let istopM := if wantt then A.n else x.istop
    let istart ← hqrScan p A ilo ihi x.istart (x.istop - 1)
    if x.istop ≤ istart + 1 then do
      let d ← A.get istart istart
      w.set istart d
      pure (.inl ⟨0, istart, ilo⟩)
    else do
      let kdefl := x.kdefl + 1
      let s1 ← hqrShift p A ilo x.istop kdefl
      let istart2 ← (if istart + 2 < x.istop then hqrFind o p A s1 istart (x.istop - 2) else pure istart : M L ℂ Nat)
      forUp_ istart2 (x.istop - 1) fun i =>
        hqrStep o wantz A Z s1 istart istart2 x.istop istartM istopM i
      pure (.inl ⟨kdefl, x.istop, istart⟩)

/-- lapack/lahqr.hpp:419-634 for complex matrices.  `nh = ihi - ilo` is unsigned: `ihi < ilo` is not modelled (the
theorem assumes `ilo ≤ ihi`).  The loop runs for `iter ≤ itmax` and returns at `iter = itmax` at the latest. -/
noncomputable def lahqrC (o : RotOps ℂ) (p : HqrPar ℂ) (wantt wantz : Bool) (ilo ihi : Nat) (A : MatV L)
    (w : VecV L) (Z : MatV L) : M L ℂ Nat := do
  let n := A.n
  let nh := ihi - ilo
  check (!(decide (n ≠ A.m)))
  check (!(decide (w.n ≠ n)))
  (if wantz then check (!(decide (n ≠ Z.n) || decide (n ≠ Z.m))) else pure () : M L ℂ Unit)
  if nh = 0 then pure 0
  else do
    (if nh = 1 then do
      let d ← A.get ilo ilo
      w.set ilo d
    else pure () : M L ℂ Unit)
    let itmax := 30 * max 10 nh
    match ← forRet 0 (itmax + 1) (⟨0, ihi, ilo⟩ : HqrSt) (hqrPass o p wantt wantz ilo ihi itmax A w Z) with
    | .inl _ => pure 0
    | .inr r => pure r

end TLA
