import Verif.Model.Steqr
import Verif.Model.Auxil
import Verif.Model.Lu

/-!
# Model of svd_qr

As in Model/Steqr.lean the real arrays `d`, `e` are values a routine returns.  A value that has just been stored in an array is kept in a
local variable where the code reads it back.
-/

namespace TLA
open Kernel
variable {L T : Type} [DecidableEq L]

/-- The scalar operations of `iamax` on real numbers. -/
noncomputable def rIamax : IamaxOps ℝ ℝ where
  isReal := true
  isnan := fun _ => false
  isinf := fun _ => false
  absf := fun x => .fin |x|
  absQ := fun x => .fin |1 / 4 * x|
  minusOne := -1

/-- `i + iamax(slice(d, range{i, n}))` (lapack/svd_qr.hpp:453-454); the default of iamax checks NaNs. -/
noncomputable def RArr.iamaxFrom (d : RArr) (i : Nat) : M L T Nat := fun μ =>
  match (iamaxEc rIamax (⟨d.n - i, fun k => i + k⟩ : VecV Nat) : M Nat ℝ (Option Nat)) d.f with
  | (.ok (some k), _) => (.ok (i + k), μ)
  | (.ok none, _) => (.error .ub, μ)
  | (.error e, _) => (.error e, μ)

section
variable [Zero T] [One T] [Add T] [Mul T] [Sub T] [Neg T] [Star T] [DecidableEq T]

/-- `rot(row(Vt, i), row(Vt, j), c, s)` if wanted (lapack/svd_qr.hpp:209-213, 324-328, 351-355, 393-397, 429-433). -/
def svRotRow (emb : ℝ → T) (want : Bool) (V : MatV L) (i j : Nat) (c s : ℝ) : M L T Unit :=
  if want then do
    let v1 ← V.sliceRow i 0 V.n
    let v2 ← V.sliceRow j 0 V.n
    rot v1 v2 (emb c) (emb s)
  else pure ()

/-- lapack/svd_qr.hpp:113-129: from lower to upper bidiagonal. -/
noncomputable def svLower (p : RotPar) (emb : ℝ → T) (wantu : Bool) (U : MatV L) (d e : RArr) : M L T (RArr × RArr) :=
  forUp 0 (d.n - 1) (d, e) fun i x => do
    let di ← x.1.get i
    let ei ← x.2.get i
    let (c, s, r) ← liftO (lartg p di ei)
    let d ← x.1.set i r
    let d1 ← d.get (i + 1)
    let e ← x.2.set i (s * d1)
    let d ← d.set (i + 1) (c * d1)
    stqRot emb wantu U i (i + 1) c s
    pure (d, e)

/-- `tolmul * eps` (lapack/svd_qr.hpp:104-106); the two quotients and roots are taken of positive numbers. -/
noncomputable def svTol (eps : ℝ) : ℝ := max 10 (min 100 (1 / Real.sqrt (Real.sqrt (Real.sqrt eps)))) * eps

/-- lapack/svd_qr.hpp:136-144: estimate of the smallest singular value. -/
noncomputable def svSminoa (d e : RArr) : M L T ℝ := do
  let d0 ← d.get 0
  if |d0| ≠ 0 then do
    let r ← forRet 1 d.n (|d0|, |d0|) fun i x => do
      let di ← d.get i
      let ei ← e.get (i - 1)
      let q ← liftO (dv x.1 (x.1 + |ei|))
      let mu := |di| * q
      let s := min x.2 mu
      if s = 0 then pure (.inr s) else pure (.inl (mu, s))
    match r with
    | .inl x => pure x.2
    | .inr s => pure s
  else pure |d0|

/-- lapack/svd_qr.hpp:177-185: look for a negligible entry from `i - 1` down to `istart`; returns the new `istart`, `e` and `smax`. -/
noncomputable def svScan (thresh : ℝ) (istart : Nat) (d : RArr) : Nat → RArr → ℝ → M L T (Nat × RArr × ℝ)
  | 0, e, smax => pure (istart, e, smax)
  | i + 1, e, smax =>
    if i + 1 > istart then do
      let di ← d.get i
      let ei ← e.get i
      let smax := max (max smax |di|) |ei|
      if |ei| ≤ thresh then do
        let e ← e.set i 0
        pure (i + 1, e, smax)
      else svScan thresh istart d i e smax
    else pure (istart, e, smax)

/-- lapack/svd_qr.hpp:195-213: a 2 by 2 block. -/
noncomputable def svTwo (p : RotPar) (emb : ℝ → T) (wantu wantv : Bool) (U V : MatV L) (istart : Nat) (d e : RArr) :
    M L T (RArr × RArr) := do
  let f ← d.get istart
  let g ← e.get istart
  let h ← d.get (istart + 1)
  let o ← liftO (svd22 p.ulp f g h)
  let d ← d.set istart o.ssmax
  let d ← d.set (istart + 1) o.ssmin
  let e ← e.set istart 0
  stqRot emb wantu U istart (istart + 1) o.csl o.snl
  svRotRow emb wantv V istart (istart + 1) o.csr o.snr
  pure (d, e)

/-- lapack/svd_qr.hpp:240-251: convergence criterion from top to bottom; the left result is `sminl`, the right one the index of the entry
to be set to zero. -/
noncomputable def svConvF (tol : ℝ) (istart istop : Nat) (d e : RArr) : M L T (ℝ ⊕ Nat) := do
  let d0 ← d.get istart
  let r ← forRet istart (istop - 1) (|d0|, |d0|) fun i x => do
    let ei ← e.get i
    if |ei| < tol * x.1 then pure (.inr i)
    else do
      let d1 ← d.get (i + 1)
      let q ← liftO (dv x.1 (x.1 + |ei|))
      let mu := |d1| * q
      pure (.inl (mu, min x.2 mu))
  match r with
  | .inl x => pure (.inl x.2)
  | .inr i => pure (.inr i)

/-- lapack/svd_qr.hpp:263-275: convergence criterion from bottom to top. -/
noncomputable def svConvB (tol : ℝ) (istart istop : Nat) (d e : RArr) : M L T (ℝ ⊕ Nat) := do
  let d0 ← d.get (istop - 1)
  let r ← forRet istart (istop - 1) (|d0|, |d0|) fun i2 x => do
    let i := istop - 2 - (i2 - istart)
    let ei ← e.get i
    if |ei| < tol * x.1 then pure (.inr i)
    else do
      let d1 ← d.get i
      let q ← liftO (dv x.1 (x.1 + |ei|))
      let mu := |d1| * q
      pure (.inl (mu, min x.2 mu))
  match r with
  | .inl x => pure (.inl x.2)
  | .inr i => pure (.inr i)

/-- lapack/svd_qr.hpp:281-302: choice of the shift. -/
noncomputable def svShift (eps tol : ℝ) (fwd : Bool) (istart istop : Nat) (d e : RArr) (sminl smax : ℝ) : M L T ℝ := do
  let q ← liftO (dv sminl smax)
  if (d.n : ℝ) * tol * q ≤ max eps (1 / 100 * tol) then pure 0
  else do
    let (ss, shift) ← (if fwd then do
        let s0 ← d.get istart
        let f ← d.get (istop - 2)
        let g ← e.get (istop - 2)
        let h ← d.get (istop - 1)
        let x ← liftO (singularvalues22 f g h)
        pure (|s0|, x.1)
      else do
        let s0 ← d.get (istop - 1)
        let f ← d.get istart
        let g ← e.get istart
        let h ← d.get (istart + 1)
        let x ← liftO (singularvalues22 f g h)
        pure (|s0|, x.1) : M L T (ℝ × ℝ))
    if 0 < ss then do
      let t ← liftO (dv shift ss)
      if t * t < eps then pure 0 else pure shift
    else pure shift

/-- Local variables of a sweep with zero shift. -/
structure SvZ where
  cs : ℝ
  oldcs : ℝ
  oldsn : ℝ
  d : RArr
  e : RArr

/-- lapack/svd_qr.hpp:314-328, one pass. -/
noncomputable def svZeroFStep (p : RotPar) (emb : ℝ → T) (wantu wantv : Bool) (U V : MatV L) (istart i : Nat) (x : SvZ) : M L T SvZ := do
  let di ← x.d.get i
  let ei ← x.e.get i
  let (cs, sn, r) ← liftO (lartg p (di * x.cs) ei)
  let e ← (if i > istart then x.e.set (i - 1) (x.oldsn * r) else pure x.e : M L T RArr)
  let d1 ← x.d.get (i + 1)
  let (oldcs, oldsn, r2) ← liftO (lartg p (x.oldcs * r) (d1 * sn))
  let d ← x.d.set i r2
  stqRot emb wantu U i (i + 1) oldcs oldsn
  svRotRow emb wantv V i (i + 1) cs sn
  pure ⟨cs, oldcs, oldsn, d, e⟩

/-- lapack/svd_qr.hpp:307-333. -/
noncomputable def svZeroF (p : RotPar) (emb : ℝ → T) (wantu wantv : Bool) (U V : MatV L) (istart istop : Nat) (d e : RArr) :
    M L T (RArr × RArr) := do
  let x ← forUp istart (istop - 1) (⟨1, 1, 0, d, e⟩ : SvZ) (svZeroFStep p emb wantu wantv U V istart)
  let dl ← x.d.get (istop - 1)
  let h := dl * x.cs
  let d ← x.d.set (istop - 1) (h * x.oldcs)
  let e ← x.e.set (istop - 2) (h * x.oldsn)
  pure (d, e)

/-- lapack/svd_qr.hpp:341-355, one pass. -/
noncomputable def svZeroBStep (p : RotPar) (emb : ℝ → T) (wantu wantv : Bool) (U V : MatV L) (istop i : Nat) (x : SvZ) : M L T SvZ := do
  let di ← x.d.get i
  let ei ← x.e.get (i - 1)
  let (cs, sn, r) ← liftO (lartg p (di * x.cs) ei)
  let e ← (if i < istop - 1 then x.e.set i (x.oldsn * r) else pure x.e : M L T RArr)
  let d1 ← x.d.get (i - 1)
  let (oldcs, oldsn, r2) ← liftO (lartg p (x.oldcs * r) (d1 * sn))
  let d ← x.d.set i r2
  stqRot emb wantu U (i - 1) i cs (-sn)
  svRotRow emb wantv V (i - 1) i oldcs (-oldsn)
  pure ⟨cs, oldcs, oldsn, d, e⟩

/-- lapack/svd_qr.hpp:334-360. -/
noncomputable def svZeroB (p : RotPar) (emb : ℝ → T) (wantu wantv : Bool) (U V : MatV L) (istart istop : Nat) (d e : RArr) :
    M L T (RArr × RArr) := do
  let x ← forDown (istart + 1) istop (⟨1, 1, 0, d, e⟩ : SvZ) (svZeroBStep p emb wantu wantv U V istop)
  let dl ← x.d.get istart
  let h := dl * x.cs
  let d ← x.d.set istart (h * x.oldcs)
  let e ← x.e.set istart (h * x.oldsn)
  pure (d, e)

/-- Local variables of a sweep with a shift. -/
structure SvS where
  f : ℝ
  g : ℝ
  d : RArr
  e : RArr

/-- lapack/svd_qr.hpp:370-397, one pass. -/
noncomputable def svSweepFStep (p : RotPar) (emb : ℝ → T) (wantu wantv : Bool) (U V : MatV L) (istart istop i : Nat) (x : SvS) :
    M L T SvS := do
  let (csr, snr, r) ← liftO (lartg p x.f x.g)
  let e ← (if i > istart then x.e.set (i - 1) r else pure x.e : M L T RArr)
  let di ← x.d.get i
  let ei ← e.get i
  let f := csr * di + snr * ei
  let ei' := csr * ei - snr * di
  let e ← e.set i ei'
  let d1 ← x.d.get (i + 1)
  let g := snr * d1
  let d1' := csr * d1
  let d ← x.d.set (i + 1) d1'
  let (csl, snl, r) ← liftO (lartg p f g)
  let d ← d.set i r
  let f := csl * ei' + snl * d1'
  let d ← d.set (i + 1) (csl * d1' - snl * ei')
  let (g, e) ← (if i + 1 < istop - 1 then do
      let e1 ← e.get (i + 1)
      let e ← e.set (i + 1) (csl * e1)
      pure (snl * e1, e)
    else pure (g, e) : M L T (ℝ × RArr))
  stqRot emb wantu U i (i + 1) csl snl
  svRotRow emb wantv V i (i + 1) csr snr
  pure ⟨f, g, d, e⟩

/-- lapack/svd_qr.hpp:365-400. -/
noncomputable def svSweepF (p : RotPar) (emb : ℝ → T) (wantu wantv : Bool) (U V : MatV L) (istart istop : Nat) (d e : RArr) (shift : ℝ) :
    M L T (RArr × RArr) := do
  let d0 ← d.get istart
  let q ← liftO (dv shift d0)
  let g ← e.get istart
  let x ← forUp istart (istop - 1) (⟨(|d0| - shift) * (sgn d0 + q), g, d, e⟩ : SvS) (svSweepFStep p emb wantu wantv U V istart istop)
  let e ← x.e.set (istop - 2) x.f
  pure (x.d, e)

/-- lapack/svd_qr.hpp:406-433, one pass. -/
noncomputable def svSweepBStep (p : RotPar) (emb : ℝ → T) (wantu wantv : Bool) (U V : MatV L) (istart istop i : Nat) (x : SvS) :
    M L T SvS := do
  let (csr, snr, r) ← liftO (lartg p x.f x.g)
  let e ← (if i < istop - 1 then x.e.set i r else pure x.e : M L T RArr)
  let di ← x.d.get i
  let ei ← e.get (i - 1)
  let f := csr * di + snr * ei
  let ei' := csr * ei - snr * di
  let e ← e.set (i - 1) ei'
  let d1 ← x.d.get (i - 1)
  let g := snr * d1
  let d1' := csr * d1
  let d ← x.d.set (i - 1) d1'
  let (csl, snl, r) ← liftO (lartg p f g)
  let d ← d.set i r
  let f := csl * ei' + snl * d1'
  let d ← d.set (i - 1) (csl * d1' - snl * ei')
  let (g, e) ← (if i > istart + 1 then do
      let e1 ← e.get (i - 2)
      let e ← e.set (i - 2) (csl * e1)
      pure (snl * e1, e)
    else pure (g, e) : M L T (ℝ × RArr))
  stqRot emb wantu U (i - 1) i csr (-snr)
  svRotRow emb wantv V (i - 1) i csl (-snl)
  pure ⟨f, g, d, e⟩

/-- lapack/svd_qr.hpp:401-436. -/
noncomputable def svSweepB (p : RotPar) (emb : ℝ → T) (wantu wantv : Bool) (U V : MatV L) (istart istop : Nat) (d e : RArr) (shift : ℝ) :
    M L T (RArr × RArr) := do
  let d0 ← d.get (istop - 1)
  let q ← liftO (dv shift d0)
  let g ← e.get (istop - 2)
  let x ← forDown (istart + 1) istop (⟨(|d0| - shift) * (sgn d0 + q), g, d, e⟩ : SvS) (svSweepBStep p emb wantu wantv U V istart istop)
  let e ← x.e.set istart x.f
  pure (x.d, e)

/-- lapack/svd_qr.hpp:304-437: one sweep. -/
noncomputable def svSweep (p : RotPar) (emb : ℝ → T) (wantu wantv : Bool) (U V : MatV L) (fwd : Bool) (istart istop : Nat) (d e : RArr)
    (shift : ℝ) : M L T (RArr × RArr) :=
  if shift = 0 then
    if fwd then svZeroF p emb wantu wantv U V istart istop d e else svZeroB p emb wantu wantv U V istart istop d e
  else
    if fwd then svSweepF p emb wantu wantv U V istart istop d e shift else svSweepB p emb wantu wantv U V istart istop d e shift

/-- lapack/svd_qr.hpp:230-437: the rest of an iteration once the direction `fwd` is chosen; `x` holds the active block. -/
noncomputable def svRest (p : RotPar) (emb : ℝ → T) (wantu wantv : Bool) (U V : MatV L) (smax : ℝ) (x : StqSt) : M L T StqSt := do
  let tol := svTol p.ulp
  let quick ← (if x.fwd then do
      let ei ← x.e.get (x.istop - 2)
      let di ← x.d.get (x.istop - 1)
      pure (decide (|ei| ≤ tol * |di|))
    else do
      let ei ← x.e.get x.istart
      let di ← x.d.get x.istart
      pure (decide (|ei| ≤ tol * |di|)) : M L T Bool)
  if quick then
    if x.fwd then do
      let e ← x.e.set (x.istop - 2) 0
      pure { x with istop := x.istop - 1, e := e }
    else do
      let e ← x.e.set x.istart 0
      pure { x with istart := x.istart + 1, e := e }
  else do
    let r ← (if x.fwd then svConvF tol x.istart x.istop x.d x.e else svConvB tol x.istart x.istop x.d x.e : M L T (ℝ ⊕ Nat))
    match r with
    | .inr i => do
      let e ← x.e.set i 0
      pure { x with e := e }
    | .inl sminl => do
      let shift ← svShift p.ulp tol x.fwd x.istart x.istop x.d x.e sminl smax
      let (d, e) ← svSweep p emb wantu wantv U V x.fwd x.istart x.istop x.d x.e shift
      pure { x with d := d, e := e }

/-- lapack/svd_qr.hpp:176-437: one iteration, `istop > 1`.  The state is that of steqr. -/
noncomputable def svIter (p : RotPar) (emb : ℝ → T) (wantu wantv : Bool) (U V : MatV L) (thresh : ℝ) (x : StqSt) : M L T StqSt := do
  let dl ← x.d.get (x.istop - 1)
  let (istart, e, smax) ← svScan thresh x.istart x.d (x.istop - 1) x.e |dl|
  if istart = x.istop - 1 then pure { x with istop := x.istop - 1, istart := 0, e := e }
  else if istart + 1 = x.istop - 1 then do
    let (d, e) ← svTwo p emb wantu wantv U V istart x.d e
    pure { x with istop := x.istop - 2, istart := 0, d := d, e := e }
  else do
    let d0 ← x.d.get istart
    let d1 ← x.d.get (x.istop - 1)
    svRest p emb wantu wantv U V smax ⟨istart, x.istop, some (istart, x.istop), stqDir x istart d0 d1, x.d, e⟩

/-- lapack/svd_qr.hpp:164-438: the main loop with `k` iterations left before the one that gives up; the flag tells whether it gave up. -/
noncomputable def svLoop (p : RotPar) (emb : ℝ → T) (wantu wantv : Bool) (U V : MatV L) (thresh : ℝ) : Nat → StqSt → M L T (Bool × StqSt)
  | 0, x => pure (true, x)
  | k + 1, x =>
    if x.istop ≤ 1 then pure (false, x)
    else do
      let y ← svIter p emb wantu wantv U V thresh x
      svLoop p emb wantu wantv U V thresh k y

/-- lapack/svd_qr.hpp:441-449: make the singular values non-negative. -/
noncomputable def svSign (wantv : Bool) (V : MatV L) (d : RArr) : M L T RArr :=
  forUp 0 d.n d fun i d => do
    let di ← d.get i
    if di < 0 then do
      let d ← d.set i (-di)
      (if wantv then do
        let v ← V.sliceRow i 0 V.n
        scal (-1) v
      else pure () : M L T Unit)
      pure d
    else pure d

/-- lapack/svd_qr.hpp:452-469: selection sort, largest first. -/
noncomputable def svSort (wantu wantv : Bool) (U V : MatV L) (d : RArr) : M L T RArr :=
  forUp 0 (d.n - 1) d fun i d => do
    let k ← d.iamaxFrom i
    if k ≠ i then do
      let dk ← d.get k
      let di ← d.get i
      let d ← d.set k di
      let d ← d.set i dk
      (if wantu then swapColsV U k i else pure () : M L T Unit)
      (if wantv then swapRowsV V k i else pure () : M L T Unit)
      pure d
    else pure d

/-- lapack/svd_qr.hpp:85-472; `lower` tells `uplo == Lower`.  Returns the code and the final `d`, `e`; `p.ulp`, `p.safmin` are `ulp`,
`safe_min`, `emb` converts a real number to the type of `U` and `Vt`. -/
noncomputable def svdQr (p : RotPar) (emb : ℝ → T) (lower wantu wantv : Bool) (d e : RArr) (U V : MatV L) : M L T (Nat × RArr × RArr) := do
  let n := d.n
  if n = 0 then pure (0, d, e)
  else do
    let (d, e) ← (if lower then svLower p emb wantu U d e else pure (d, e) : M L T (RArr × RArr))
    let s ← svSminoa d e
    let thresh := max (svTol p.ulp * (s / Real.sqrt n)) (n * p.safmin)
    let (stop, x) ← svLoop p emb wantu wantv U V thresh (30 * n) ⟨0, n, none, true, d, e⟩
    if stop then pure (x.istop, x.d, x.e)
    else do
      let d ← svSign wantv V x.d
      let d ← svSort wantu wantv U V d
      pure (0, d, x.e)

end
end TLA
