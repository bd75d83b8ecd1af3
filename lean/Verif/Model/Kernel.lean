import Mathlib.Analysis.Complex.Basic
import Mathlib.Analysis.SpecialFunctions.Pow.Complex
import Mathlib.Analysis.SpecialFunctions.Sqrt

/-!
# Scalar kernels: rotations, 2 by 2 eigenproblems and singular values, complex division

Models of the scalar routines of `blas/` and `lapack/` (no matrix or vector argument).  The arithmetic is exact
(real or complex numbers).  The result is an `Option`: `none` means that some division by zero or
some square root of a negative number was evaluated (in C++: an infinity or a NaN enters the
computation), so every theorem that ends with `= some _` also says that this never happens.
Machine constants (`ulp`, `safe_min`, ...) are parameters.
-/

namespace TLA.Kernel

/-- `x / y` on floating-point numbers; `none` for a zero divisor. -/
noncomputable def dv (x y : ℝ) : Option ℝ := if y = 0 then none else some (x / y)

/-- `sqrt(x)`; `none` for a negative argument. -/
noncomputable def sq (x : ℝ) : Option ℝ := if x < 0 then none else some (Real.sqrt x)

/-- base/utils.hpp:108-112 `sgn`: `(T(0) < val) - (val < T(0))`. -/
noncomputable def sgn (x : ℝ) : ℝ := (if 0 < x then 1 else 0) - (if x < 0 then 1 else 0)

/-- A C++ `while (c) f`: iterate `f` until `c` fails; `none` if it never does. -/
noncomputable def whileLoop {σ : Type} (c : σ → Prop) (f : σ → σ) (s : σ) : Option σ :=
  open Classical in
  if h : ∃ k, ¬ c (f^[k] s) then some (f^[Nat.find h] s) else none

/-! ## Complex division -/

/-- lapack/ladiv.hpp:47-59, the lambda `ladiv2`. -/
noncomputable def ladiv2 (a b c d r t : ℝ) : Option ℝ := do
  if r ≠ 0 then
    let br := b * r
    if br ≠ 0 then return (a + br) * t
    else return a * t + (b * t) * r
  else
    return (a + d * (← dv b c)) * t

/-- lapack/ladiv.hpp:62-68, the lambda `ladiv1`. -/
noncomputable def ladiv1 (a b c d : ℝ) : Option (ℝ × ℝ) := do
  let r ← dv d c
  let t ← dv 1 (c + d * r)
  let p ← ladiv2 a b c d r t
  let q ← ladiv2 b (-a) c d r t
  return (p, q)

/-- The machine constants of lapack/ladiv.hpp:77-79. -/
structure DivPar where
  ov : ℝ
  safeMin : ℝ
  u : ℝ

/-- State of the scaling phase of `ladiv` (lapack/ladiv.hpp:101-105). -/
structure DivSt where
  aa : ℝ
  bb : ℝ
  cc : ℝ
  dd : ℝ
  s : ℝ

/-- lapack/ladiv.hpp:108-127: the four scaling steps. -/
noncomputable def ladivScale (p : DivPar) (ab cd be lim : ℝ) (x : DivSt) : Option DivSt := do
  let x := if ab ≥ 1 / 2 * p.ov then { x with aa := x.aa * (1 / 2), bb := x.bb * (1 / 2), s := x.s * 2 } else x
  let x := if cd ≥ 1 / 2 * p.ov then { x with cc := x.cc * (1 / 2), dd := x.dd * (1 / 2), s := x.s * (1 / 2) }
    else x
  let x ← (if ab ≤ lim then do
      pure { x with aa := x.aa * be, bb := x.bb * be, s := ← dv x.s be }
    else pure x : Option DivSt)
  let x := if cd ≤ lim then { x with cc := x.cc * be, dd := x.dd * be, s := x.s * be } else x
  return x

/-- lapack/ladiv.hpp:130-142: the quotient of the scaled operands, and undoing the scaling. -/
noncomputable def ladivFin (c d : ℝ) (x : DivSt) : Option (ℝ × ℝ) := do
  let r ← (if |d| ≤ |c| then ladiv1 x.aa x.bb x.cc x.dd
    else do
      let r ← ladiv1 x.bb x.aa x.dd x.cc
      pure (r.1, -r.2) : Option (ℝ × ℝ))
  if x.s ≠ 1 then return (r.1 * x.s, r.2 * x.s) else return r

/-- lapack/ladiv.hpp:39-143 `ladiv(a, b, c, d, p, q)`; returns `(p, q)`. -/
noncomputable def ladiv (pr : DivPar) (a b c d : ℝ) : Option (ℝ × ℝ) := do
  let be ← dv 2 (pr.u * pr.u)
  if d = 0 then
    return (← dv a c, ← dv b c)
  else if c = 0 then
    return (← dv b d, ← dv (-a) d)
  else
    let ab := max |a| |b|
    let cd := max |c| |d|
    let lim ← dv (pr.safeMin * 2) pr.u
    let x ← ladivScale pr ab cd be lim ⟨a, b, c, d, 1⟩
    ladivFin c d x

/-- lapack/ladiv.hpp:155-162 `ladiv(x, y)` for complex numbers. -/
noncomputable def ladivC (pr : DivPar) (x y : ℂ) : Option ℂ := do
  let r ← ladiv pr x.re x.im y.re y.im
  return ⟨r.1, r.2⟩

/-! ## Symmetric 2 by 2 eigenproblem -/

/-- lapack/lae2.hpp:73-83 (and laev2.hpp:83-93): `rt = sqrt(df^2 + tb^2)` without overflow. -/
noncomputable def laeRt (adf ab : ℝ) : Option ℝ := do
  if adf > ab then
    let q ← dv ab adf
    return adf * (← sq (1 + q * q))
  else if adf < ab then
    let q ← dv adf ab
    return ab * (← sq (1 + q * q))
  else
    return ab * (← sq 2)

/-- lapack/lae2.hpp:49-104 `lae2(a, b, c, s1, s2)`; returns `(s1, s2)`. -/
noncomputable def lae2 (a b c : ℝ) : Option (ℝ × ℝ) := do
  let sm := a + c
  let df := a - c
  let adf := |df|
  let tb := b + b
  let ab := |tb|
  let (acmx, acmn) := if |a| > |c| then (a, c) else (c, a)
  let rt ← laeRt adf ab
  if sm < 0 then
    let s1 := 1 / 2 * (sm - rt)
    return (s1, (← dv acmx s1) * acmn - (← dv b s1) * b)
  else if sm > 0 then
    let s1 := 1 / 2 * (sm + rt)
    return (s1, (← dv acmx s1) * acmn - (← dv b s1) * b)
  else
    return (1 / 2 * rt, -(1 / 2) * rt)

/-- lapack/laev2.hpp:95-117: eigenvalues and `sign1`. -/
noncomputable def laev2Vals (a b c rt : ℝ) : Option (ℝ × ℝ × ℤ) := do
  let sm := a + c
  let (acmx, acmn) := if |a| > |c| then (a, c) else (c, a)
  if sm < 0 then
    let s1 := 1 / 2 * (sm - rt)
    return (s1, (← dv acmx s1) * acmn - (← dv b s1) * b, -1)
  else if sm > 0 then
    let s1 := 1 / 2 * (sm + rt)
    return (s1, (← dv acmx s1) * acmn - (← dv b s1) * b, 1)
  else
    return (1 / 2 * rt, -(1 / 2) * rt, 1)

/-- lapack/laev2.hpp:129-145: the rotation before the final exchange. -/
noncomputable def laev2Rot (cs tb ab : ℝ) : Option (ℝ × ℝ) := do
  let acs := |cs|
  if acs > ab then
    let ct ← dv (-tb) cs
    let sn ← dv 1 (← sq (1 + ct * ct))
    return (ct * sn, sn)
  else if ab = 0 then
    return (1, 0)
  else
    let tn ← dv (-cs) tb
    let cs ← dv 1 (← sq (1 + tn * tn))
    return (cs, tn * cs)

/-- lapack/laev2.hpp:59-151 `laev2(a, b, c, s1, s2, cs, sn)`; returns `((s1, s2), (cs, sn))`. -/
noncomputable def laev2 (a b c : ℝ) : Option ((ℝ × ℝ) × (ℝ × ℝ)) := do
  let df := a - c
  let adf := |df|
  let tb := b + b
  let ab := |tb|
  let rt ← laeRt adf ab
  let (s1, s2, sign1) ← laev2Vals a b c rt
  let (cs, sign2) : ℝ × ℤ := if df ≥ 0 then (df + rt, 1) else (df - rt, -1)
  let (cs, sn) ← laev2Rot cs tb ab
  if sign1 = sign2 then return ((s1, s2), (-sn, cs))
  else return ((s1, s2), (cs, sn))

/-! ## 2 by 2 triangular singular values -/

/-- lapack/singularvalues22.hpp:40-89; returns `(ssmin, ssmax)`. -/
noncomputable def singularvalues22 (f g h : ℝ) : Option (ℝ × ℝ) := do
  let fa := |f|
  let ga := |g|
  let ha := |h|
  let fhmn := min fa ha
  let fhmx := max fa ha
  if fhmn = 0 then
    if fhmx = 0 then return (0, ga)
    else
      let q ← dv (min fhmx ga) (max fhmx ga)
      return (0, max fhmx ga * (← sq (1 + q * q)))
  else if ga < fhmx then
    let as := 1 + (← dv fhmn fhmx)
    let t ← dv (fhmx - fhmn) fhmx
    let q ← dv ga fhmx
    let au := q * q
    let c ← dv 2 ((← sq (as * as + au)) + (← sq (t * t + au)))
    return (fhmn * c, ← dv fhmx c)
  else
    let au ← dv fhmx ga
    if au = 0 then
      return (← dv (fhmn * fhmx) ga, ga)
    else
      let as := 1 + (← dv fhmn fhmx)
      let t ← dv (fhmx - fhmn) fhmx
      let c ← dv 1 ((← sq (1 + (as * au) * (as * au))) + (← sq (1 + (t * au) * (t * au))))
      let ssmin := (fhmn * c) * au
      return (ssmin + ssmin, ← dv ga (c + c))

/-- Outputs of the body of `svd22` before signs are corrected. -/
structure SvdT where
  ssmin : ℝ
  ssmax : ℝ
  clt : ℝ
  slt : ℝ
  crt : ℝ
  srt : ℝ

/-- lapack/svd22.hpp:128-175: the case where `|ft|` is not negligible against `|gt|`. -/
noncomputable def svd22Main (ft gt ht fa ha : ℝ) : Option SvdT := do
  let d := fa - ha
  let l ← (if d = fa then pure 1 else dv d fa : Option ℝ)
  let m ← dv gt ft
  let t := 2 - l
  let mm := m * m
  let tt := t * t
  let s ← sq (tt + mm)
  let r ← (if l = 0 then pure |m| else sq (l * l + mm) : Option ℝ)
  let a := 1 / 2 * (s + r)
  let ssmin ← dv ha a
  let ssmax := fa * a
  let t ← (if mm = 0 then
      (if l = 0 then pure (2 * sgn ft * sgn gt)
       else do pure ((← dv gt (|d| * sgn ft)) + (← dv m t)))
    else do
      pure (((← dv m (s + t)) + (← dv m (r + l))) * (1 + a)) : Option ℝ)
  let l ← sq (t * t + 4)
  let crt ← dv 2 l
  let srt ← dv t l
  let clt ← dv (crt + srt * m) a
  let slt ← dv ((← dv ht ft) * srt) a
  return ⟨ssmin, ssmax, clt, slt, crt, srt⟩

/-- lapack/svd22.hpp:97-176: the three cases; also `pmax` (lines 81-85, 110). -/
noncomputable def svd22Body (eps ft gt ht fa ga ha : ℝ) (pmax : ℕ) : Option (SvdT × ℕ) := do
  if ga = 0 then
    return (⟨ha, fa, 1, 0, 1, 0⟩, pmax)
  else if ga > fa then
    if (← dv fa ga) < eps then
      let ssmin ← (if ha > 1 then do dv fa (← dv ga ha)
        else do pure ((← dv fa ga) * ha) : Option ℝ)
      return (⟨ssmin, ga, 1, ← dv ht gt, ← dv ft gt, 1⟩, 2)
    else
      return (← svd22Main ft gt ht fa ha, 2)
  else
    return (← svd22Main ft gt ht fa ha, pmax)

/-- Outputs of `svd22`. -/
structure SvdOut where
  ssmin : ℝ
  ssmax : ℝ
  csl : ℝ
  snl : ℝ
  csr : ℝ
  snr : ℝ

/-- lapack/svd22.hpp:55-201 `svd22(f, g, h, ssmin, ssmax, csl, snl, csr, snr)`. -/
noncomputable def svd22 (eps f g h : ℝ) : Option SvdOut := do
  let swap := |h| > |f|
  let (x, pmax) ← (if swap then svd22Body eps h g f |h| |g| |f| 3 else svd22Body eps f g h |f| |g| |h| 1 :
    Option (SvdT × ℕ))
  let (csl, snl, csr, snr) :=
    if swap then (x.srt, x.crt, x.slt, x.clt) else (x.clt, x.slt, x.crt, x.srt)
  let tsign :=
    if pmax = 1 then sgn csr * sgn csl * sgn f
    else if pmax = 2 then sgn snr * sgn csl * sgn g
    else sgn snr * sgn snl * sgn h
  return ⟨x.ssmin * sgn (tsign * sgn f * sgn h), x.ssmax * sgn tsign, csl, snl, csr, snr⟩

/-! ## Plane rotations -/

/-- Machine constants of blas/rotg.hpp:46-47, 115-118. -/
structure RotPar where
  safmin : ℝ
  safmax : ℝ
  ulp : ℝ

/-- blas/rotg.hpp:39-79, real `rotg(a, b, c, s)`; returns the final `(a, b, c, s)`. -/
noncomputable def rotg (p : RotPar) (a b : ℝ) : Option (ℝ × ℝ × ℝ × ℝ) := do
  let anorm := |a|
  let bnorm := |b|
  if bnorm = 0 then return (a, 0, 1, 0)
  else if anorm = 0 then return (b, 1, 0, 1)
  else
    let scl := min p.safmax (max p.safmin (max anorm bnorm))
    let sigma := if anorm > bnorm then sgn a else sgn b
    let x ← dv a scl
    let y ← dv b scl
    let r := sigma * scl * (← sq (x * x + y * y))
    let c ← dv a r
    let s ← dv b r
    if anorm > bnorm then return (r, s, c, s)
    else if c ≠ 0 then return (r, ← dv 1 c, c, s)
    else return (r, 1, c, s)

/-- blas/lartg.hpp:38-43 `lartg(a, b, c, s, r)` for real numbers; returns `(c, s, r)`. -/
noncomputable def lartg (p : RotPar) (a b : ℝ) : Option (ℝ × ℝ × ℝ) := do
  let (r, _, c, s) ← rotg p a b
  return (c, s, r)

/-- `z / x` for a complex `z` and a real `x`. -/
noncomputable def dvC (z : ℂ) (x : ℝ) : Option ℂ := if x = 0 then none else some (z / x)

/-- `real(z)*real(z) + imag(z)*imag(z)` (blas/rotg.hpp:132 etc.). -/
def abssq (z : ℂ) : ℝ := z.re * z.re + z.im * z.im

/-- blas/rotg.hpp:156-157, 187-188: `d = sqrt(f2 h2)`. -/
noncomputable def rotgD (rtmin rtmax f2 h2 : ℝ) : Option ℝ := do
  if f2 > rtmin ∧ h2 < rtmax then sq (f2 * h2)
  else return (← sq f2) * (← sq h2)

/-- blas/rotg.hpp:128-146: complex `rotg`, `a = 0`. -/
noncomputable def rotgC0 (p : RotPar) (rtmin rtmax : ℝ) (b : ℂ) : Option (ℂ × ℝ × ℂ) := do
  let g1 := max |b.re| |b.im|
  if g1 > rtmin ∧ g1 < rtmax then
    let d ← sq (abssq b)
    return (d, 0, ← dvC (star b) d)
  else
    let u := min p.safmax (max p.safmin g1)
    let uu ← dv 1 u
    let gs := b * uu
    let d ← sq (abssq gs)
    return ((d * u : ℝ), 0, ← dvC (star gs) d)

/-- blas/rotg.hpp:149-193: complex `rotg`, general case. -/
noncomputable def rotgC1 (p : RotPar) (rtmin rtmax : ℝ) (a b : ℂ) : Option (ℂ × ℝ × ℂ) := do
  let f1 := max |a.re| |a.im|
  let g1 := max |b.re| |b.im|
  if f1 > rtmin ∧ f1 < rtmax ∧ g1 > rtmin ∧ g1 < rtmax then
    let f2 := abssq a
    let g2 := abssq b
    let h2 := f2 + g2
    let d ← rotgD rtmin rtmax f2 h2
    let p ← dv 1 d
    return (a * (h2 * p : ℝ), f2 * p, star b * (a * p))
  else
    let u := min p.safmax (max p.safmin (max f1 g1))
    let uu ← dv 1 u
    let gs := b * uu
    let g2 := abssq gs
    let (w, fs, f2, h2) ← (if f1 * uu < rtmin then do
        let v := min p.safmax (max p.safmin f1)
        let vv ← dv 1 v
        let w := v * uu
        let fs := a * vv
        let f2 := abssq fs
        pure (w, fs, f2, f2 * w * w + g2)
      else do
        let fs := a * uu
        let f2 := abssq fs
        pure (1, fs, f2, f2 + g2) : Option (ℝ × ℂ × ℝ × ℝ))
    let d ← rotgD rtmin rtmax f2 h2
    let p ← dv 1 d
    return ((fs * (h2 * p : ℝ)) * u, (f2 * p) * w, star gs * (fs * p))

/-- blas/rotg.hpp:106-195, complex `rotg(a, b, c, s)`; returns the final `(a, c, s)`. -/
noncomputable def rotgC (p : RotPar) (a b : ℂ) : Option (ℂ × ℝ × ℂ) := do
  let rtmin ← sq (← dv p.safmin p.ulp)
  let rtmax ← sq (p.safmax * p.ulp)
  if b = 0 then return (a, 1, 0)
  else if a = 0 then rotgC0 p rtmin rtmax b
  else rotgC1 p rtmin rtmax a b

/-! ## Modified rotations -/

/-- State of `rotmg`: the arguments `d1`, `d2`, `a`, the array `h` and `flag`. -/
structure RotmSt where
  flag : ℤ
  d1 : ℝ
  d2 : ℝ
  a : ℝ
  h0 : ℝ
  h1 : ℝ
  h2 : ℝ
  h3 : ℝ

/-- blas/rotmg.hpp:159-168 (= 186-195): make the implicit entries of `H` explicit. -/
noncomputable def rotmgExpl (x : RotmSt) : RotmSt :=
  if x.flag = 0 then { x with h0 := 1, h3 := 1, flag := -1 }
  else { x with h1 := -1, h2 := 1, flag := -1 }

/-- blas/rotmg.hpp:159-180: one pass of the first rescaling loop. -/
noncomputable def rotmgStep1 (x : RotmSt) : RotmSt :=
  let x := rotmgExpl x
  if x.d1 ≤ 1 / (4096 * 4096) then
    { x with d1 := x.d1 * (4096 * 4096), a := x.a / 4096, h0 := x.h0 / 4096, h2 := x.h2 / 4096 }
  else
    { x with d1 := x.d1 / (4096 * 4096), a := x.a * 4096, h0 := x.h0 * 4096, h2 := x.h2 * 4096 }

/-- blas/rotmg.hpp:186-205: one pass of the second rescaling loop. -/
noncomputable def rotmgStep2 (x : RotmSt) : RotmSt :=
  let x := rotmgExpl x
  if |x.d2| ≤ 1 / (4096 * 4096) then
    { x with d2 := x.d2 * (4096 * 4096), h1 := x.h1 / 4096, h3 := x.h3 / 4096 }
  else
    { x with d2 := x.d2 / (4096 * 4096), h1 := x.h1 * 4096, h3 := x.h3 * 4096 }

/-- blas/rotmg.hpp:125-155: the unscaled rotation. -/
noncomputable def rotmgBase (d1 d2 a b : ℝ) : Option RotmSt := do
  let p2 := d2 * b
  let p1 := d1 * a
  let q2 := p2 * b
  let q1 := p1 * a
  if |q1| > |q2| then
    let h1 ← dv (-b) a
    let h2 ← dv p2 p1
    let u := 1 - h2 * h1
    if u > 0 then
      return ⟨0, ← dv d1 u, ← dv d2 u, a * u, 0, h1, h2, 0⟩
    else return ⟨0, d1, d2, a, 0, h1, h2, 0⟩
  else if q2 < 0 then
    return ⟨-1, 0, 0, 0, 0, 0, 0, 0⟩
  else
    let h0 ← dv p1 p2
    let h3 ← dv a b
    let u := 1 + h0 * h3
    let stemp ← dv d2 u
    let d2 ← dv d1 u
    return ⟨1, stemp, d2, b * u, h0, 0, 0, h3⟩

/-- blas/rotmg.hpp:157-182. -/
noncomputable def rotmgLoop1 (x : RotmSt) : Option RotmSt :=
  if x.d1 ≠ 0 then whileLoop (fun y => y.d1 ≤ 1 / (4096 * 4096) ∨ y.d1 ≥ 4096 * 4096) rotmgStep1 x
  else some x

/-- blas/rotmg.hpp:184-207. -/
noncomputable def rotmgLoop2 (x : RotmSt) : Option RotmSt :=
  if x.d2 ≠ 0 then whileLoop (fun y => |y.d2| ≤ 1 / (4096 * 4096) ∨ |y.d2| ≥ 4096 * 4096) rotmgStep2 x
  else some x

/-- blas/rotmg.hpp:95-212 `rotmg(d1, d2, a, b, h)`.  The argument check (line 98) throws when
`d1 <= 0`: the result is then `none` (so lines 113-118, `d1 < 0`, are unreachable). -/
noncomputable def rotmg (d1 d2 a b : ℝ) : Option RotmSt := do
  if d1 ≤ 0 then none
  else if d2 * b = 0 then return ⟨-2, d1, d2, a, 0, 0, 0, 0⟩
  else rotmgLoop2 (← rotmgLoop1 (← rotmgBase d1 d2 a b))

/-! ## Nonsymmetric 2 by 2 eigenproblem -/

/-- base/utils.hpp `abs1` of a complex number. -/
def abs1 (z : ℂ) : ℝ := |z.re| + |z.im|

/-- The principal complex square root (`std::sqrt(std::complex)`). -/
noncomputable def csqrt (z : ℂ) : ℂ := z ^ (1 / 2 : ℂ)

/-- lapack/lahqr_eig22.hpp:34-61 for real matrices; returns `(s1, s2)`. -/
noncomputable def lahqrEig22 (a00 a01 a10 a11 : ℝ) : Option (ℂ × ℂ) := do
  let s := |a00| + |a01| + |a10| + |a11|
  if s = 0 then return (0, 0)
  else
    let a00 ← dv a00 s
    let a01 ← dv a01 s
    let a10 ← dv a10 s
    let a11 ← dv a11 s
    let tr := (a00 + a11) / 2
    let det : ℂ := ((a00 - tr) * (a00 - tr) + a01 * a10 : ℝ)
    let rtdisc := csqrt det
    return (s * (tr + rtdisc), s * (tr - rtdisc))

/-- lapack/lahqr_eig22.hpp:34-61 for complex matrices; returns `(s1, s2)`. -/
noncomputable def lahqrEig22C (a00 a01 a10 a11 : ℂ) : Option (ℂ × ℂ) := do
  let s := abs1 a00 + abs1 a01 + abs1 a10 + abs1 a11
  if s = 0 then return (0, 0)
  else
    let a00 ← dvC a00 s
    let a01 ← dvC a01 s
    let a10 ← dvC a10 s
    let a11 ← dvC a11 s
    let tr := (a00 + a11) / 2
    let det := (a00 - tr) * (a00 - tr) + a01 * a10
    let rtdisc := csqrt det
    return (s * (tr + rtdisc), s * (tr - rtdisc))

/-- The in/out arguments `a b c d` and the outputs `cs sn` of `lahqr_schur22`. -/
structure Schur where
  a : ℝ
  b : ℝ
  c : ℝ
  d : ℝ
  cs : ℝ
  sn : ℝ

/-- Machine constants of lapack/lahqr_schur22.hpp:58-61 (`safmx2 = 1/safmn2`). -/
structure SchurPar where
  eps : ℝ
  safmn2 : ℝ

/-- lapack/lapy2.hpp:30-56 is modelled in `Model/House.lean`; here its value in exact arithmetic. -/
noncomputable def lapy2R (x y : ℝ) : ℝ := Real.sqrt (x * x + y * y)

/-- lapack/lahqr_schur22.hpp:110-123: the rescaling loop on `(sigma, temp)`, at most 20 passes. -/
noncomputable def schurRescale (p : SchurPar) : ℕ → ℝ × ℝ → ℝ × ℝ
  | 0, x => x
  | k + 1, (sigma, temp) =>
    let scale := max |temp| |sigma|
    if scale ≥ 1 / p.safmn2 then schurRescale p k (sigma * p.safmn2, temp * p.safmn2)
    else if scale ≤ p.safmn2 then schurRescale p k (sigma * (1 / p.safmn2), temp * (1 / p.safmn2))
    else (sigma, temp)

/-- lapack/lahqr_schur22.hpp:132-143: similarity of `[a b; c d]` by the rotation `(cs, sn)`. -/
def schurRotate (a b c d cs sn : ℝ) : Schur :=
  let aa := a * cs + b * sn
  let bb := -a * sn + b * cs
  let cc := c * cs + d * sn
  let dd := -c * sn + d * cs
  ⟨aa * cs + cc * sn, bb * cs + dd * sn, -aa * sn + cc * cs, -bb * sn + dd * cs, cs, sn⟩

/-- lapack/lahqr_schur22.hpp:149-168: reduce to upper triangular if the eigenvalues are real. -/
noncomputable def schurReal (x : Schur) (temp : ℝ) : Option Schur := do
  if x.c ≠ 0 ∧ x.b ≠ 0 ∧ sgn x.b = sgn x.c then
    let sab ← sq |x.b|
    let sac ← sq |x.c|
    let p := if x.c > 0 then sab * sac else -sab * sac
    let tau ← dv 1 (← sq |x.b + x.c|)
    let cs1 := sab * tau
    let sn1 := sac * tau
    return ⟨temp + p, x.b - x.c, 0, temp - p, x.cs * cs1 - x.sn * sn1, x.cs * sn1 + x.sn * cs1⟩
  else return x

/-- lapack/lahqr_schur22.hpp:91-103: real, well separated eigenvalues. -/
noncomputable def schurSep (b c d p bcmax bcmin scale z : ℝ) : Option Schur := do
  let z := p + sgn p * (← sq scale) * (← sq z)
  let a := d + z
  let d := d - (← dv bcmax z) * bcmin
  let tau := lapy2R c z
  let cs ← dv z tau
  let sn ← dv c tau
  return ⟨a, b - c, 0, d, cs, sn⟩

/-- lapack/lahqr_schur22.hpp:105-169: complex or nearly equal eigenvalues. -/
noncomputable def schurNear (pr : SchurPar) (a b c d : ℝ) : Option Schur := do
  let (sigma, temp) := schurRescale pr 20 (b + c, a - d)
  let p := 1 / 2 * temp
  let tau := lapy2R sigma temp
  let cs ← sq (1 / 2 * (1 + (← dv |sigma| tau)))
  let sn := -(← dv p (tau * cs)) * sgn sigma
  let x := schurRotate a b c d cs sn
  let temp := 1 / 2 * (x.a + x.d)
  schurReal { x with a := temp, d := temp } temp

/-- lapack/lahqr_schur22.hpp:63-170: the Schur form (everything but the eigenvalues). -/
noncomputable def schur22 (pr : SchurPar) (a b c d : ℝ) : Option Schur := do
  if c = 0 then return ⟨a, b, c, d, 1, 0⟩
  else if b = 0 then return ⟨d, -c, 0, a, 0, 1⟩
  else if a - d = 0 ∧ sgn b ≠ sgn c then return ⟨a, b, c, d, 1, 0⟩
  else
    let temp := a - d
    let p := 1 / 2 * temp
    let bcmax := max |b| |c|
    let bcmin := min |b| |c| * (sgn b * sgn c)
    let scale := max |p| bcmax
    let z := (← dv p scale) * p + (← dv bcmax scale) * bcmin
    if z ≥ 4 * pr.eps then schurSep b c d p bcmax bcmin scale z
    else schurNear pr a b c d

/-- lapack/lahqr_schur22.hpp:44-181 `lahqr_schur22`: the Schur form and the eigenvalues `(s1, s2)`. -/
noncomputable def lahqrSchur22 (pr : SchurPar) (a b c d : ℝ) : Option (Schur × ℂ × ℂ) := do
  let x ← schur22 pr a b c d
  if x.c ≠ 0 then
    let temp := (← sq |x.b|) * (← sq |x.c|)
    return (x, ⟨x.a, temp⟩, ⟨x.d, -temp⟩)
  else return (x, (x.a : ℂ), (x.d : ℂ))

/-! ## Rank-one updated 2 by 2 diagonal matrix -/

/-- lapack/laed5.hpp:95-97 (= 114-116): normalise `delta`. -/
noncomputable def laed5Unit (x y : ℝ) : Option (ℝ × ℝ) := do
  let temp ← sq (x * x + y * y)
  return (← dv x temp, ← dv y temp)

/-- lapack/laed5.hpp:61-120 `laed5(i, d, z, delta, rho, dlam)`; returns `(dlam, delta)`. -/
noncomputable def laed5 (i : ℕ) (d0 d1 z0 z1 rho : ℝ) : Option (ℝ × ℝ × ℝ) := do
  let del := d1 - d0
  if i = 0 then
    let w := 1 + (← dv (2 * rho * (z1 * z1 - z0 * z0)) del)
    if w > 0 then
      let b := del + rho * (z0 * z0 + z1 * z1)
      let c := rho * z0 * z0 * del
      let tau ← dv (2 * c) (b + (← sq |b * b - 4 * c|))
      let dl ← laed5Unit (← dv (-z0) tau) (← dv z1 (del - tau))
      return (d0 + tau, dl)
    else
      let b := -del + rho * (z0 * z0 + z1 * z1)
      let c := rho * z1 * z1 * del
      let tau ← (if b > 0 then do dv (-2 * c) (b + (← sq (b * b + 4 * c)))
        else do pure ((b - (← sq (b * b + 4 * c))) / 2) : Option ℝ)
      let dl ← laed5Unit (← dv (-z0) (del + tau)) (← dv (-z1) tau)
      return (d1 + tau, dl)
  else
    let b := -del + rho * (z0 * z0 + z1 * z1)
    let c := rho * z1 * z1 * del
    let tau ← (if b > 0 then do pure ((b + (← sq (b * b + 4 * c))) / 2)
      else do dv (2 * c) (-b + (← sq (b * b + 4 * c))) : Option ℝ)
    let dl ← laed5Unit (← dv (-z0) (del + tau)) (← dv (-z1) tau)
    return (d1 + tau, dl)

/-! ## First column of the double-shift polynomial -/

/-- lapack/lahqr_shiftcolumn.hpp:59-72, 2 by 2, real: `h i j = H(i, j)`; returns `v`. -/
noncomputable def shiftcol2 (h : ℕ → ℕ → ℝ) (s1 s2 : ℂ) : Option (ℝ × ℝ) := do
  let s := |h 0 0 - s2.re| + |s2.im| + |h 1 0|
  if s = 0 then return (0, 0)
  else
    let h10s ← dv (h 1 0) s
    let v0 := h10s * h 0 1 + (h 0 0 - s1.re) * (← dv (h 0 0 - s2.re) s) - s1.im * (← dv s2.im s)
    let v1 := h10s * (h 0 0 + h 1 1 - s1.re - s2.re)
    return (v0, v1)

/-- lapack/lahqr_shiftcolumn.hpp:73-91, 3 by 3, real. -/
noncomputable def shiftcol3 (h : ℕ → ℕ → ℝ) (s1 s2 : ℂ) : Option (ℝ × ℝ × ℝ) := do
  let s := |h 0 0 - s2.re| + |s2.im| + |h 1 0| + |h 2 0|
  if s = 0 then return (0, 0, 0)
  else
    let h10s ← dv (h 1 0) s
    let h20s ← dv (h 2 0) s
    let v0 := (h 0 0 - s1.re) * (← dv (h 0 0 - s2.re) s) - s1.im * (← dv s2.im s)
      + h 0 1 * h10s + h 0 2 * h20s
    let v1 := h10s * (h 0 0 + h 1 1 - s1.re - s2.re) + h 1 2 * h20s
    let v2 := h20s * (h 0 0 + h 2 2 - s1.re - s2.re) + h10s * h 2 1
    return (v0, v1, v2)

/-- lapack/lahqr_shiftcolumn.hpp:136-147, 2 by 2, complex. -/
noncomputable def shiftcol2C (h : ℕ → ℕ → ℂ) (s1 s2 : ℂ) : Option (ℂ × ℂ) := do
  let s := abs1 (h 0 0 - s2) + abs1 (h 1 0)
  if s = 0 then return (0, 0)
  else
    let h10s ← dvC (h 1 0) s
    let v0 := h10s * h 0 1 + (h 0 0 - s1) * (← dvC (h 0 0 - s2) s)
    let v1 := h10s * (h 0 0 + h 1 1 - s1 - s2)
    return (v0, v1)

/-- lapack/lahqr_shiftcolumn.hpp:148-163, 3 by 3, complex. -/
noncomputable def shiftcol3C (h : ℕ → ℕ → ℂ) (s1 s2 : ℂ) : Option (ℂ × ℂ × ℂ) := do
  let s := abs1 (h 0 0 - s2) + abs1 (h 1 0) + abs1 (h 2 0)
  if s = 0 then return (0, 0, 0)
  else
    let h10s ← dvC (h 1 0) s
    let h20s ← dvC (h 2 0) s
    let v0 := (h 0 0 - s1) * (← dvC (h 0 0 - s2) s) + h 0 1 * h10s + h 0 2 * h20s
    let v1 := h10s * (h 0 0 + h 1 1 - s1 - s2) + h 1 2 * h20s
    let v2 := h20s * (h 0 0 + h 2 2 - s1 - s2) + h10s * h 2 1
    return (v0, v1, v2)

/-! ## Inverse reflector -/

/-- lapack/inv_house3.hpp:46-111: the vector handed to `larfg` (line 61, 103 or 114).
`A` is given by its entries. -/
noncomputable def invHouse3 (safemin : ℝ) (A : ℕ → ℕ → ℝ) : Option (ℝ × ℝ × ℝ) := do
  let temp1 := max |A 0 1| |A 0 2|
  let temp2 := max |A 1 1| |A 1 2|
  if temp1 < safemin ∧ temp2 < safemin then return (0, 1, 0)
  else
    let r := if temp1 ≥ temp2 then 0 else 1
    let a11 := A r 1
    let a12 := A r 2
    let a21 := A (1 - r) 1
    let a22 := A (1 - r) 2
    let v1 := -A r 0
    let v2 := -A (1 - r) 0
    let colswapped := |a12| > |a11|
    let (u11, u12, a21, a22) := if colswapped then (a12, a11, a22, a21) else (a11, a12, a21, a22)
    let l21 ← dv a21 u11
    let u22 := a22 - l21 * u12
    let v2 := v2 - v1 * l21
    if |u22| < safemin then return (0, 1, ← dv (-u12) u11)
    else
      let scale ← (if |u22| < |v2| then do pure |← dv u22 v2| else pure 1 : Option ℝ)
      let scale ← (if |u11| < |v1| then do pure (min scale |← dv u11 v1|) else pure scale : Option ℝ)
      let v2 ← dv (scale * v2) u22
      let v1 ← dv (scale * v1 - u12 * v2) u11
      if colswapped then return (scale, v2, v1) else return (scale, v1, v2)

end TLA.Kernel
