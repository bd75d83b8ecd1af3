import Verif.Model.Rot
import Verif.Model.Kernel

/-!
# Scalar kernels of the QZ algorithm: lahqz_eig22, lahqz_shiftcolumn

As in Model/Kernel.lean: exact arithmetic, `none` for a division by zero.  `sm` is `safe_min`, and `safe_max = 1/safe_min`
(base/constants.hpp:92-96), so `rtmin = sqrt(sm)`, `rtmax = sqrt(1/sm)`, `safmax = 1/sm` (lahqz_eig22.hpp:49-52).
-/

namespace TLA.Kernel

/-- `rotg(a, b, c, s)` on two temporaries: the new `a`, `c`, `s`. -/
def qzRotg {T : Type} (o : RotOps T) (a b : T) : Option (T × T × T) :=
  match o.gen a b with
  | none => none
  | some (r, _, c, s) => some (r, c, s)

/-- lahqz_eig22.hpp:273-315 (and 316-335 for `alpha2`): scaling of an eigenvalue; `none` never happens for `sm > 0`.
The assignment `beta2 = beta1` of line 313 is overwritten by lines 322-334. -/
noncomputable def qzScale (sm ascale bsize bnorm : ℝ) (alpha : ℂ) : Option (ℂ × ℝ) := do
  let c1 := bsize * (sm * max 1 ascale)
  let c2 := sm * max 1 bnorm
  let c3 := bsize * sm
  let c4 ← (if ascale ≤ 1 ∧ bsize ≤ 1 then do pure (min 1 ((← dv ascale sm) * bsize)) else pure 1 : Option ℝ)
  let c5 := if ascale ≤ 1 ∨ bsize ≤ 1 then min 1 (ascale * bsize) else 1
  let wabs := abs1 alpha
  let wsize := max (max sm c1) (max ((1 + 1 / 100000) * (wabs * c2 + c3)) (min c4 (1 / 2 * max wabs c5)))
  if wsize ≠ 1 then do
    let wscale ← dv 1 wsize
    let beta := if wsize > 1 then (max ascale bsize * wscale) * min ascale bsize else (min ascale bsize * wscale) * max ascale bsize
    pure (wscale * alpha, beta)
  else pure (alpha, ascale * bsize)

/-- lahqz_eig22.hpp:170-191, real: `(shift, pp, qq, abi11)`. -/
noncomputable def qzPQ (a00 a01 a10 a11 b00 b01 b11 : ℝ) : Option (ℝ × ℝ × ℝ × ℝ) := do
  let binv00 ← dv 1 b00
  let binv11 ← dv 1 b11
  let s0 := a00 * binv00
  let s1 := a11 * binv11
  if |s0| ≤ |s1| then
    let as01 := a01 - s0 * b01
    let as11 := a11 - s0 * b11
    let ss := a10 * (binv00 * binv11)
    let abi11 := as11 * binv11 - ss * b01
    return (s0, 1 / 2 * abi11, ss * as01, abi11)
  else
    let as01 := a01 - s1 * b01
    let as00 := a00 - s1 * b00
    let ss := a10 * (binv00 * binv11)
    let abi11 := -ss * b01
    return (s1, 1 / 2 * (as00 * binv00 + abi11), ss * as01, abi11)

/-- lahqz_eig22.hpp:194-207, real: `(discr, r)`. -/
noncomputable def qzDiscr (sm pp qq : ℝ) : ℝ × ℝ :=
  let rtmin := Real.sqrt sm
  let rtmax := Real.sqrt (1 / sm)
  if |pp * rtmin| ≥ 1 then
    let d := (rtmin * pp) * (rtmin * pp) + qq * sm
    (d, Real.sqrt |d| * rtmax)
  else if |pp * pp| + |qq| ≤ sm then
    let d := (rtmax * pp) * (rtmax * pp) + qq * (1 / sm)
    (d, Real.sqrt |d| * rtmin)
  else
    let d := pp * pp + qq
    (d, Real.sqrt |d|)

/-- lahqz_eig22.hpp:223-259: the eigenvalues of the scaled pencil, real matrices. -/
noncomputable def qzRoots (sm a00 a01 a10 a11 b00 b11 shift pp abi11 discr r : ℝ) : Option (ℂ × ℂ) := do
  if discr ≥ 0 ∨ r = 0 then
    let rpp := if pp > 0 then r else -r
    let wbig := shift + (pp + rpp)
    let wsmall := shift + (pp - rpp)
    let wsmall ← (if 1 / 2 * |wbig| > max |wsmall| sm then do
        let binv00 ← dv 1 b00
        let binv11 ← dv 1 b11
        dv ((a00 * a11 - a01 * a10) * (binv00 * binv11)) wbig
      else pure wsmall : Option ℝ)
    if pp > abi11 then return ((min wbig wsmall : ℝ), (max wbig wsmall : ℝ))
    else return ((max wbig wsmall : ℝ), (min wbig wsmall : ℝ))
  else return (⟨shift + pp, r⟩, ⟨shift + pp, -r⟩)

/-- lapack/lahqz_eig22.hpp:33-336 for real matrices; `B(1,0)` is not read.  Returns `((alpha1, beta1), (alpha2, beta2))`. -/
noncomputable def qzEig22 (o : RotOps ℝ) (sm A00 A01 A10 A11 b00 b01 b11 : ℝ) : Option ((ℂ × ℝ) × (ℂ × ℝ)) := do
  let rtmin := Real.sqrt sm
  let anorm := max (max (|A00| + |A10|) (|A01| + |A11|)) sm
  let ascale ← dv 1 anorm
  let a00 := ascale * A00
  let a01 := ascale * A01
  let a10 := ascale * A10
  let a11 := ascale * A11
  let bmin := rtmin * max (max |b00| |b01|) (max |b11| rtmin)
  if |b00| < bmin then
    let (a00, a11, b11) ← (if a10 ≠ 0 then do
        let (r, c, s) ← qzRotg o a00 a10
        pure (r, c * a11 - s * a01, c * b11 - s * b01)
      else pure (a00, a11, b11) : Option (ℝ × ℝ × ℝ))
    return ((a00, 0), (a11, b11 * ascale))
  else if |b11| < bmin then
    let (a00, a11, b00) ← (if a10 ≠ 0 then do
        let (r, c, s) ← qzRotg o a11 a10
        pure (c * a00 - s * a01, r, c * b00 - s * b01)
      else pure (a00, a11, b00) : Option (ℝ × ℝ × ℝ))
    return ((a00, b00 * ascale), (a11, 0))
  else
    let bnorm := max (max |b00| (|b01| + |b11|)) sm
    let bsize := max |b00| |b11|
    let bscale ← dv 1 bsize
    let b00 := bscale * b00
    let b01 := bscale * b01
    let b11 := bscale * b11
    let (shift, pp, qq, abi11) ← qzPQ a00 a01 a10 a11 b00 b01 b11
    let (discr, r) := qzDiscr sm pp qq
    let (al1, al2) ← qzRoots sm a00 a01 a10 a11 b00 b11 shift pp abi11 discr r
    let x1 ← qzScale sm ascale bsize bnorm al1
    let x2 ← qzScale sm ascale bsize bnorm al2
    return (x1, x2)

/-- Complex division, `none` for a zero divisor. -/
noncomputable def dvz (x y : ℂ) : Option ℂ := if y = 0 then none else some (x / y)

/-- lahqz_eig22.hpp:170-191, complex: `(shift, pp, qq)`. -/
noncomputable def qzPQC (a00 a01 a10 a11 b00 b01 b11 : ℂ) : Option (ℂ × ℂ × ℂ) := do
  let binv00 ← dvz 1 b00
  let binv11 ← dvz 1 b11
  let s0 := a00 * binv00
  let s1 := a11 * binv11
  if abs1 s0 ≤ abs1 s1 then
    let as01 := a01 - s0 * b01
    let as11 := a11 - s0 * b11
    let ss := a10 * (binv00 * binv11)
    let abi11 := as11 * binv11 - ss * b01
    return (s0, 1 / 2 * abi11, ss * as01)
  else
    let as01 := a01 - s1 * b01
    let as00 := a00 - s1 * b00
    let ss := a10 * (binv00 * binv11)
    let abi11 := -ss * b01
    return (s1, 1 / 2 * (as00 * binv00 + abi11), ss * as01)

/-- lahqz_eig22.hpp:194-207, complex: `discr` (`r` is not used for complex matrices). -/
noncomputable def qzDiscrC (sm : ℝ) (pp qq : ℂ) : ℂ :=
  let rtmin := Real.sqrt sm
  let rtmax := Real.sqrt (1 / sm)
  if abs1 (pp * rtmin) ≥ 1 then (rtmin * pp) * (rtmin * pp) + qq * sm
  else if abs1 (pp * pp) + abs1 qq ≤ sm then (rtmax * pp) * (rtmax * pp) + qq * ((1 / sm : ℝ) : ℂ)
  else pp * pp + qq

/-- lahqz_eig22.hpp:210-221. -/
noncomputable def qzRootsC (shift pp qq discr : ℂ) : Option (ℂ × ℂ) := do
  let root := csqrt discr
  let big := if abs1 (pp + root) > abs1 (pp - root) then pp + root else pp - root
  let small ← dvz (-qq) big
  return (shift + big, shift + small)

/-- lapack/lahqz_eig22.hpp:33-336 for complex matrices (`real_t` values of `beta`). -/
noncomputable def qzEig22C (o : RotOps ℂ) (sm : ℝ) (A00 A01 A10 A11 b00 b01 b11 : ℂ) : Option ((ℂ × ℝ) × (ℂ × ℝ)) := do
  let rtmin := Real.sqrt sm
  let anorm := max (max (abs1 A00 + abs1 A10) (abs1 A01 + abs1 A11)) sm
  let ascale ← dv 1 anorm
  let a00 := ascale * A00
  let a01 := ascale * A01
  let a10 := ascale * A10
  let a11 := ascale * A11
  let bmin := rtmin * max (max (abs1 b00) (abs1 b01)) (max (abs1 b11) rtmin)
  if abs1 b00 < bmin then
    let (a00, a11, b11) ← (if a10 ≠ 0 then do
        let (r, c, s) ← qzRotg o a00 a10
        pure (r, c * a11 - star s * a01, c * b11 - star s * b01)
      else pure (a00, a11, b11) : Option (ℂ × ℂ × ℂ))
    let (a11, b11) ← (if abs1 b11 < bmin then pure (a11, (0 : ℂ)) else do
        let scale ← dvC (star b11) ‖b11‖
        pure (a11 * scale, (‖b11‖ : ℂ)) : Option (ℂ × ℂ))
    return ((a00, 0), (a11, b11.re * ascale))
  else if abs1 b11 < bmin then
    let (a00, a11, b00) ← (if a10 ≠ 0 then do
        let (r, c, s) ← qzRotg o a11 a10
        pure (c * a00 - star s * a01, r, c * b00 - star s * b01)
      else pure (a00, a11, b00) : Option (ℂ × ℂ × ℂ))
    let (a00, b00) ← (if abs1 b00 < bmin then pure (a00, (0 : ℂ)) else do
        let scale ← dvC (star b00) ‖b00‖
        pure (a00 * scale, (‖b00‖ : ℂ)) : Option (ℂ × ℂ))
    return ((a00, b00.re * ascale), (a11, 0))
  else
    let bnorm := max (max (abs1 b00) (abs1 b01 + abs1 b11)) sm
    let bsize := max (abs1 b00) (abs1 b11)
    let bscale ← dv 1 bsize
    let b00 := bscale * b00
    let b01 := bscale * b01
    let b11 := bscale * b11
    let (shift, pp, qq) ← qzPQC a00 a01 a10 a11 b00 b01 b11
    let (al1, al2) ← qzRootsC shift pp qq (qzDiscrC sm pp qq)
    let x1 ← qzScale sm ascale bsize bnorm al1
    let x2 ← qzScale sm ascale bsize bnorm al2
    return (x1, x2)

/-- The rescaling of `(w1, w2)` (lahqz_shiftcolumn.hpp:90-94, 98-102, 159-163, 167-171, with `abs` or `abs1` as `nrm`):
the new pair and `scale`. -/
noncomputable def qzW {T : Type} (dvT : T → ℝ → Option T) (nrm : T → ℝ) (smin smax : ℝ) (w1 w2 : T) : Option (T × T × ℝ) := do
  let scale := Real.sqrt (nrm w1) * Real.sqrt (nrm w2)
  if scale ≥ smin ∧ scale ≤ smax then return (← dvT w1 scale, ← dvT w2 scale, scale)
  else return (w1, w2, scale)

/-- lahqz_shiftcolumn.hpp:80-85, 2 by 2, real. -/
def qzShift2 (a b : Nat → Nat → ℝ) (s1 : ℂ) (beta1 : ℝ) : ℝ × ℝ :=
  (beta1 * a 0 0 - s1.re * b 0 0, beta1 * a 1 0 - s1.re * b 1 0)

/-- lahqz_shiftcolumn.hpp:86-118, 3 by 3, real. -/
noncomputable def qzShift3 (smin smax : ℝ) (a b : Nat → Nat → ℝ) (s1 s2 : ℂ) (beta1 beta2 : ℝ) : Option (ℝ × ℝ × ℝ) := do
  let w1 := beta1 * a 0 0 - s1.re * b 0 0
  let w2 := beta1 * a 1 0 - s1.re * b 1 0
  let (w1, w2, scale1) ← qzW dv (fun x => |x|) smin smax w1 w2
  let w2 ← dv w2 (b 1 1)
  let w1 ← dv (w1 - b 0 1 * w2) (b 0 0)
  let (w1, w2, scale2) ← qzW dv (fun x => |x|) smin smax w1 w2
  let v0 := beta2 * (a 0 0 * w1 + a 0 1 * w2) - s2.re * (b 0 0 * w1 + b 0 1 * w2)
  let v1 := beta2 * (a 1 0 * w1 + a 1 1 * w2) - s2.re * (b 1 0 * w1 + b 1 1 * w2)
  let v2 := beta2 * (a 2 0 * w1 + a 2 1 * w2) - s2.re * (b 2 0 * w1 + b 2 1 * w2)
  let v0 := v0 + (← dv (← dv (s1.im * s1.im * b 0 0) scale1) scale2)
  if |v0| > smax ∨ |v1| > smax ∨ |v2| > smax then return (0, 0, 0)
  else return (v0, v1, v2)

/-- lahqz_shiftcolumn.hpp:155-185, 3 by 3, complex. -/
noncomputable def qzShift3C (smin smax : ℝ) (a b : Nat → Nat → ℂ) (s1 s2 beta1 beta2 : ℂ) : Option (ℂ × ℂ × ℂ) := do
  let w1 := beta1 * a 0 0 - s1 * b 0 0
  let w2 := beta1 * a 1 0 - s1 * b 1 0
  let (w1, w2, _) ← qzW dvC abs1 smin smax w1 w2
  let w2 ← dvz w2 (b 1 1)
  let w1 ← dvz (w1 - b 0 1 * w2) (b 0 0)
  let (w1, w2, _) ← qzW dvC abs1 smin smax w1 w2
  let v0 := beta2 * (a 0 0 * w1 + a 0 1 * w2) - s2 * (b 0 0 * w1 + b 0 1 * w2)
  let v1 := beta2 * (a 1 0 * w1 + a 1 1 * w2) - s2 * (b 1 0 * w1 + b 1 1 * w2)
  let v2 := beta2 * (a 2 0 * w1 + a 2 1 * w2) - s2 * (b 2 0 * w1 + b 2 1 * w2)
  if abs1 v0 > smax ∨ abs1 v1 > smax ∨ abs1 v2 > smax then return (0, 0, 0)
  else return (v0, v1, v2)

end TLA.Kernel
