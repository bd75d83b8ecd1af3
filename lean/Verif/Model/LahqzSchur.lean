import Verif.Model.Lahqz

/-!
# Model of lahqz_schur22 for real matrices

Exact arithmetic, `none` is a division by zero.  `sm` is `safe_min`, `eps` is `ulp`.
-/

namespace TLA.Kernel

/-- The entries of `A` and `B`. -/
structure Pen where
  a00 : ℝ
  a01 : ℝ
  a10 : ℝ
  a11 : ℝ
  b00 : ℝ
  b01 : ℝ
  b10 : ℝ
  b11 : ℝ

/-- The pencil and the two rotations. -/
structure Qs where
  p : Pen
  cl : ℝ
  sl : ℝ
  cr : ℝ
  sr : ℝ

/-- lahqz_schur22.hpp:110-116. -/
def qsA10 (x : Pen) : Qs := ⟨{ x with a10 := 0 }, 1, 0, 1, 0⟩

/-- lahqz_schur22.hpp:125-136. -/
noncomputable def qsB00 (o : RotOps ℝ) (x : Pen) : Option Qs := do
  let (r, c, s) ← qzRotg o x.a00 x.a10
  pure ⟨{ x with a00 := r, a10 := 0, a01 := c * x.a01 + s * x.a11, a11 := c * x.a11 - s * x.a01,
                 b00 := 0, b01 := c * x.b01 + s * x.b11, b11 := c * x.b11 - s * x.b01 }, c, s, 1, 0⟩

/-- lahqz_schur22.hpp:139-152. -/
noncomputable def qsB11 (o : RotOps ℝ) (x : Pen) : Option Qs := do
  let (r, c, s) ← qzRotg o x.a11 x.a10
  pure ⟨{ x with a11 := r, a10 := 0, a01 := c * x.a01 + s * x.a00, a00 := c * x.a00 - s * x.a01,
                 b11 := 0, b01 := c * x.b01 + s * x.b00, b00 := c * x.b00 - s * x.b01 }, 1, 0, c, -s⟩

/-- lahqz_schur22.hpp:172-221: the right rotation, real eigenvalue `al/be`. Returns the pencil, `cr`, `sr`. -/
noncomputable def qsRight (o : RotOps ℝ) (x : Pen) (al be : ℝ) : Option (Pen × ℝ × ℝ) := do
  let h00 := be * x.a00 - al * x.b00
  let h01 := be * x.a01 - al * x.b01
  let h10 := be * x.a10
  let h11 := be * x.a11 - al * x.b11
  let rr := lapy2R h00 h01
  let qq := lapy2R h10 h11
  let (_, c, s) ← (if rr > qq then qzRotg o h01 h00 else qzRotg o h11 h10 : Option (ℝ × ℝ × ℝ))
  pure (⟨c * x.a00 - s * x.a01, c * x.a01 + s * x.a00, c * x.a10 - s * x.a11, c * x.a11 + s * x.a10,
    c * x.b00 - s * x.b01, c * x.b01 + s * x.b00, -s * x.b11, c * x.b11⟩, c, -s)

/-- lahqz_schur22.hpp:231-272: the left rotation. Returns the pencil, `cl`, `sl`. -/
noncomputable def qsLeft (o : RotOps ℝ) (x : Pen) : Option (Pen × ℝ × ℝ) := do
  let anrm := max (|x.a00| + |x.a01|) (|x.a10| + |x.a11|)
  let bnrm := max (|x.b00| + |x.b01|) (|x.b10| + |x.b11|)
  let (ta, clA, slA) ← qzRotg o x.a00 x.a10
  let eB10 := -slA * x.b00 + clA * x.b10
  let (tb, clB, slB) ← qzRotg o x.b00 x.b10
  let eA10 := -slB * x.a00 + clB * x.a10
  let (c, s, a00, b00) := if |eA10| * bnrm ≤ |eB10| * anrm then (clB, slB, clB * x.a00 + slB * x.a10, tb)
    else (clA, slA, ta, clA * x.b00 + slA * x.b10)
  pure (⟨a00, c * x.a01 + s * x.a11, 0, c * x.a11 - s * x.a01, b00, c * x.b01 + s * x.b11, 0, c * x.b11 - s * x.b01⟩, c, s)

/-- lahqz_schur22.hpp:280-301: complex conjugate eigenvalues. -/
noncomputable def qsPair (eps : ℝ) (x : Pen) : Option Qs := do
  let o ← svd22 eps x.b00 x.b01 x.b11
  let a00 := o.csl * x.a00 + o.snl * x.a10
  let a10 := o.csl * x.a10 - o.snl * x.a00
  let a01 := o.csl * x.a01 + o.snl * x.a11
  let a11 := o.csl * x.a11 - o.snl * x.a01
  pure ⟨{ x with a00 := o.csr * a00 + o.snr * a01, a01 := o.csr * a01 - o.snr * a00, a10 := o.csr * a10 + o.snr * a11,
                 a11 := o.csr * a11 - o.snr * a10, b00 := o.ssmax, b11 := o.ssmin, b01 := 0 }, o.csl, o.snl, o.csr, o.snr⟩

/-- lahqz_schur22.hpp:344-358: nonnegative diagonal of `B`. Returns the pencil, `scal0`, `scal1`. -/
noncomputable def qsSign (x : Pen) : Pen × ℝ × ℝ :=
  let x0 := if x.b00 < 0 then { x with b00 := -x.b00, a00 := -x.a00, a10 := -x.a10 } else x
  let s0 : ℝ := if x.b00 < 0 then -1 else 1
  let x1 := if x0.b11 < 0 then { x0 with b01 := -x0.b01, b11 := -x0.b11, a01 := -x0.a01, a11 := -x0.a11 } else x0
  let s1 : ℝ := if x0.b11 < 0 then -1 else 1
  (x1, s0, s1)

/-- The output arguments of lahqz_schur22. -/
structure QsOut where
  p : Pen
  e1 : ℂ × ℝ
  e2 : ℂ × ℝ
  cl : ℝ
  sl : ℝ
  cr : ℝ
  sr : ℝ
  scal0 : ℝ
  scal1 : ℝ

/-- lahqz_schur22.hpp:63-383 for real matrices; `e` are the values of `alpha1, beta1, alpha2, beta2` on entry. -/
noncomputable def lahqzSchur22 (o : RotOps ℝ) (sm eps : ℝ) (x : Pen) (e : (ℂ × ℝ) × (ℂ × ℝ)) : Option QsOut := do
  let anorm := max (max (|x.a00| + |x.a10|) (|x.a01| + |x.a11|)) sm
  let ascale ← dv 1 anorm
  let bnorm := max (max |x.b00| (|x.b01| + |x.b11|)) sm
  let bscale ← dv 1 bnorm
  let y : Pen := ⟨x.a00 * ascale, x.a01 * ascale, x.a10 * ascale, x.a11 * ascale, x.b00 * bscale, x.b01 * bscale, x.b10, x.b11 * bscale⟩
  let tst := |y.a00| + |y.a11|
  let (z, e) ← (if |y.a10| ≤ eps * tst then pure (qsA10 y, e)
    else if |y.b00| ≤ eps then do pure (← qsB00 o y, e)
    else if |y.b11| ≤ eps then do pure (← qsB11 o y, e)
    else do
      let e ← qzEig22 o sm y.a00 y.a01 y.a10 y.a11 y.b00 y.b01 y.b11
      if e.1.1.im = 0 then do
        let r ← qsRight o y e.1.1.re e.1.2
        let l ← qsLeft o r.1
        pure (⟨l.1, l.2.1, l.2.2, r.2.1, r.2.2⟩, e)
      else do pure (← qsPair eps y, e) : Option (Qs × ((ℂ × ℝ) × (ℂ × ℝ))))
  let w := qsSign z.p
  let p : Pen := ⟨w.1.a00 * anorm, w.1.a01 * anorm, w.1.a10 * anorm, w.1.a11 * anorm, w.1.b00 * bnorm, w.1.b01 * bnorm, w.1.b10 * bnorm, w.1.b11 * bnorm⟩
  if p.a10 = 0 then pure ⟨p, ((p.a00 : ℂ), p.b00), ((p.a11 : ℂ), p.b11), z.cl, z.sl, z.cr, z.sr, w.2.1, w.2.2⟩
  else pure ⟨p, (e.1.1 * anorm, e.1.2 * bnorm), (e.2.1 * anorm, e.2.2 * bnorm), z.cl, z.sl, z.cr, z.sr, w.2.1, w.2.2⟩

end TLA.Kernel
