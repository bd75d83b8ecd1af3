import Verif.Model.Kernel

/-!
# Model of laed6

Exact arithmetic over the reals; `none` is a division by zero.  `eps` is `ulp` and `small1` is `pow(2, log(safmin)/log(2)/3)`.
-/

namespace TLA.Kernel

/-- The root of `c x² - a x + b` of smaller modulus: laed6.hpp:127-137 and 283-293. -/
noncomputable def l6Quad (a b c : ℝ) : Option ℝ :=
  if c = 0 then dv b a
  else do
    let q ← sq |a * a - 4 * b * c|
    if a ≤ 0 then dv (a - q) (2 * c) else dv (2 * b) (a + q)

/-- The sums laed6.hpp:220-232 (304-325): `fc`, `df`, `ddf` and the sum of the moduli of the terms of `fc`. -/
noncomputable def l6Sums (d z : Fin 3 → ℝ) (tau : ℝ) : Option (ℝ × ℝ × ℝ × ℝ) := do
  let p0 ← dv 1 (d 0 - tau)
  let p1 ← dv 1 (d 1 - tau)
  let p2 ← dv 1 (d 2 - tau)
  let q0 ← dv (z 0 * p0) (d 0)
  let q1 ← dv (z 1 * p1) (d 1)
  let q2 ← dv (z 2 * p2) (d 2)
  pure (0 + q0 + q1 + q2, 0 + z 0 * p0 * p0 + z 1 * p1 * p1 + z 2 * p2 * p2,
    0 + z 0 * p0 * p0 * p0 + z 1 * p1 * p1 * p1 + z 2 * p2 * p2 * p2, 0 + |q0| + |q1| + |q2|)

/-- The variables that the iteration carries. -/
structure L6 where
  lbd : ℝ
  ubd : ℝ
  tau : ℝ
  f : ℝ
  df : ℝ
  ddf : ℝ
  conv : Bool

/-- The poles next to the root: `d[1]`, `d[2]` or `d[0]`, `d[1]`. -/
def l6Lo (orgati : Bool) (d : Fin 3 → ℝ) : ℝ := if orgati then d 1 else d 0
def l6Hi (orgati : Bool) (d : Fin 3 → ℝ) : ℝ := if orgati then d 2 else d 1

/-- One pass of the loop laed6.hpp:261-349.  Line 281 divides `b`, not `c`, by `temp`. -/
noncomputable def l6Pass (eps finit : ℝ) (orgati : Bool) (d z : Fin 3 → ℝ) (s : L6) : Option L6 := do
  let temp1 := l6Lo orgati d - s.tau
  let temp2 := l6Hi orgati d - s.tau
  let a := (temp1 + temp2) * s.f - temp1 * temp2 * s.df
  let b := temp1 * temp2 * s.f
  let c := s.f - (temp1 + temp2) * s.df + temp1 * temp2 * s.ddf
  let temp := max (max |a| |b|) |c|
  let a ← dv a temp
  let b ← dv b temp
  let c ← dv b temp
  let eta ← l6Quad a b c
  let eta ← (if s.f * eta ≥ 0 then dv (-s.f) s.df else pure eta : Option ℝ)
  let tau := s.tau + eta
  let tau := if tau < s.lbd ∨ tau > s.ubd then (s.lbd + s.ubd) / 2 else tau
  if d 0 - tau = 0 ∨ d 1 - tau = 0 ∨ d 2 - tau = 0 then pure { s with tau := tau, conv := true }
  else do
    let x ← l6Sums d z tau
    let f := finit + tau * x.1
    let err := 8 * (|finit| + |tau| * x.2.2.2) + |tau| * x.2.1
    if |f| ≤ 4 * eps * err ∨ s.ubd - s.lbd ≤ 4 * eps * |tau| then pure { s with tau := tau, f := f, df := x.2.1, ddf := x.2.2.1, conv := true }
    else pure { lbd := if f ≤ 0 then tau else s.lbd, ubd := if f ≤ 0 then s.ubd else tau, tau := tau, f := f, df := x.2.1, ddf := x.2.2.1, conv := false }

/-- The loop laed6.hpp:259-351: `iter` runs from 1 to `maxit - 1`. -/
noncomputable def l6Loop (eps finit : ℝ) (orgati : Bool) (d z : Fin 3 → ℝ) : Nat → L6 → Option L6
  | 0, s => pure s
  | k + 1, s => if s.conv then pure s else do l6Loop eps finit orgati d z k (← l6Pass eps finit orgati d z s)

/-- laed6.hpp:220-247. -/
noncomputable def l6Init (finit : ℝ) (d z : Fin 3 → ℝ) (lbd ubd tau : ℝ) : Option L6 := do
  let x ← l6Sums d z tau
  let f := finit + tau * x.1
  if |f| ≤ 0 then pure ⟨lbd, ubd, tau, f, x.2.1, x.2.2.1, true⟩
  else pure ⟨if f ≤ 0 then tau else lbd, if f ≤ 0 then ubd else tau, tau, f, x.2.1, x.2.2.1, false⟩

/-- laed6.hpp:110-161: the first guess.  Returns `lbd`, `ubd`, `tau`. -/
noncomputable def l6Guess (first : Bool) (orgati : Bool) (rho finit : ℝ) (d z : Fin 3 → ℝ) (lbd ubd : ℝ) : Option (ℝ × ℝ × ℝ) :=
  if first then do
    let abc ← (if orgati then do
        let temp := (d 2 - d 1) / 2
        let c := rho + (← dv (z 0) ((d 0 - d 1) - temp))
        pure (c * (d 1 + d 2) + z 1 + z 2, c * d 1 * d 2 + z 1 * d 2 + z 2 * d 1, c)
      else do
        let temp := (d 0 - d 1) / 2
        let c := rho + (← dv (z 2) ((d 2 - d 1) - temp))
        pure (c * (d 0 + d 1) + z 0 + z 1, c * d 0 * d 1 + z 0 * d 1 + z 1 * d 0, c) : Option (ℝ × ℝ × ℝ))
    let temp := max (max |abc.1| |abc.2.1|) |abc.2.2|
    let a ← dv abc.1 temp
    let b ← dv abc.2.1 temp
    let c ← dv abc.2.2 temp
    let tau ← l6Quad a b c
    let tau := if tau < lbd ∨ tau > ubd then (lbd + ubd) / 2 else tau
    if d 0 = tau ∨ d 1 = tau ∨ d 2 = tau then pure (lbd, ubd, 0)
    else do
      let t0 ← dv (tau * z 0) (d 0 * (d 0 - tau))
      let t1 ← dv (tau * z 1) (d 1 * (d 1 - tau))
      let t2 ← dv (tau * z 2) (d 2 * (d 2 - tau))
      let temp := finit + t0 + t1 + t2
      pure (if temp ≤ 0 then tau else lbd, if temp ≤ 0 then ubd else tau, if |finit| ≤ |temp| then 0 else tau)
  else pure (lbd, ubd, 0)

/-- laed6.hpp:78-362; `first` is `kniter == 1`.  Returns `info` and `tau`. -/
noncomputable def laed6 (eps small1 : ℝ) (first : Bool) (orgati : Bool) (rho : ℝ) (d z : Fin 3 → ℝ) (finit : ℝ) : Option (Nat × ℝ) := do
  let lbd := if finit < 0 then 0 else l6Lo orgati d
  let ubd := if finit < 0 then l6Hi orgati d else 0
  let g ← l6Guess first orgati rho finit d z lbd ubd
  let sminv1 ← dv 1 small1
  let temp := min |l6Lo orgati d - g.2.2| |l6Hi orgati d - g.2.2|
  let sclfac := if temp ≤ small1 then (if temp ≤ small1 * small1 then sminv1 * sminv1 else sminv1) else 1
  let sclinv := if temp ≤ small1 then (if temp ≤ small1 * small1 then small1 * small1 else small1) else 1
  let ds : Fin 3 → ℝ := fun i => d i * sclfac
  let zs : Fin 3 → ℝ := fun i => z i * sclfac
  let s ← l6Init finit ds zs (g.1 * sclfac) (g.2.1 * sclfac) (g.2.2 * sclfac)
  let s ← l6Loop eps finit orgati ds zs 39 s
  pure (if s.conv then 0 else 1, s.tau * sclinv)

end TLA.Kernel
