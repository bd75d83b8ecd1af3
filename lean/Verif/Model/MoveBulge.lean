import Verif.Model.House
import Verif.Model.Lahqr

/-!
# Model of move_bulge (lapack/move_bulge.hpp)
-/

namespace TLA
variable {L T : Type} [DecidableEq L]
variable [Zero T] [One T] [Add T] [Mul T] [Sub T] [Neg T] [Div T] [Star T] [ReIm T] [DecidableEq T]

/-- The nine entries of a 3 by 3 view, as the argument of a scalar kernel (lahqr_shiftcolumn.hpp:74-89, 150-161 read
each of them). -/
def rd33 (X : MatV L) : M L T (Nat → Nat → T) := do
  let a ← X.get 0 0
  let b ← X.get 0 1
  let c ← X.get 0 2
  let d ← X.get 1 0
  let e ← X.get 1 1
  let f ← X.get 1 2
  let g ← X.get 2 0
  let h ← X.get 2 1
  let i ← X.get 2 2
  pure fun r k => if r = 0 then (if k = 0 then a else if k = 1 then b else c)
    else if r = 1 then (if k = 0 then d else if k = 1 then e else f) else (if k = 0 then g else if k = 1 then h else i)

/-- `H(1,0) = x; H(2,0) = zero; H(3,0) = zero` (move_bulge.hpp:71-73, 90-92, 96-98). -/
def mbCol (H : MatV L) (x : T) : M L T Unit := do
  H.set 1 0 x
  H.set 2 0 0
  H.set 3 0 0

/-- The attempt to reintroduce a collapsed bulge (move_bulge.hpp:78-102); `sc` is lahqr_shiftcolumn with the shifts
`s1`, `s2`, `vt` the local array of three elements, `beta` the result of the first call of larfg. -/
noncomputable def mbRestart (o : HhOps T ℝ) (p : HqrPar T) (sc : (Nat → Nat → T) → Option (T × T × T)) (H : MatV L) (v vt : VecV L)
    (beta : T) : M L T Unit := do
  let H2 ← H.slice 1 4 1 4
  let h ← rd33 H2
  let (x0, x1, x2) ← liftO (sc h)
  vt.set 0 x0
  vt.set 1 x1
  vt.set 2 x2
  let tau ← larfgV o .Forward .Columnwise vt
  vt.set 0 tau
  let t0 ← vt.get 0
  let t1 ← vt.get 1
  let t2 ← vt.get 2
  let h10 ← H.get 1 0
  let h20 ← H.get 2 0
  let refsum := star t0 * h10 + star t1 * h20
  let h00 ← H.get 0 0
  let h11 ← H.get 1 1
  let h22 ← H.get 2 2
  if p.abs1 (h20 - refsum * t1) + p.abs1 (refsum * t2) > p.eps * (p.abs1 h00 + p.abs1 h11 + p.abs1 h22) then mbCol H beta
  else do
    mbCol H (h10 - refsum)
    v.set 0 t0
    v.set 1 t1
    v.set 2 t2

/-- lapack/move_bulge.hpp:37-104. -/
noncomputable def moveBulge (o : HhOps T ℝ) (p : HqrPar T) (sc : (Nat → Nat → T) → Option (T × T × T)) (H : MatV L) (v vt : VecV L) :
    M L T Unit := do
  let v0 ← v.get 0
  let v1 ← v.get 1
  let v2 ← v.get 2
  let h32 ← H.get 3 2
  let refsum := v0 * v2 * h32
  H.set 3 0 (-refsum)
  H.set 3 1 (-refsum * star v1)
  H.set 3 2 (h32 - refsum * star v2)
  let h10 ← H.get 1 0
  let h20 ← H.get 2 0
  let h30 ← H.get 3 0
  v.set 0 h10
  v.set 1 h20
  v.set 2 h30
  let tau ← larfgV o .Forward .Columnwise v
  let beta ← v.get 0
  v.set 0 tau
  let a ← H.get 3 0
  let b ← H.get 3 1
  let c ← H.get 3 2
  if a ≠ 0 ∨ b ≠ 0 ∨ c ≠ 0 then mbCol H beta
  else mbRestart o p sc H v vt beta

end TLA
