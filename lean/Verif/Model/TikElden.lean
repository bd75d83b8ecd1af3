import Verif.Model.Gesvd
import Verif.Model.Tik

/-!
# Model of the regularised least squares solver tik_bidiag_elden

The real arrays `d` and `e` are values.
-/

namespace TLA
open Kernel
variable {L T : Type} [DecidableEq L]
variable [Zero T] [One T] [Add T] [Mul T] [Sub T] [Neg T] [Div T] [Star T] [ReIm T] [DecidableEq T]

/-- lapack/tik_bidiag_elden.hpp:74-82 (and lapack/tik_svd.hpp:67-73): `d` and `e` receive the real parts of the two diagonals of `A`.
`e(n - 1)` with `n = 0` asks for `SIZE_MAX` elements; the exception std::vector throws is `runtime 0`. -/
def tikCopy (rl : T → ℝ) (A : MatV L) : M L T (RArr × RArr) := do
  let n := A.n
  if n = 0 then M.fail (.runtime 0)
  else do
    let d ← forUp 0 n (⟨n, fun _ => 0⟩ : RArr) fun j d => do
      let a ← A.get j j
      d.set j (rl a)
    let e ← forUp 0 (n - 1) (⟨n - 1, fun _ => 0⟩ : RArr) fun j e => do
      let a ← A.get j (j + 1)
      e.set j (rl a)
    pure (d, e)

/-- lapack/tik_bidiag_elden.hpp:97-138: one step; the state is `low_d`, `d`, `e`. -/
noncomputable def eldenStep (p : RotPar) (emb : ℝ → T) (lambda : ℝ) (n : Nat) (b work : MatV L) (i : Nat) (x : ℝ × RArr × RArr) :
    M L T (ℝ × RArr × RArr) := do
  let k := b.n
  let (low_d, d, e) := x
  let di ← d.get i
  let (r, _, cs, sn) ← liftO (rotg p di low_d)
  let d ← d.set i r
  let (low_e, e) ← (if i < n - 1 then do
      let ei ← e.get i
      let e ← e.set i (cs * ei)
      pure (-sn * ei, e)
    else pure (0, e) : M L T (ℝ × RArr))
  (if i = 0 then
    forUp_ 0 k fun j => do
      let b0 ← b.get 0 j
      work.set 0 j (emb (-sn) * b0)
      let b0 ← b.get 0 j
      b.set 0 j (emb cs * b0)
  else do
    let bv ← b.sliceRow i 0 k
    let cv ← work.sliceRow i 0 k
    rot bv cv (emb cs) (emb sn) : M L T Unit)
  if i < n - 1 then do
    let (low_d, _, cs, sn) ← liftO (rotg p lambda low_e)
    forUp_ 0 k fun j => do
      let w ← work.get i j
      work.set (i + 1) j (emb sn * w)
      let w ← work.get i j
      work.set i j (emb cs * w)
    pure (low_d, d, e)
  else pure (low_d, d, e)

/-- lapack/tik_bidiag_elden.hpp:143-150: back substitution with the bidiagonal matrix; `safeMin`, `safeMax` are the constants of rscl. -/
noncomputable def eldenBack (emb : ℝ → T) (safeMin safeMax : ℝ) (n : Nat) (d e : RArr) (b : MatV L) : M L T Unit := do
  let k := b.n
  let x0 ← b.sliceRow (n - 1) 0 k
  let dn ← d.get (n - 1)
  rsclReal emb safeMin safeMax dn x0
  forDown 0 (n - 1) () fun i _ => do
    let x0 ← b.sliceRow i 0 k
    let x1 ← b.sliceRow (i + 1) 0 k
    let ei ← e.get i
    axpy (emb (-ei)) x1 x0
    let di ← d.get i
    rsclReal emb safeMin safeMax di x0

/-- lapack/tik_bidiag_elden.hpp:49-156.  `nb` is the block size of gebrd, unmqr and unmlq (32 in the code).  The arrays the routine allocates
(`tauv`, `tauw`, `wk`) are parameters with arbitrary contents; the workspaces which gebrd, unmqr and unmlq allocate and free are one
parameter `work`; `rl` takes the real part. -/
noncomputable def tikElden (o : HhOps T ℝ) (p : RotPar) (rl : T → ℝ) (nb : Nat) (A b : MatV L) (lambda : ℝ) (tauv tauw : VecV L) (wk : MatV L)
    (work : VecV L) : M L T Unit := do
  check (decide (A.m ≥ A.n))
  let n := A.n
  let k := b.n
  let _ ← gebrd o nb A tauv tauw work
  let _ ← unmqBlk o.isReal nb .Left .ConjTrans .Forward .Columnwise A tauv b work
  let (d, e) ← tikCopy rl A
  laset .General 0 0 wk
  let (_, d, e) ← forUp 0 n (lambda, d, e) (eldenStep p o.emb lambda n b wk)
  eldenBack o.emb o.safeMin o.safeMax n d e b
  let x2 ← b.slice 1 n 0 k
  let A2 ← A.slice 0 (n - 1) 1 n
  let t2 ← tauw.slice 0 (n - 1)
  let _ ← unmqBlk o.isReal nb .Left .ConjTrans .Forward .Rowwise A2 t2 x2 work
  pure ()

end TLA

namespace TLA
open Kernel
variable {L T : Type} [DecidableEq L]
variable [Zero T] [One T] [Add T] [Mul T] [Sub T] [Neg T] [Div T] [Star T] [ReIm T] [DecidableEq T]

/-- lapack/tik_svd.hpp:92-94: scale the rows of the work matrix with `d / (d d + lambda lambda)`. -/
noncomputable def tikScale (emb : ℝ → T) (lambda : ℝ) (d : RArr) (wk : MatV L) (n k : Nat) : M L T Unit :=
  forUp_ 0 n fun j =>
    forUp_ 0 k fun i => do
      let dj ← d.get j
      let q ← liftO (dv dj (dj * dj + lambda * lambda))
      wk.modify j i fun w => w * emb q

/-- lapack/tik_svd.hpp:38-110.  `nb` is the block size of gebrd, unmqr and unmlq (32 in the code).  The arrays the routine allocates (`tauv`, `tauw`,
`Q2`, `P2`, `wk`) are parameters with arbitrary contents; the workspaces which gebrd, unmqr and unmlq allocate and free are one parameter `work`.
The code drops the return value `err` of svd_qr; the model returns it, so that theorems can mention it. -/
noncomputable def tikSvd (o : HhOps T ℝ) (p : RotPar) (rl : T → ℝ) (nb : Nat) (A b : MatV L) (lambda : ℝ) (tauv tauw : VecV L) (Q2 P2 wk : MatV L)
    (work : VecV L) : M L T Nat := do
  let n := A.n
  let k := b.n
  let _ ← gebrd o nb A tauv tauw work
  let _ ← unmqBlk o.isReal nb .Left .ConjTrans .Forward .Columnwise A tauv b work
  let x ← b.slice 0 n 0 k
  let (d, e) ← tikCopy rl A
  laset .General 0 1 Q2
  laset .General 0 1 P2
  let (err, d, _) ← svdQr p o.emb false true true d e Q2 P2
  gemm .ConjTrans .NoTrans 1 Q2 x .strongZero wk
  tikScale o.emb lambda d wk n k
  gemm .ConjTrans .NoTrans 1 P2 wk .strongZero x
  let x1 ← x.slice 1 n 0 k
  let A2 ← A.slice 0 (n - 1) 1 n
  let t2 ← tauw.slice 0 (n - 1)
  let _ ← unmqBlk o.isReal nb .Left .ConjTrans .Forward .Rowwise A2 t2 x1 work
  pure err

end TLA
