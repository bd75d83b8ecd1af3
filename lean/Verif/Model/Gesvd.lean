import Verif.Model.Svd
import Verif.Model.Gebrd
import Verif.Model.Ungbr

/-!
# Model of gesvd

The vectors `tauv`, `tauw` and the workspaces, which the code allocates, are parameters; the real arrays `s`, `e` are values.
-/

namespace TLA
open Kernel
variable {L T : Type} [DecidableEq L]
variable [Zero T] [One T] [Add T] [Mul T] [Sub T] [Neg T] [Div T] [Star T] [ReIm T] [DecidableEq T]

/-- Memory that gesvd allocates (lapack/gesvd.hpp:88-93 and the workspaces of gebrd, ungbr_q, ungbr_p). -/
structure GesvdMem (L : Type) where
  tauv : VecV L
  tauw : VecV L
  wb : VecV L
  wq : VecV L
  wp : VecV L

/-- lapack/gesvd.hpp:98-111: copy the bidiagonal matrix; `rl` takes the real part. -/
def gesvdCopy (rl : T → ℝ) (A : MatV L) (k : Nat) (s : RArr) : M L T (RArr × RArr) :=
  forUp 0 k (s, ⟨k, fun _ => 0⟩) fun i x => do
    let a ← A.get i i
    let s ← x.1.set i (rl a)
    let e ← (if A.m ≥ A.n then
        if i + 1 < A.n then do
          let b ← A.get i (i + 1)
          x.2.set i (rl b)
        else pure x.2
      else
        if i + 1 < A.m then do
          let b ← A.get (i + 1) i
          x.2.set i (rl b)
        else pure x.2 : M L T RArr)
    pure (s, e)

/-- gesvd (lapack/gesvd.hpp:66-125).  `nb` is the block size of gebrd and ungbr, 32 in the code.  Returns the code, the singular values and the
final contents of the internal array `e`. -/
noncomputable def gesvd (o : HhOps T ℝ) (isReal : Bool) (p : RotPar) (emb : ℝ → T) (rl : T → ℝ) (nb : Nat) (wantu wantv : Bool) (A : MatV L) (s : RArr)
    (U V : MatV L) (w : GesvdMem L) : M L T (Nat × RArr × RArr) := do
  let k := min A.m A.n
  let _ ← gebrd o nb A w.tauv w.tauw w.wb
  let (s, e) ← gesvdCopy rl A k s
  (if wantu then do
    let Ui ← U.slice 0 A.m 0 k
    let Ai ← A.slice 0 A.m 0 k
    lacpy .Lower Ai Ui
    let _ ← ungbrQ isReal nb A.n U w.tauv w.wq
    pure ()
  else pure () : M L T Unit)
  (if wantv then do
    let Vi ← V.slice 0 k 0 A.n
    let Ai ← A.slice 0 k 0 A.n
    lacpy .Upper Ai Vi
    let _ ← ungbrP isReal nb A.m V w.tauw w.wp
    pure ()
  else pure () : M L T Unit)
  svdQr p emb (decide (¬ A.m ≥ A.n)) wantu wantv s e U V

end TLA
