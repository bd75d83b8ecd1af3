import Verif.Model.House
import Verif.Model.Norm
import Verif.Model.Schur
import Verif.Model.Lasy2
import Verif.Model.Steqr
import Verif.RealScalar

/-!
# Model of schur_swap for real matrices, blocks of order two

The local arrays `B` (3 by 2), `V` (4 by 2) and `D` (4 by 4) are arguments with arbitrary contents.
-/

namespace TLA
variable {L T : Type} [DecidableEq L]
variable [Zero T] [One T] [Add T] [Mul T] [Sub T] [Neg T] [Div T] [Star T] [ReIm T] [DecidableEq T]
variable {R : Type} [Field R] [LinearOrder R]

/-- The elements `X(ι 0, j), .., X(ι (l-1), j)` that one pass of the loops below reads and writes. -/
def swLine (X : MatV L) (ι : Nat → Nat) (l j : Nat) : M L T (VecV L) :=
  if j < X.n ∧ ∀ k, k < l → ι k < X.m then pure ⟨l, fun k => X.cell (ι k) j⟩ else M.fail .ub

/-- `sum = y[0] + v[1] y[1] + ..; y[0] -= sum tau; y[k] -= sum tau v[k]` (schur_swap.hpp:152-155, 164-167, 169-171 and so on). -/
def swRefl (y : VecV L) (u : Nat → T) (tau : T) : M L T Unit := do
  let y0 ← y.get 0
  let s ← forUp 1 y.n y0 fun k s => do
    let x ← y.get k
    pure (s + u k * x)
  y.set 0 (y0 - s * tau)
  forUp_ 1 y.n fun k => do
    let x ← y.get k
    y.set k (x - s * tau * u k)

/-- The loops schur_swap.hpp:163-172 and the like: both reflectors applied to the lines `lo, .., hi - 1`. -/
def swApply (X : MatV L) (ι : Nat → Nat) (l : Nat) (u1 : Nat → T) (t1 : T) (u2 : Nat → T) (t2 : T) (lo hi : Nat) : M L T Unit :=
  forUp_ lo hi fun j => do
    let y ← swLine X ι l j
    swRefl y u1 t1
    swRefl (y.sub 1 l) u2 t2

/-- The elements of a vector, for the later references `v1[k]`, `v2[k]` to an array that is no longer written to. -/
def rdVec (v : VecV L) : M L T (Nat → T) :=
  forUp 0 v.n (fun _ => 0) fun k u => do
    let x ← v.get k
    pure fun i => if i = k then x else u i

/-- schur_swap.hpp:148-156 (and 216-224, 297-307): two reflectors that reduce the two columns of `B` to triangular form. -/
def swGen (o : HhOps T R) (B : MatV L) : M L T ((Nat → T) × T × (Nat → T) × T) := do
  let v1 ← B.sliceCol 0 B.m 0
  let v2 ← B.sliceCol 1 B.m 1
  let t1 ← larfgV o .Forward .Columnwise v1
  let u1 ← rdVec v1
  let y ← B.sliceCol 0 B.m 1
  swRefl y u1 t1
  let t2 ← larfgV o .Forward .Columnwise v2
  let u2 ← rdVec v2
  pure (u1, t1, u2, t2)

/-- schur_swap.hpp:163-196 (231-264, 342-384): the rows and columns of `A` and the columns of `Q`. -/
def swSim (wantq : Bool) (A Q : MatV L) (ι : Nat → Nat) (l j0 : Nat) (g : (Nat → T) × T × (Nat → T) × T) : M L T Unit := do
  swApply A ι l g.1 g.2.1 g.2.2.1 g.2.2.2 j0 A.n
  swApply (rsView .Right A) ι l g.1 g.2.1 g.2.2.1 g.2.2.2 0 (j0 + l)
  if wantq then swApply (rsView .Right Q) ι l g.1 g.2.1 g.2.2.1 g.2.2.2 0 A.n else pure ()

/-- schur_swap.hpp:138-145: the columns of `A - A(j0,j0) I` that belong to the second block. -/
def swB12 (A B : MatV L) (j0 : Nat) : M L T Unit := do
  let t ← A.get j0 j0
  B.set 0 0 (← A.get j0 (j0 + 1))
  B.set 1 0 ((← A.get (j0 + 1) (j0 + 1)) - t)
  B.set 2 0 (← A.get (j0 + 2) (j0 + 1))
  B.set 0 1 (← A.get j0 (j0 + 2))
  B.set 1 1 (← A.get (j0 + 1) (j0 + 2))
  B.set 2 1 ((← A.get (j0 + 2) (j0 + 2)) - t)

/-- schur_swap.hpp:206-213: the rows of `A - A(j2,j2) I` that belong to the first block, from right to left and from the bottom up. -/
def swB21 (A B : MatV L) (j0 : Nat) : M L T Unit := do
  let t ← A.get (j0 + 2) (j0 + 2)
  B.set 0 0 (← A.get (j0 + 1) (j0 + 2))
  B.set 1 0 ((← A.get (j0 + 1) (j0 + 1)) - t)
  B.set 2 0 (← A.get (j0 + 1) j0)
  B.set 0 1 (← A.get j0 (j0 + 2))
  B.set 1 1 (← A.get j0 (j0 + 1))
  B.set 2 1 ((← A.get j0 j0) - t)

/-- schur_swap.hpp:133-200. -/
def schurSwap12 (o : HhOps T R) (wantq : Bool) (A Q B : MatV L) (j0 : Nat) : M L T Unit := do
  swB12 A B j0
  let g ← swGen o B
  swSim wantq A Q (fun k => j0 + k) 3 j0 g
  A.set (j0 + 2) j0 0
  A.set (j0 + 2) (j0 + 1) 0

/-- schur_swap.hpp:201-268. -/
def schurSwap21 (o : HhOps T R) (wantq : Bool) (A Q B : MatV L) (j0 : Nat) : M L T Unit := do
  swB21 A B j0
  let g ← swGen o B
  swSim wantq A Q (fun k => j0 + (2 - k)) 3 j0 g
  A.set (j0 + 1) j0 0
  A.set (j0 + 2) j0 0

/-- The elements of the 2 by 2 submatrix at `(i, j)`, as argument of a scalar kernel. -/
def rd22 (X : MatV L) (i j : Nat) : M L T (Nat → Nat → T) := do
  let a ← X.get i j
  let b ← X.get i (j + 1)
  let c ← X.get (i + 1) j
  let d ← X.get (i + 1) (j + 1)
  pure fun r k => if r = 0 then (if k = 0 then a else b) else (if k = 0 then c else d)

/-- schur_swap.hpp:284-294: the solution of the Sylvester equation on top of `-scale I`. -/
def swV (V : MatV L) (X : Nat → Nat → T) (scale : T) : M L T Unit := do
  V.set 0 0 (X 0 0)
  V.set 0 1 (X 0 1)
  V.set 1 0 (X 1 0)
  V.set 1 1 (X 1 1)
  V.set 2 0 (-scale)
  V.set 2 1 0
  V.set 3 0 0
  V.set 3 1 (-scale)

/-- schur_swap.hpp:269-390; `eps` is `ulp` and `small` is `safe_min / ulp`. -/
noncomputable def schurSwap22 (o : HhOps ℝ ℝ) (eps small : ℝ) (wantq : Bool) (A Q V D : MatV L) (j0 : Nat) : M L ℝ Nat := do
  let AD ← A.slice j0 (j0 + 4) j0 (j0 + 4)
  lacpy .General AD D
  let dnorm ← lange o .Max D
  let TL ← rd22 D 0 0
  let TR ← rd22 D 2 2
  let B ← rd22 D 0 2
  match Kernel.lasy2 eps small .NoTrans .NoTrans (-1) 2 2 TL TR B (fun _ _ => 0) with
  | none => M.fail .divz
  | some (.error _) => M.fail .check
  | some (.ok s) => do
    swV V s.X s.scale
    let g ← swGen o V
    swApply D id 4 g.1 g.2.1 g.2.2.1 g.2.2.2 0 4
    swApply (rsView .Right D) id 4 g.1 g.2.1 g.2.2.1 g.2.2.2 0 4
    let E ← rd22 D 2 0
    if max (max |E 0 0| |E 0 1|) (max |E 1 0| |E 1 1|) > max (10 * eps * dnorm) small then pure 1
    else do
      swSim wantq A Q (fun k => j0 + k) 4 j0 g
      A.set (j0 + 2) j0 0
      A.set (j0 + 2) (j0 + 1) 0
      A.set (j0 + 3) j0 0
      A.set (j0 + 3) (j0 + 1) 0
      pure 0

/-- schur_swap.hpp:394-413 (417-439): standardization of the block at `j`. -/
noncomputable def schurStd (pr : Kernel.SchurPar) (wantq : Bool) (A Q : MatV L) (j : Nat) : M L ℝ Unit := do
  let a ← A.get j j
  let b ← A.get j (j + 1)
  let c ← A.get (j + 1) j
  let d ← A.get (j + 1) (j + 1)
  let x ← liftO (Kernel.lahqrSchur22 pr a b c d)
  A.set j j x.1.a
  A.set j (j + 1) x.1.b
  A.set (j + 1) j x.1.c
  A.set (j + 1) (j + 1) x.1.d
  schurRot wantq A Q j x.1.cs x.1.sn

/-- schur_swap.hpp:392-442. -/
noncomputable def schurStds (pr : Kernel.SchurPar) (wantq : Bool) (A Q : MatV L) (j0 n1 n2 : Nat) : M L ℝ Unit := do
  (if n2 = 2 then schurStd pr wantq A Q j0 else pure () : M L ℝ Unit)
  if n1 = 2 then schurStd pr wantq A Q (j0 + n2) else pure ()

/-- schur_swap.hpp:98-390: the exchange without the standardization. -/
noncomputable def schurExch (o : HhOps ℝ ℝ) (ro : RotOps ℝ) (eps small : ℝ) (wantq : Bool) (A Q B V D : MatV L) (j0 n1 n2 : Nat) :
    M L ℝ Nat :=
  if n1 = 1 ∧ n2 = 1 then do
    schurSwap11 ro wantq A Q j0
    pure 0
  else if n1 = 1 then do
    schurSwap12 o wantq A Q B j0
    pure 0
  else if n2 = 1 then do
    schurSwap21 o wantq A Q B j0
    pure 0
  else schurSwap22 o eps small wantq A Q V D j0

/-- schur_swap for real matrices (schur_swap.hpp:47-443).  The recursive calls of lines 86-94 have smaller blocks; their return values are
dropped. -/
noncomputable def schurSwapR (o : HhOps ℝ ℝ) (ro : RotOps ℝ) (pr : Kernel.SchurPar) (eps small : ℝ) (wantq : Bool) (A Q B V D : MatV L) :
    Nat → Nat → Nat → M L ℝ Nat := fun j0 n1 n2 => do
  check (decide (A.m = A.n))
  check (decide (Q.m = A.n))
  check (decide (Q.n = A.n))
  check (decide (j0 + n1 + n2 ≤ A.n))
  check (decide (n1 = 1 ∨ n1 = 2))
  check (decide (n2 = 1 ∨ n2 = 2))
  let z1 ← (if n1 = 2 then do
    let x ← A.get (j0 + 1) j0
    pure (decide (x = 0))
    else pure false : M L ℝ Bool)
  if h1 : n1 = 2 ∧ z1 = true then do
    let _ ← schurSwapR o ro pr eps small wantq A Q B V D (j0 + 1) 1 n2
    let _ ← schurSwapR o ro pr eps small wantq A Q B V D j0 1 n2
    pure 0
  else do
    let z2 ← (if n2 = 2 then do
      let x ← A.get (j0 + n1 + 1) (j0 + n1)
      pure (decide (x = 0))
      else pure false : M L ℝ Bool)
    if h2 : n2 = 2 ∧ z2 = true then do
      let _ ← schurSwapR o ro pr eps small wantq A Q B V D j0 n1 1
      let _ ← schurSwapR o ro pr eps small wantq A Q B V D (j0 + 1) n1 1
      pure 0
    else do
      let r ← schurExch o ro eps small wantq A Q B V D j0 n1 n2
      if r = 1 then pure 1
      else do
        schurStds pr wantq A Q j0 n1 n2
        pure 0
termination_by _ n1 n2 => n1 + n2

end TLA
