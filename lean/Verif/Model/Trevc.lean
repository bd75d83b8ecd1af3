import Verif.Model.Hetrf
import Verif.Model.Steqr
import Verif.Model.Kernel
import Verif.Model.Blas2

/-! # Model: eigenvectors of a complex upper triangular matrix (trevc)

Complex type only.  The column norms are real and are a value (`RArr`), as is the array `select`.  Elements of slices are taken as the corresponding elements of
the matrix or vector itself.  A division by zero is the error `divz`.
-/

namespace TLA
open Kernel
variable {L : Type} [DecidableEq L]

/-- `abs1` (base/utils.hpp). -/
noncomputable def cabs1 (z : ℂ) : ℝ := |z.re| + |z.im|

/-- trevc_protectdiv for real numbers (lapack/trevc_protect.hpp:37-49). -/
noncomputable def protDiv (a b sfmin sfmax : ℝ) : Option ℝ :=
  if |b| < sfmin then (if |a| > |b| * sfmax then dv (|b| * sfmax) |a| else some 1)
  else if |b| < 1 then (if |a| > |b| * sfmax then dv 1 |a| else some 1)
  else some 1

/-- trevc_protectdiv for complex numbers (lapack/trevc_protect.hpp:74-83). -/
noncomputable def protDivC (a b : ℂ) (sfmin sfmax : ℝ) : Option ℝ := protDiv (2 * cabs1 a) (cabs1 b) sfmin sfmax

/-- trevc_protectupdate (lapack/trevc_protect.hpp:138-152). -/
noncomputable def protUpd (ynorm tnorm xnorm sfmax : ℝ) : Option ℝ :=
  if xnorm ≤ 1 then some (if tnorm * xnorm > sfmax - ynorm then 1 / 2 else 1)
  else do
    let q ← dv (sfmax - ynorm) xnorm
    if tnorm > q then dv 1 (2 * xnorm) else some 1

/-- `for (j = lo; j < hi; ++j) v[j] = s * v[j]` (lapack/trevc_backsolve.hpp:307-312, 333-335; trevc_forwardsolve.hpp:281-283, 299-304). -/
def trevcScal (v : VecV L) (s : ℝ) (lo hi : Nat) : M L ℂ Unit :=
  forUp_ lo hi fun j => do
    let x ← v.get j
    v.set j ((s : ℂ) * x)

/-- One step of the back substitution (lapack/trevc_backsolve.hpp:295-345), `i` being the row; returns `scale`. -/
noncomputable def trevcBackStep (o : LuOps ℂ ℝ) (pr : DivPar) (sfmin sfmax : ℝ) (T : MatV L) (v : VecV L) (k : Nat) (colN : RArr) (w : ℂ) (i : Nat) (scale : ℝ) :
    M L ℂ ℝ := do
  let t ← T.get i i
  let denom := t - w
  let x ← v.get i
  let s1 ← liftO (protDivC x denom sfmin sfmax)
  let y ← liftO (ladivC pr ((s1 : ℂ) * x) denom)
  v.set i y
  let scale ← (if s1 ≠ 1 then do
      trevcScal v s1 0 i
      trevcScal v s1 (i + 1) k
      pure (scale * s1)
    else pure scale : M L ℂ ℝ)
  if 0 < i then do
    let sl ← v.slice 0 i
    let ivmax ← iamaxD o sl
    let vm ← v.get ivmax
    let tmax ← colN.get i
    let xi ← v.get i
    let s2 ← liftO (protUpd (cabs1 vm) tmax (cabs1 xi) sfmax)
    if s2 ≠ 1 then do
      forUp_ 0 i fun j => do
        let x ← v.get j
        let t ← T.get j i
        let xi ← v.get i
        v.set j ((s2 : ℂ) * x - t * ((s2 : ℂ) * xi))
      trevcScal v s2 i k
      pure (scale * s2)
    else do
      forUp_ 0 i fun j => do
        let x ← v.get j
        let t ← T.get j i
        let xi ← v.get i
        v.set j (x - t * xi)
      pure scale
  else pure scale

/-- trevc_backsolve_single for a complex matrix (lapack/trevc_backsolve.hpp:260-348). -/
noncomputable def trevcBack (o : LuOps ℂ ℝ) (pr : DivPar) (sfmin sfmax : ℝ) (T : MatV L) (v : VecV L) (k : Nat) (colN : RArr) : M L ℂ Unit := do
  let n := T.m
  check (decide (T.n = n))
  check (decide (v.n = n))
  check (decide (k < n))
  forUp_ 0 k fun i => do
    let t ← T.get i k
    v.set i (-t)
  v.set k 1
  forUp_ (k + 1) n fun i => v.set i 0
  let w ← T.get k k
  let scale ← forUp 0 k (1 : ℝ) fun ii scale => trevcBackStep o pr sfmin sfmax T v k colN w (k - 1 - ii) scale
  let x ← v.get k
  v.set k ((scale : ℂ) * x)

/-- One step of the forward substitution (lapack/trevc_forwardsolve.hpp:271-307); `i` is the index in `v` (`k + 1` more than in `v3`). -/
noncomputable def trevcFwdStep (o : LuOps ℂ ℝ) (pr : DivPar) (sfmin sfmax : ℝ) (T : MatV L) (v : VecV L) (k : Nat) (colN : RArr) (w : ℂ) (i : Nat) (scale : ℝ) :
    M L ℂ ℝ := do
  let n := T.m
  let sl ← v.slice (k + 1) n
  let ivmax ← iamaxD o sl
  let vm ← v.get (k + 1 + ivmax)
  let tnorm ← colN.get i
  let xi ← v.get i
  let s1 ← liftO (protUpd (cabs1 xi) tnorm (cabs1 vm) sfmax)
  let scale ← (if s1 ≠ 1 then do
      trevcScal v s1 (k + 1) n
      pure (scale * s1)
    else pure scale : M L ℂ ℝ)
  forUp_ (k + 1) i fun j => do
    let y ← v.get i
    let t ← T.get j i
    let x ← v.get j
    v.set i (y - star t * x)
  let t ← T.get i i
  let denom := star (t - w)
  let x ← v.get i
  let s2 ← liftO (protDivC x denom sfmin sfmax)
  let y ← liftO (ladivC pr ((s2 : ℂ) * x) denom)
  v.set i y
  if s2 ≠ 1 then do
    trevcScal v s2 (k + 1) i
    trevcScal v s2 (i + 1) n
    pure (scale * s2)
  else pure scale

/-- trevc_forwardsolve_single for a complex matrix (lapack/trevc_forwardsolve.hpp:232-310). -/
noncomputable def trevcFwd (o : LuOps ℂ ℝ) (pr : DivPar) (sfmin sfmax : ℝ) (T : MatV L) (v : VecV L) (k : Nat) (colN : RArr) : M L ℂ Unit := do
  let n := T.m
  check (decide (T.n = n))
  check (decide (v.n = n))
  check (decide (k < n))
  forUp_ 0 k fun i => v.set i 0
  v.set k 1
  forUp_ (k + 1) n fun i => do
    let t ← T.get k i
    v.set i (-star t)
  let w ← T.get k k
  let scale ← forUp (k + 1) n (1 : ℝ) fun i scale => trevcFwdStep o pr sfmin sfmax T v k colN w i scale
  let x ← v.get k
  v.set k ((scale : ℂ) * x)

/-- Is `T(j + 1, j)` a nonzero element of the matrix (lapack/trevc.hpp:153-158, 206-211, trevc_protect.hpp:522-527)? -/
noncomputable def trevcPair (T : MatV L) (n j : Nat) : M L ℂ Bool :=
  if j + 1 < n then do
    let t ← T.get (j + 1) j
    pure (decide (t ≠ 0))
  else pure false

/-- trevc_colnorms (lapack/trevc_protect.hpp:506-583); `inf` for Norm::Inf, otherwise Norm::One. -/
noncomputable def trevcNorms (inf : Bool) (T : MatV L) : Nat → Nat → RArr → M L ℂ RArr
  | 0, _, c => pure c
  | fuel + 1, j, c =>
    let n := T.m
    if j < n then do
      let pair ← trevcPair T n j
      if pair then do
        let r ← forUp 0 j ((0 : ℝ), (0 : ℝ)) fun i x => do
          let a ← T.get i j
          let b ← T.get i (j + 1)
          pure (if inf then (max x.1 (cabs1 a + cabs1 b), 0) else (x.1 + cabs1 a, x.2 + cabs1 b))
        let c ← c.set j r.1
        let c ← c.set (j + 1) r.2
        trevcNorms inf T fuel (j + 2) c
      else do
        let r ← forUp 0 j (0 : ℝ) fun i x => do
          let a ← T.get i j
          pure (if inf then max x (cabs1 a) else x + cabs1 a)
        let c ← c.set j r
        trevcNorms inf T fuel (j + 1) c
    else pure c

/-- The checks and the call of `trevcNorms` (lapack/trevc_protect.hpp:508-518). -/
noncomputable def trevcColnorms (inf : Bool) (T : MatV L) (c : RArr) : M L ℂ RArr := do
  check (decide (T.n = T.m))
  check (decide (c.n = T.m))
  trevcNorms inf T T.m 0 c

/-- HowMny (lapack/trevc.hpp:23-27). -/
inductive HowMny
  | All
  | Back
  | Select
  deriving DecidableEq

/-- Counting the selected eigenvectors (lapack/trevc.hpp:146-174); returns `m` and `select`. -/
noncomputable def trevcCount (T : MatV L) : Nat → Nat → Nat → (Nat → Bool) → M L ℂ (Nat × (Nat → Bool))
  | 0, _, m, sel => pure (m, sel)
  | fuel + 1, j, m, sel =>
    let n := T.m
    if j < n then do
      let pair ← trevcPair T n j
      if pair then
        if sel j || sel (j + 1) then
          trevcCount T fuel (j + 2) (m + 2) (fun i => if i = j + 1 then false else if i = j then true else sel i)
        else trevcCount T fuel (j + 2) m sel
      else trevcCount T fuel (j + 1) (if sel j then m + 1 else m) sel
    else pure (m, sel)

/-- Is the eigenvector `i` passed over: not selected, or the second row of a pair (lapack/trevc.hpp:195-204, 285-294)? -/
noncomputable def trevcSkip (how : HowMny) (sel : Nat → Bool) (T : MatV L) (i : Nat) : M L ℂ Bool :=
  if how = .Select ∧ sel i = false then pure true
  else if 0 < i then do
    let t ← T.get i (i - 1)
    pure (decide (t ≠ 0))
  else pure false

/-- `for (k = 0; k < n; ++k) V(k, c) = v[k]` (lapack/trevc.hpp:226-228, 232-234). -/
def trevcStore (V : MatV L) (v : VecV L) (n c : Nat) : M L ℂ Unit :=
  forUp_ 0 n fun k => do
    let x ← v.get k
    V.set k c x

/-- One step of the loop for the right eigenvectors (lapack/trevc.hpp:195-274).  `c` is `iVr + 1`, the number of columns not yet used; column `idx_t(-1)` is out of range.
For a pair nothing is computed if the type is complex. -/
noncomputable def trevcRightStep (o : LuOps ℂ ℝ) (pr : DivPar) (sfmin sfmax : ℝ) (how : HowMny) (sel : Nat → Bool) (T V : MatV L) (v1 v2 : VecV L) (colN : RArr) (i c : Nat) :
    M L ℂ Nat := do
  let n := T.m
  let skip ← trevcSkip how sel T i
  if skip then pure c else do
  let pair ← trevcPair T n i
  if pair then pure c else do
  trevcBack o pr sfmin sfmax T v1 i colN
  (if how = .Back then do
    let Q ← V.slice 0 n 0 (i + 1)
    let x ← v1.slice 0 (i + 1)
    gemv .NoTrans 1 Q x .strongZero v2
    trevcStore V v2 n i
  else if c = 0 then M.fail .ub
  else trevcStore V v1 n (c - 1) : M L ℂ Unit)
  pure (c - 1)

/-- The right eigenvectors (lapack/trevc.hpp:192-275). -/
noncomputable def trevcRight (o : LuOps ℂ ℝ) (pr : DivPar) (sfmin sfmax : ℝ) (how : HowMny) (sel : Nat → Bool) (T V : MatV L) (v1 v2 : VecV L) (colN : RArr) (m : Nat) :
    M L ℂ Nat :=
  forUp 0 T.m m fun ii c => trevcRightStep o pr sfmin sfmax how sel T V v1 v2 colN (T.m - 1 - ii) c

/-- One step of the loop for the left eigenvectors (lapack/trevc.hpp:285-364); `c` is `iVl`. -/
noncomputable def trevcLeftStep (o : LuOps ℂ ℝ) (pr : DivPar) (sfmin sfmax : ℝ) (how : HowMny) (sel : Nat → Bool) (T V : MatV L) (v1 v2 : VecV L) (colN : RArr) (i c : Nat) :
    M L ℂ Nat := do
  let n := T.m
  let skip ← trevcSkip how sel T i
  if skip then pure c else do
  let pair ← trevcPair T n i
  if pair then pure c else do
  trevcFwd o pr sfmin sfmax T v1 i colN
  (if how = .Back then do
    let Q ← V.slice 0 n i n
    let x ← v1.slice i n
    gemv .NoTrans 1 Q x .strongZero v2
    trevcStore V v2 n i
  else trevcStore V v1 n c : M L ℂ Unit)
  pure (c + 1)

/-- The left eigenvectors (lapack/trevc.hpp:283-365). -/
noncomputable def trevcLeft (o : LuOps ℂ ℝ) (pr : DivPar) (sfmin sfmax : ℝ) (how : HowMny) (sel : Nat → Bool) (T V : MatV L) (v1 v2 : VecV L) (colN : RArr) :
    M L ℂ Nat :=
  forUp 0 T.m 0 fun i c => trevcLeftStep o pr sfmin sfmax how sel T V v1 v2 colN i c

/-- trevc for a complex matrix (lapack/trevc.hpp:114-369): `right` if side is Right or Both, `left` if side is Left or Both; `rwork` has `rwn` elements.  Returns the number of
eigenvectors and `select` (the return value of the code is 0). -/
noncomputable def trevc (o : LuOps ℂ ℝ) (pr : DivPar) (sfmin sfmax : ℝ) (left right : Bool) (how : HowMny) (sel : Nat → Bool) (T Vl Vr : MatV L) (rwn : Nat) (work : VecV L) :
    M L ℂ (Nat × (Nat → Bool)) := do
  let n := T.m
  let mm := if left ∧ right then min Vl.n Vr.n else if left then Vl.n else Vr.n
  if n = 0 then pure (0, sel) else do
  let (m, sel) ← (if how = .Select then trevcCount T n 0 0 sel else pure (n, sel) : M L ℂ (Nat × (Nat → Bool)))
  check (decide (m ≤ mm))
  check (decide (3 * n ≤ work.n))
  check (decide (n ≤ rwn))
  let v1 := work.sub 0 n
  let v2 := work.sub n (2 * n)
  (if right then do
    let colN ← trevcColnorms true T ⟨n, fun _ => 0⟩
    let _ ← trevcRight o pr sfmin sfmax how sel T Vr v1 v2 colN m
    pure ()
  else pure () : M L ℂ Unit)
  (if left then do
    let colN ← trevcColnorms false T ⟨n, fun _ => 0⟩
    let _ ← trevcLeft o pr sfmin sfmax how sel T Vl v1 v2 colN
    pure ()
  else pure () : M L ℂ Unit)
  pure (m, sel)

end TLA
