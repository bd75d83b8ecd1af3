import Verif.Model.Lu
import Verif.Model.Layout

/-!
# Model of the Householder routines

lassq, nrm2, lapy2, lapy3, larfg, larf, geqr2, geql2, gelq2, gerq2, ungq_level2 (ung2r, ung2l,
ungl2, ungr2), unmq_level2 (unm2r, unm2l, unml2, unmr2).

Scalar reference arguments (`alpha`, `tau` of larfg, `scale`, `sumsq` of lassq) are passed and
returned as values.  Workspaces are vectors; `reshape(work, k)` is the bounds check of
plugins/legacyArray.hpp followed by the first `k` entries (C04 is about `reshape` itself).
-/

namespace TLA
variable {L T : Type} [DecidableEq L]

/-- `enum class StoreV` (base/types.hpp:395-398). -/
inductive StoreV where
  | Columnwise | Rowwise
  deriving DecidableEq, Repr

/-- Scalar operations of the Householder routines: those of rscl (`LuOps`), `abs`, the square root,
`isnan` on reals, Blue's constants `blue_min`, `blue_max`, `blue_scalingMin`, `blue_scalingMax`
(base/constants.hpp:98-159) and the threshold `safe_min/uroundoff` (lapack/larfg.hpp:88). -/
structure HhOps (T R : Type) extends LuOps T R where
  absR : T → R
  sqrtR : R → R
  isnanR : R → Bool
  tsml : R
  tbig : R
  ssml : R
  sbig : R
  hmin : R

section house
variable [Zero T] [One T] [Add T] [Mul T] [Sub T] [Neg T] [Div T] [Star T] [ReIm T] [DecidableEq T]
variable {R : Type} [Field R] [LinearOrder R]

/-- The three accumulators of lassq: small, medium and big. -/
structure Acc (R : Type) where
  sml : R
  med : R
  big : R

/-- One iteration of the accumulation loop (lapack/lassq.hpp:93-100). -/
def Acc.add (o : HhOps T R) (a : Acc R) (ax : R) : Acc R :=
  if ax > o.tbig then { a with big := a.big + (ax * o.sbig) * (ax * o.sbig) }
  else if ax < o.tsml then
    if a.big = 0 then { a with sml := a.sml + (ax * o.ssml) * (ax * o.ssml) } else a
  else { a with med := a.med + ax * ax }

/-- The contribution of the incoming `scale`, `sumsq` (lapack/lassq.hpp:104-132). -/
def Acc.prior (o : HhOps T R) (a : Acc R) (scale sumsq : R) : Acc R :=
  if sumsq > 0 then
    let ax := scale * o.sqrtR sumsq
    if ax > o.tbig then
      if scale > 1 then
        let scale := scale * o.sbig
        { a with big := a.big + scale * (scale * sumsq) }
      else { a with big := a.big + scale * (scale * (o.sbig * (o.sbig * sumsq))) }
    else if ax < o.tsml then
      if a.big = 0 then
        if scale < 1 then
          let scale := scale * o.ssml
          { a with sml := a.sml + scale * (scale * sumsq) }
        else { a with sml := a.sml + scale * (scale * (o.ssml * (o.ssml * sumsq))) }
      else a
    else { a with med := a.med + scale * (scale * sumsq) }
  else a

/-- The combination of the accumulators (lapack/lassq.hpp:137-171). -/
def Acc.combine (o : HhOps T R) (a : Acc R) : R × R :=
  if a.big > 0 then
    let abig := if a.med > 0 ∨ o.isnanR a.med = true then a.big + (a.med * o.sbig) * o.sbig else a.big
    (1 / o.sbig, abig)
  else if a.sml > 0 then
    if a.med > 0 ∨ o.isnanR a.med = true then
      let amed := o.sqrtR a.med
      let asml := o.sqrtR a.sml / o.ssml
      let ymin := if asml > amed then amed else asml
      let ymax := if asml > amed then asml else amed
      (1, (ymax * ymax) * (1 + (ymin / ymax) * (ymin / ymax)))
    else (1 / o.ssml, a.sml)
  else (1, a.med)

/-- lassq with an absolute value function (lapack/lassq.hpp:49-172); returns `(scale, sumsq)`. -/
def lassqF (o : HhOps T R) (absF : T → R) (x : VecV L) (scale sumsq : R) : M L T (R × R) :=
  if o.isnanR scale || o.isnanR sumsq then pure (scale, sumsq)
  else
    let scale1 := if sumsq = 0 then 1 else scale
    let scale2 := if scale1 = 0 then 1 else scale1
    let sumsq2 := if scale1 = 0 then 0 else sumsq
    if x.n = 0 then pure (scale2, sumsq2)
    else do
      let a ← forUp 0 x.n (⟨0, 0, 0⟩ : Acc R) fun i a => do
        let xi ← x.get i
        pure (a.add o (absF xi))
      pure ((a.prior o scale2 sumsq2).combine o)

/-- lassq with `absF = abs` (lapack/lassq.hpp:192-200). -/
def lassq (o : HhOps T R) (x : VecV L) (scale sumsq : R) : M L T (R × R) :=
  lassqF o o.absR x scale sumsq

/-- nrm2 (blas/nrm2.hpp:33-43). -/
def nrm2 (o : HhOps T R) (x : VecV L) : M L T R := do
  let r ← lassq o x 1 0
  pure (r.1 * o.sqrtR r.2)

/-- lapy2 (lapack/lapy2.hpp:34-56). -/
def lapy2 (sqrtR : R → R) (x y : R) : R :=
  let w := if |x| > |y| then |x| else |y|
  let z := if |x| > |y| then |y| else |x|
  if z = 0 then w else w * sqrtR (1 + (z / w) * (z / w))

/-- lapy3 (lapack/lapy3.hpp:38-57). -/
def lapy3 (sqrtR : R → R) (x y z : R) : R :=
  let w := max |x| (max |y| |z|)
  if w = 0 then |x| + |y| + |z|
  else w * sqrtR ((|x| / w) * (|x| / w) + (|y| / w) * (|y| / w) + (|z| / w) * (|z| / w))

/-- `temp` and then `beta` (lapack/larfg.hpp:100-102, 114-116). -/
def larfgBeta (o : HhOps T R) (alpha : T) (xnorm : R) : R :=
  let temp := if o.isReal then lapy2 o.sqrtR (o.reR alpha) xnorm
    else lapy3 o.sqrtR (o.reR alpha) (o.imR alpha) xnorm
  if o.reR alpha < 0 then temp else -temp

/-- The loop `while (abs(beta) < safemin && knt < 20)` (lapack/larfg.hpp:107-112); the number of
remaining iterations is the first argument; returns `(knt, beta, alpha)`. -/
def larfgScale (o : HhOps T R) (x : VecV L) : Nat → Nat → R → T → M L T (Nat × R × T)
  | 0, knt, beta, alpha => pure (knt, beta, alpha)
  | fuel + 1, knt, beta, alpha =>
    if |beta| < o.hmin then do
      scal (o.emb (1 / o.hmin)) x
      larfgScale o x fuel (knt + 1) (beta * (1 / o.hmin)) (alpha * o.emb (1 / o.hmin))
    else pure (knt, beta, alpha)

/-- The part of larfg after the first estimate of `beta` (lapack/larfg.hpp:119-129). -/
def larfgFinish (o : HhOps T R) (store : StoreV) (alpha : T) (x : VecV L) (beta : R) (knt : Nat) :
    M L T (T × T) := do
  let tau := (o.emb beta - alpha) / o.emb beta
  rscl o.toLuOps (alpha - o.emb beta) x
  let tau := if store = .Rowwise then star tau else tau
  let beta ← forUp 0 knt beta fun _ b => pure (b * o.hmin)
  pure (o.emb beta, tau)

/-- larfg on a separate `alpha` (lapack/larfg.hpp:73-131): returns the new `alpha` and `tau`. -/
def larfg (o : HhOps T R) (store : StoreV) (alpha : T) (x : VecV L) : M L T (T × T) := do
  let xnorm ← nrm2 o x
  if xnorm > 0 ∨ o.imR alpha ≠ 0 then
    let beta := larfgBeta o alpha xnorm
    if |beta| < o.hmin then do
      let r ← larfgScale o x 20 0 beta alpha
      let xnorm ← nrm2 o x
      larfgFinish o store r.2.2 x (larfgBeta o r.2.2 xnorm) r.1
    else larfgFinish o store alpha x beta 0
  else pure (alpha, 0)

/-- The part of `v` without alpha (lapack/larfg.hpp:209-211) resp. without the implicit 1
(lapack/larf.hpp:372-373, 380-381). -/
def sliceX (dir : Direction) (v : VecV L) (n : Nat) : M L T (VecV L) :=
  if dir = .Forward then v.slice 1 n else v.slice 0 (n - 1)

/-- larfg on a vector containing alpha (lapack/larfg.hpp:195-215): returns `tau`. -/
def larfgV (o : HhOps T R) (dir : Direction) (store : StoreV) (v : VecV L) : M L T T := do
  let idx := if dir = .Forward then 0 else v.n - 1
  let x ← sliceX dir v v.n
  let alpha ← v.get idx
  let r ← larfg o store alpha x
  v.set idx r.1
  pure r.2

/-- `reshape(work, k)` for a vector workspace: throws when too small
(plugins/legacyArray.hpp, `reshape(LegacyVector, n)`; see Model/Layout.lean). -/
def reshapeW (work : VecV L) (k : Nat) : M L T (VecV L) := do
  check (decide (k ≤ work.n))
  pure (work.sub 0 k)

/-- `for (i = 0; i < k; ++i) dst[i] = f(src[i])` (lapack/larf.hpp:86-87, 99-100, 116-117, 129-130). -/
def fillFrom (f : T → T) (dst src : VecV L) (k : Nat) : M L T Unit :=
  forUp_ 0 k fun i => do
    let c ← src.get i
    dst.set i (f c)

/-- `for (i = 0; i < k; ++i) C0[i] -= tau * f(w[i])` (lapack/larf.hpp:94-95, 109-110, 124-125,
139-140). -/
def subFrom (f : T → T) (tau : T) (C0 w : VecV L) (k : Nat) : M L T Unit :=
  forUp_ 0 k fun i => do
    let wi ← w.get i
    C0.modify i (fun c => c - tau * f wi)

/-- The check of lapack/larf.hpp:71 as C++ parses it: `(size(x) == (side == Left)) ? m : n`, the
number chosen being tested against zero. -/
def larfSizeCheck (side : Side) (x : VecV L) (m n : Nat) : Bool :=
  if x.n = (if side = .Left then 1 else 0) then decide (m ≠ 0) else decide (n ≠ 0)

/-- The four cases of larf_work on `C0`, `C1` (lapack/larf.hpp:83-142). -/
def larfCore (side : Side) (store : StoreV) (x : VecV L) (tau : T) (C0 : VecV L) (C1 : MatV L)
    (w : VecV L) : M L T Unit :=
  match side, store with
  | .Left, .Columnwise => do
    fillFrom star w C0 C0.n
    gemv .ConjTrans 1 C1 x (.val 1) w
    ger (-tau) x w C1
    subFrom star tau C0 w C0.n
  | .Left, .Rowwise => do
    fillFrom id w C0 C0.n
    gemv .Trans 1 C1 x (.val 1) w
    forUp_ 0 C1.n fun j => forUp_ 0 C1.m fun i => do
      let xi ← x.get i
      let wj ← w.get j
      C1.modify i j (fun c => c - tau * star xi * wj)
    subFrom id tau C0 w C0.n
  | _, .Columnwise => do
    fillFrom id w C0 C0.n
    gemv .NoTrans 1 C1 x (.val 1) w
    ger (-tau) w x C1
    subFrom id tau C0 w C0.n
  | _, .Rowwise => do
    fillFrom id w C0 C0.n
    forUp_ 0 C1.n fun j => forUp_ 0 C1.m fun i => do
      let c ← C1.get i j
      let xj ← x.get j
      w.modify i (fun wi => wi + c * star xj)
    geru (-tau) w x C1
    subFrom id tau C0 w C0.n

/-- larf_work on `C0`, `C1` (lapack/larf.hpp:48-143). -/
def larfC (side : Side) (store : StoreV) (x : VecV L) (tau : T) (C0 : VecV L) (C1 : MatV L)
    (work : VecV L) : M L T Unit := do
  check (side = .Left || side = .Right)
  check (larfSizeCheck side x C1.m C1.n)
  if C1.m = 0 ∨ C1.n = 0 then
    forUp_ 0 C0.n fun i => do
      let c ← C0.get i
      C0.modify i (fun d => d - tau * c)
  else do
    let w ← reshapeW work C0.n
    larfCore side store x tau C0 C1 w

/-- `larf_worksize` of larf on `C` (lapack/larf.hpp:422-450 with 180-199): the number of entries. -/
def larfWorksize (side : Side) (m n : Nat) : Nat :=
  if side = .Left ∧ m > 0 then (if m - 1 > 0 ∧ n > 0 then n else 0)
  else if side = .Right ∧ n > 0 then (if m > 0 ∧ n - 1 > 0 then m else 0)
  else 0

/-- The first or last row of `C` (lapack/larf.hpp:369). -/
def larfRow (dir : Direction) (C : MatV L) : M L T (VecV L) :=
  if dir = .Forward then C.sliceRow 0 0 C.n else C.sliceRow (C.m - 1) 0 C.n

/-- The other rows of `C` (lapack/larf.hpp:370-371). -/
def larfRows (dir : Direction) (C : MatV L) : M L T (MatV L) :=
  if dir = .Forward then C.slice 1 C.m 0 C.n else C.slice 0 (C.m - 1) 0 C.n

/-- The first or last column of `C` (lapack/larf.hpp:377). -/
def larfCol (dir : Direction) (C : MatV L) : M L T (VecV L) :=
  if dir = .Forward then C.sliceCol 0 C.m 0 else C.sliceCol 0 C.m (C.n - 1)

/-- The other columns of `C` (lapack/larf.hpp:378-379). -/
def larfCols (dir : Direction) (C : MatV L) : M L T (MatV L) :=
  if dir = .Forward then C.slice 0 C.m 1 C.n else C.slice 0 C.m 0 (C.n - 1)

/-- larf_work on a matrix (lapack/larf.hpp:328-384). -/
def larf (side : Side) (dir : Direction) (store : StoreV) (v : VecV L) (tau : T) (C : MatV L)
    (work : VecV L) : M L T Unit := do
  let m := C.m
  let n := C.n
  check (side = .Left || side = .Right)
  check (v.n = (if side = .Left then m else n) : Bool)
  if m = 0 ∨ n = 0 then pure ()
  else if side = .Left then do
    let C0 ← larfRow dir C
    let C1 ← larfRows dir C
    let x ← sliceX dir v m
    larfC .Left store x tau C0 C1 work
  else do
    let C0 ← larfCol dir C
    let C1 ← larfCols dir C
    let x ← sliceX dir v n
    larfC .Right store x tau C0 C1 work

/-! ### The four unblocked factorizations -/

/-- `geqr2_worksize` (lapack/geqr2.hpp:32-47). -/
def geqr2Worksize (A : MatV L) : Nat := if A.n > 1 then larfWorksize .Left A.m (A.n - 1) else 0

/-- geqr2_work (lapack/geqr2.hpp:60-98); for `n = 0` the unsigned `n - 1` on line 68 wraps, `k` is
then not used. -/
def geqr2 (o : HhOps T R) (A : MatV L) (tau work : VecV L) : M L T Nat := do
  let m := A.m
  let n := A.n
  check (!(tau.n < min m n : Bool))
  if n = 0 ∨ m = 0 then pure 0
  else do
    forUp_ 0 (min m (n - 1)) fun i => do
      let v ← A.sliceCol i m i
      let t ← larfgV o .Forward .Columnwise v
      tau.set i t
      let C ← A.slice i m (i + 1) n
      let t ← tau.get i
      larf .Left .Forward .Columnwise v (star t) C work
    if n - 1 < m then do
      let v ← A.sliceCol (n - 1) m (n - 1)
      let t ← larfgV o .Forward .Columnwise v
      tau.set (n - 1) t
      pure 0
    else pure 0

/-- `gelq2_worksize` (lapack/gelq2.hpp:32-46). -/
def gelq2Worksize (A : MatV L) : Nat := if A.m > 1 then larfWorksize .Right (A.m - 1) A.n else 0

/-- gelq2_work (lapack/gelq2.hpp:59-89). -/
def gelq2 (o : HhOps T R) (A : MatV L) (tau work : VecV L) : M L T Nat := do
  let m := A.m
  let n := A.n
  let k := min m n
  check (!(tau.n < k : Bool))
  forUp_ 0 k fun j => do
    let w ← A.sliceRow j j n
    let t ← larfgV o .Forward .Rowwise w
    tau.set j t
    if j < k - 1 ∨ k < m then do
      let Q ← A.slice (j + 1) m j n
      let t ← tau.get j
      larf .Right .Forward .Rowwise w t Q work
    else pure ()
  pure 0

/-- `geql2_worksize` (lapack/geql2.hpp:32-47). -/
def geql2Worksize (A : MatV L) : Nat := if A.n > 1 then larfWorksize .Left A.m (A.n - 1) else 0

/-- geql2_work (lapack/geql2.hpp:60-94). -/
def geql2 (o : HhOps T R) (A : MatV L) (tau work : VecV L) : M L T Nat := do
  let m := A.m
  let n := A.n
  let k := min m n
  check (!(tau.n < k : Bool))
  if n = 0 then pure 0
  else do
    forUp_ 0 k fun i2 => do
      let i := k - 1 - i2
      let v ← A.sliceCol 0 (m - k + i + 1) (n - k + i)
      let t ← larfgV o .Backward .Columnwise v
      tau.set i t
      if n + i > k then do
        let C ← A.slice 0 (m - k + i + 1) 0 (n - k + i)
        let t ← tau.get i
        larf .Left .Backward .Columnwise v (star t) C work
      else pure ()
    pure 0

/-- `gerq2_worksize` (lapack/gerq2.hpp:32-47). -/
def gerq2Worksize (A : MatV L) : Nat := if A.m > 1 then larfWorksize .Right (A.m - 1) A.n else 0

/-- gerq2_work (lapack/gerq2.hpp:60-94). -/
def gerq2 (o : HhOps T R) (A : MatV L) (tau work : VecV L) : M L T Nat := do
  let m := A.m
  let n := A.n
  let k := min m n
  check (!(tau.n < k : Bool))
  if n = 0 then pure 0
  else do
    forUp_ 0 k fun i2 => do
      let i := k - 1 - i2
      let v ← A.sliceRow (m - 1 - i2) 0 (n - i2)
      let t ← larfgV o .Backward .Rowwise v
      tau.set i t
      if m > i2 + 1 then do
        let C ← A.slice 0 (m - 1 - i2) 0 (n - i2)
        let t ← tau.get i
        larf .Right .Backward .Rowwise v t C work
      else pure ()
    pure 0

/-! ### Generating and applying Q -/

/-- `laset(GENERAL, zero, beta, A)` as used by ungq_level2 (lapack/ungq_level2.hpp:122-123, 146-148,
174-175, 198-200): the model of laset itself. -/
def lasetG (beta : T) (A : MatV L) : M L T Unit := laset .General 0 beta A

/-- `ungq_level2_worksize` (lapack/ungq_level2.hpp:51-75). -/
def ungqWorksize (store : StoreV) (A : MatV L) : Nat :=
  match store with
  | .Columnwise => if A.n > 1 then larfWorksize .Left A.m (A.n - 1) else 0
  | .Rowwise => if A.m > 1 then larfWorksize .Right (A.m - 1) A.n else 0

/-- One step of the Columnwise, Forward case (lapack/ungq_level2.hpp:126-138). -/
def ung2rStep (A : MatV L) (tau work : VecV L) (j : Nat) : M L T Unit := do
  let t ← tau.get j
  let v ← A.sliceCol j A.m j
  let C ← A.slice j A.m (j + 1) A.n
  larf .Left .Forward .Columnwise v t C work
  scal (-t) v
  A.set j j (1 - t)
  forUp_ 0 j fun i => A.set i j 0

/-- One step of the Columnwise, Backward case (lapack/ungq_level2.hpp:151-165). -/
def ung2lStep (A : MatV L) (tau work : VecV L) (k j : Nat) : M L T Unit := do
  let sizev := A.m - k + j + 1
  let jj := A.n - k + j
  let t ← tau.get j
  let v ← A.sliceCol 0 sizev jj
  let C ← A.slice 0 sizev 0 jj
  larf .Left .Backward .Columnwise v t C work
  scal (-t) v
  A.set (sizev - 1) jj (1 - t)
  forUp_ sizev A.m fun i => A.set i jj 0

/-- One step of the Rowwise, Forward case (lapack/ungq_level2.hpp:178-190). -/
def ungl2Step (A : MatV L) (tau work : VecV L) (i : Nat) : M L T Unit := do
  let t ← tau.get i
  let t := star t
  let v ← A.sliceRow i i A.n
  let C ← A.slice (i + 1) A.m i A.n
  larf .Right .Forward .Rowwise v t C work
  scal (-t) v
  A.set i i (1 - t)
  forUp_ 0 i fun j => A.set i j 0

/-- One step of the Rowwise, Backward case (lapack/ungq_level2.hpp:203-217). -/
def ungr2Step (A : MatV L) (tau work : VecV L) (k i : Nat) : M L T Unit := do
  let sizev := A.n - k + i + 1
  let ii := A.m - k + i
  let t ← tau.get i
  let t := star t
  let v ← A.sliceRow ii 0 sizev
  let C ← A.slice 0 ii 0 sizev
  larf .Right .Backward .Rowwise v t C work
  scal (-t) v
  A.set ii (sizev - 1) (1 - t)
  forUp_ sizev A.n fun j => A.set ii j 0

/-- ungq_level2_work (lapack/ungq_level2.hpp:90-223); ung2r, ung2l, ungl2 and ungr2 call it with
(Forward, Columnwise), (Backward, Columnwise), (Forward, Rowwise) and (Backward, Rowwise)
(lapack/ung2r.hpp:72-75, ung2l.hpp:78, ungl2.hpp:81, ungr2.hpp:78). -/
def ungq (dir : Direction) (store : StoreV) (A : MatV L) (tau work : VecV L) : M L T Nat := do
  let m := A.m
  let n := A.n
  let k := tau.n
  check (match store with
    | .Columnwise => decide (m ≥ n ∧ n ≥ k)
    | .Rowwise => decide (n ≥ m ∧ m ≥ k))
  if m = 0 ∨ n = 0 then pure 0
  else match store, dir with
    | .Columnwise, .Forward => do
      let A0 ← A.slice 0 k k n
      let A1 ← A.slice k m k n
      lasetG 0 A0
      lasetG 1 A1
      forDown_ 0 k fun j => ung2rStep A tau work j
      pure 0
    | .Columnwise, .Backward => do
      let A0 ← A.slice 0 (m - n) 0 (n - k)
      let A1 ← A.slice (m - n) (m - k) 0 (n - k)
      let A2 ← A.slice (m - k) m 0 (n - k)
      lasetG 0 A0
      lasetG 1 A1
      lasetG 0 A2
      forUp_ 0 k fun j => ung2lStep A tau work k j
      pure 0
    | .Rowwise, .Forward => do
      let A0 ← A.slice k m 0 k
      let A1 ← A.slice k m k n
      lasetG 0 A0
      lasetG 1 A1
      forDown_ 0 k fun i => ungl2Step A tau work i
      pure 0
    | .Rowwise, .Backward => do
      let A0 ← A.slice 0 (m - k) 0 (n - m)
      let A1 ← A.slice 0 (m - k) (n - m) (n - k)
      let A2 ← A.slice 0 (m - k) (n - k) n
      lasetG 0 A0
      lasetG 1 A1
      lasetG 0 A2
      forUp_ 0 k fun i => ungr2Step A tau work k i
      pure 0

/-- `unmq_level2_worksize` (lapack/unmq_level2.hpp:69-91). -/
def unmqWorksize (side : Side) (C : MatV L) : Nat := larfWorksize side C.m C.n

/-- The reflector vector of a step (lapack/unmq_level2.hpp:160, 172, 186, 198). -/
def unmqVec (store : StoreV) (V : MatV L) (i r0 r1 : Nat) : M L T (VecV L) :=
  if store = .Columnwise then V.sliceCol r0 r1 i else V.sliceRow i r0 r1

/-- The rows or columns of `C` a step works on (lapack/unmq_level2.hpp:161, 173, 187, 199). -/
def unmqPart (side : Side) (C : MatV L) (r0 r1 : Nat) : M L T (MatV L) :=
  if side = .Left then C.slice r0 r1 0 C.n else C.slice 0 C.m r0 r1

/-- One step of unmq_level2_work (lapack/unmq_level2.hpp:157-164, 169-176, 183-190, 195-202). -/
def unmqStep (side : Side) (trans : Op) (dir : Direction) (store : StoreV) (V : MatV L)
    (tau : VecV L) (C : MatV L) (work : VecV L) (i : Nat) : M L T Unit := do
  let nQ := if side = .Left then C.m else C.n
  let r0 := if dir = .Forward then i else 0
  let r1 := if dir = .Forward then nQ else nQ - tau.n + i + 1
  let v ← unmqVec store V i r0 r1
  let Ci ← unmqPart side C r0 r1
  let t ← tau.get i
  let t := if store = .Columnwise then (if trans = .ConjTrans then star t else t)
    else (if trans = .NoTrans then star t else t)
  larf side dir store v t Ci work

/-- `positiveInc` (lapack/unmq_level2.hpp:142-149). -/
def unmqInc (side : Side) (trans : Op) (dir : Direction) (store : StoreV) : Bool :=
  let left := match store with
    | .Columnwise => if dir = .Backward then decide (trans = .NoTrans) else decide (trans ≠ .NoTrans)
    | .Rowwise => if dir = .Forward then decide (trans = .NoTrans) else decide (trans ≠ .NoTrans)
  if side = .Left then left else !left

/-- unmq_level2_work (lapack/unmq_level2.hpp:109-208); unm2r, unm2l, unml2 and unmr2 call it with
(Forward, Columnwise), (Backward, Columnwise), (Forward, Rowwise) and (Backward, Rowwise)
(lapack/unm2r.hpp:151, unm2l.hpp:138, unml2.hpp:139, unmr2.hpp:138). -/
def unmq (isReal : Bool) (side : Side) (trans : Op) (dir : Direction) (store : StoreV) (V : MatV L)
    (tau : VecV L) (C : MatV L) (work : VecV L) : M L T Nat := do
  let k := tau.n
  let nQ := if side = .Left then C.m else C.n
  check (!(side ≠ .Left ∧ side ≠ .Right : Bool))
  check (!(trans ≠ .NoTrans ∧ trans ≠ .ConjTrans ∧ (trans ≠ .Trans ∨ isReal = false) : Bool))
  check (match store with
    | .Columnwise => decide (V.n = k ∧ V.m = nQ)
    | .Rowwise => decide (V.m = k ∧ V.n = nQ))
  if C.m = 0 ∨ C.n = 0 ∨ k = 0 then pure 0
  else if unmqInc side trans dir store then do
    forUp_ 0 k fun i => unmqStep side trans dir store V tau C work i
    pure 0
  else do
    forDown_ 0 k fun i => unmqStep side trans dir store V tau C work i
    pure 0

end house
end TLA
