import Verif.Model.House
import Verif.Model.Chol
import Verif.Model.Auxil
import Verif.Model.Workspace

/-!
# Model of the blocked Householder routines

larft, larfb, geqrf, gelqf, geqlf, gerqf, unmq (unmqr, unmlq, unmql, unmrq), ungq (ungqr, unglq,
ungql, ungrq).  The work-space is contiguous, as the one allocated by the wrappers without `_work`:
a vector whose length is the number of entries.
-/

namespace TLA
variable {L T : Type} [DecidableEq L]

/-- `reshape(work, m, n)` for a contiguous work-space (plugins/legacyArray.hpp:577-601, 674-701): the
column-major matrix on the first `m n` entries and what remains; throws if the work-space is too
small.  Simplification: the layout of the resulting matrix is column-major. -/
def reshapeWM (work : VecV L) (m n : Nat) : M L T (MatV L × VecV L) := do
  check (decide (m * n ≤ work.n))
  pure (⟨m, n, fun i j => work.cell (i + j * m)⟩, work.sub (m * n) work.n)

section blk
variable [Zero T] [One T] [Add T] [Mul T] [Sub T] [Neg T] [Div T] [Star T] [ReIm T] [DecidableEq T]
variable {R : Type} [Field R] [LinearOrder R]

/-- The rest of `t := -tau_i V^H v_i`, Columnwise (lapack/larft.hpp:148-152). -/
def larftGemvC (V : MatV L) (ti : T) (n i : Nat) (t : VecV L) : M L T Unit :=
  if i + 1 < n then do
    let V0 ← V.slice (i + 1) n 0 i
    let vi ← V.sliceCol (i + 1) n i
    gemv .ConjTrans (-ti) V0 vi (.val 1) t
  else pure ()

/-- The rest of `t := -tau_i V v_i^H`, Rowwise (lapack/larft.hpp:160-166). -/
def larftGemmR (V : MatV L) (ti : T) (n i : Nat) (Tm : MatV L) : M L T Unit :=
  if i + 1 < n then do
    let Ti ← Tm.slice 0 i i (i + 1)
    let V0 ← V.slice 0 i (i + 1) n
    let vi ← V.slice i (i + 1) (i + 1) n
    gemm .NoTrans .ConjTrans (-ti) V0 vi (.val 1) Ti
  else pure ()

/-- Column `i` above the diagonal, Forward (lapack/larft.hpp:134-172). -/
def larftFwdCol (store : StoreV) (V : MatV L) (ti : T) (Tm : MatV L) (n i : Nat) (t : VecV L) :
    M L T Unit :=
  if ti = 0 then forUp_ 0 i fun j => t.set j 0
  else do
    match store with
    | .Columnwise => do
      forUp_ 0 i fun j => do
        let v ← V.get i j
        t.set j (-ti * star v)
      larftGemvC V ti n i t
    | .Rowwise => do
      forUp_ 0 i fun j => do
        let v ← V.get j i
        t.set j (-ti * v)
      larftGemmR V ti n i Tm
    let T0 ← Tm.slice 0 i 0 i
    trmv .Upper .NoTrans .NonUnit T0 t

/-- One step of the Forward loop (lapack/larft.hpp:130-176). -/
def larftFwdStep (store : StoreV) (V : MatV L) (tau : VecV L) (Tm : MatV L) (n i : Nat) :
    M L T Unit := do
  let t ← Tm.sliceCol 0 i i
  let ti ← tau.get i
  larftFwdCol store V ti Tm n i t
  Tm.set i i ti

/-- Column `i` below the diagonal, Backward (lapack/larft.hpp:188-222). -/
def larftBwdCol (store : StoreV) (V : MatV L) (ti : T) (Tm : MatV L) (n k i : Nat) (t : VecV L) :
    M L T Unit :=
  if ti = 0 then forUp_ 0 (k - i - 1) fun j => t.set j 0
  else do
    match store with
    | .Columnwise => do
      forUp_ 0 (k - i - 1) fun j => do
        let v ← V.get (n - k + i) (j + i + 1)
        t.set j (-ti * star v)
      let V0 ← V.slice 0 (n - k + i) (i + 1) k
      let vi ← V.sliceCol 0 (n - k + i) i
      gemv .ConjTrans (-ti) V0 vi (.val 1) t
    | .Rowwise => do
      forUp_ 0 (k - i - 1) fun j => do
        let v ← V.get (j + i + 1) (n - k + i)
        t.set j (-ti * v)
      let Ti ← Tm.slice (i + 1) k i (i + 1)
      let V0 ← V.slice (i + 1) k 0 (n - k + i)
      let vi ← V.slice i (i + 1) 0 (n - k + i)
      gemm .NoTrans .ConjTrans (-ti) V0 vi (.val 1) Ti
    let T0 ← Tm.slice (i + 1) k (i + 1) k
    trmv .Lower .NoTrans .NonUnit T0 t

/-- One step of the Backward loop (lapack/larft.hpp:184-226). -/
def larftBwdStep (store : StoreV) (V : MatV L) (tau : VecV L) (Tm : MatV L) (n k i : Nat) :
    M L T Unit := do
  let t ← Tm.sliceCol (i + 1) k i
  let ti ← tau.get i
  larftBwdCol store V ti Tm n k i t
  Tm.set i i ti

/-- larft (lapack/larft.hpp:92-229). -/
def larft (dir : Direction) (store : StoreV) (V : MatV L) (tau : VecV L) (Tm : MatV L) :
    M L T Nat := do
  let n := if store = .Columnwise then V.m else V.n
  let k := tau.n
  check (!(k > (if store = .Columnwise then V.n else V.m) : Bool))
  check (!(Tm.m < k ∨ Tm.n < k : Bool))
  if n = 0 ∨ k = 0 then pure 0
  else if dir = .Forward then do
    let t0 ← tau.get 0
    Tm.set 0 0 t0
    forUp_ 1 k fun i => larftFwdStep store V tau Tm n i
    pure 0
  else do
    let t0 ← tau.get (k - 1)
    Tm.set (k - 1) (k - 1) t0
    forDown_ 0 (k - 1) fun i => larftBwdStep store V tau Tm n k i
    pure 0

/-! ### larfb -/

/-- `larfb_worksize` (lapack/larfb.hpp:73-93). -/
def larfbWorksize (side : Side) (m n k : Nat) : WorkInfo :=
  if side = .Left then .ofMat k n else .ofMat m k

/-- `for j, for i: C1(i, j) += W(i, j)` over all of `W` (lapack/larfb.hpp:187-189 and the seven
copies of it). -/
def addInto (W C1 : MatV L) : M L T Unit :=
  forUp_ 0 W.n fun j => forUp_ 0 W.m fun i => do
    let w ← W.get i j
    C1.modify i j (fun c => c + w)

/-- The eight cases of larfb differ only in the triangle `uV` of `V1`, in where `V1`, `V2`, `C1`, `C2`
are, in the triangle `uT` of `T` and in the operations `opH` (`ConjTrans` for Columnwise, `NoTrans` for
Rowwise) and `opN`.  Left (lapack/larfb.hpp:169-189, 237-257, 307-327, 375-395); `rest` is the test
`m > k`. -/
def larfbL (uV uT : Uplo) (opH opN trans : Op) (rest : Bool) (V1 V2 Tm C1 C2 W : MatV L) :
    M L T Unit := do
  lacpy .General C1 W
  trmm .Left uV opH .Unit 1 V1 W
  (if rest then gemm opH .NoTrans 1 V2 C2 (.val 1) W else pure ())
  trmm .Left uT trans .NonUnit 1 Tm W
  (if rest then gemm opN .NoTrans (-1) V2 W (.val 1) C2 else pure ())
  trmm .Left uV opN .Unit (-1) V1 W
  addInto W C1

/-- Right (lapack/larfb.hpp:202-222, 270-290, 340-360, 408-428). -/
def larfbR (uV uT : Uplo) (opN opH trans : Op) (rest : Bool) (V1 V2 Tm C1 C2 W : MatV L) :
    M L T Unit := do
  lacpy .General C1 W
  trmm .Right uV opN .Unit 1 V1 W
  (if rest then gemm .NoTrans opN 1 C2 V2 (.val 1) W else pure ())
  trmm .Right uT trans .NonUnit 1 Tm W
  (if rest then gemm .NoTrans opH (-1) W V2 (.val 1) C2 else pure ())
  trmm .Right uV opH .Unit (-1) V1 W
  addInto W C1

/-- The shape check of lapack/larfb.hpp:141-146 as C++ parses it: `&&` binds tighter than `? :`, so
that `ncols(V) == k` (resp. `nrows(V) == k`) is part of the condition that selects between `m` and
`n`. -/
def larfbCheck (side : Side) (store : StoreV) (V : MatV L) (m n k : Nat) : Bool :=
  match store with
  | .Columnwise => if V.n = k ∧ side = .Left then decide (V.m = m) else decide (V.m = n)
  | .Rowwise => if V.m = k ∧ side = .Left then decide (V.n = m) else decide (V.n = n)

/-- The eight cases (lapack/larfb.hpp:156-431). -/
def larfbCases (side : Side) (trans : Op) (dir : Direction) (store : StoreV) (V Tm C W : MatV L)
    (m n k : Nat) : M L T Unit :=
  match store, dir with
  | .Columnwise, .Forward =>
    if side = .Left then do
      let V1 ← V.slice 0 k 0 V.n
      let V2 ← V.slice k m 0 V.n
      let C1 ← C.slice 0 k 0 C.n
      let C2 ← C.slice k m 0 C.n
      larfbL .Lower .Upper .ConjTrans .NoTrans trans (decide (m > k)) V1 V2 Tm C1 C2 W
    else do
      let V1 ← V.slice 0 k 0 V.n
      let V2 ← V.slice k n 0 V.n
      let C1 ← C.slice 0 C.m 0 k
      let C2 ← C.slice 0 C.m k n
      larfbR .Lower .Upper .NoTrans .ConjTrans trans (decide (n > k)) V1 V2 Tm C1 C2 W
  | .Columnwise, .Backward =>
    if side = .Left then do
      let V1 ← V.slice 0 (m - k) 0 V.n
      let V2 ← V.slice (m - k) m 0 V.n
      let C1 ← C.slice 0 (m - k) 0 C.n
      let C2 ← C.slice (m - k) m 0 C.n
      larfbL .Upper .Lower .ConjTrans .NoTrans trans (decide (m > k)) V2 V1 Tm C2 C1 W
    else do
      let V1 ← V.slice 0 (n - k) 0 V.n
      let V2 ← V.slice (n - k) n 0 V.n
      let C1 ← C.slice 0 C.m 0 (n - k)
      let C2 ← C.slice 0 C.m (n - k) n
      larfbR .Upper .Lower .NoTrans .ConjTrans trans (decide (n > k)) V2 V1 Tm C2 C1 W
  | .Rowwise, .Forward =>
    if side = .Left then do
      let V1 ← V.slice 0 V.m 0 k
      let V2 ← V.slice 0 V.m k m
      let C1 ← C.slice 0 k 0 C.n
      let C2 ← C.slice k m 0 C.n
      larfbL .Upper .Upper .NoTrans .ConjTrans trans (decide (m > k)) V1 V2 Tm C1 C2 W
    else do
      let V1 ← V.slice 0 V.m 0 k
      let V2 ← V.slice 0 V.m k n
      let C1 ← C.slice 0 C.m 0 k
      let C2 ← C.slice 0 C.m k n
      larfbR .Upper .Upper .ConjTrans .NoTrans trans (decide (n > k)) V1 V2 Tm C1 C2 W
  | .Rowwise, .Backward =>
    if side = .Left then do
      let V1 ← V.slice 0 V.m 0 (m - k)
      let V2 ← V.slice 0 V.m (m - k) m
      let C1 ← C.slice 0 (m - k) 0 C.n
      let C2 ← C.slice (m - k) m 0 C.n
      larfbL .Lower .Lower .NoTrans .ConjTrans trans (decide (m > k)) V2 V1 Tm C2 C1 W
    else do
      let V1 ← V.slice 0 V.m 0 (n - k)
      let V2 ← V.slice 0 V.m (n - k) n
      let C1 ← C.slice 0 C.m 0 (n - k)
      let C2 ← C.slice 0 C.m (n - k) n
      larfbR .Lower .Lower .ConjTrans .NoTrans trans (decide (n > k)) V2 V1 Tm C2 C1 W

/-- larfb_work (lapack/larfb.hpp:111-434); `isReal` says that the entries of `V` are real numbers.
The subtractions `m - k`, `n - k` are truncated: for `k > m` the slices that precede their use are out
of range anyway (`ub`). -/
def larfb (isReal : Bool) (side : Side) (trans : Op) (dir : Direction) (store : StoreV)
    (V Tm C : MatV L) (work : VecV L) : M L T Nat := do
  let m := C.m
  let n := C.n
  let k := Tm.m
  check (!(side ≠ .Left ∧ side ≠ .Right : Bool))
  check (!(trans ≠ .NoTrans ∧ trans ≠ .ConjTrans ∧ (trans ≠ .Trans ∨ isReal = false) : Bool))
  check (larfbCheck side store V m n k)
  check (Tm.m = Tm.n : Bool)
  if m = 0 ∨ n = 0 ∨ k = 0 then pure 0
  else do
    let W ← (if side = .Left then reshapeWM work k n else reshapeWM work m k)
    larfbCases side trans dir store V Tm C W.1 m n k
    pure 0

/-! ### The four blocked factorizations -/

/-- larft followed by larfb (lapack/geqrf.hpp:110-116, gelqf.hpp:110-116, geqlf.hpp:110-116,
gerqf.hpp:110-116, unmq.hpp:189-198, 209-219, ungq.hpp:187-192 and its three copies): `Tm` is the
leading block of order `tau.n` of `TT`. -/
def blockApply (isReal : Bool) (side : Side) (trans : Op) (dir : Direction) (store : StoreV)
    (V : MatV L) (tau : VecV L) (TT C : MatV L) (work : VecV L) : M L T Unit := do
  let Tm ← TT.slice 0 tau.n 0 tau.n
  let _ ← larft dir store V tau Tm
  let _ ← larfb isReal side trans dir store V Tm C work
  pure ()

/-- The choice `(n > nb) ? reshape(work, nb, nb) : reshape(work, 0, 0)` (lapack/geqrf.hpp:95,
gelqf.hpp:95, geqlf.hpp:95, gerqf.hpp:95, ungq.hpp:168-169). -/
def blockWork (cond : Bool) (work : VecV L) (nb : Nat) : M L T (MatV L × VecV L) :=
  if cond then reshapeWM work nb nb else reshapeWM work 0 0

/-- `geqrf_worksize` (lapack/geqrf.hpp:41-69); `nb0` is `opts.nb`. -/
def geqrfWorksize (A : MatV L) (nb0 : Nat) : WorkInfo :=
  let nb := min nb0 (min A.m A.n)
  let w := WorkInfo.ofSize (geqr2Worksize (A.sub 0 A.m 0 nb))
  if A.n > nb then (w.minMax (larfbWorksize .Left A.m (A.n - nb) nb)).add (.ofMat nb nb) else w

/-- One step of geqrf_work (lapack/geqrf.hpp:99-117). -/
def geqrfStep (o : HhOps T R) (A : MatV L) (tau work : VecV L) (TT : MatV L) (work2 : VecV L)
    (k nb j : Nat) : M L T (Option Unit) := do
  let ib := min nb (k - j)
  let A11 ← A.slice j A.m j (j + ib)
  let tau1 ← tau.slice j (j + ib)
  let _ ← geqr2 o A11 tau1 work
  if j + ib < A.n then do
    let A12 ← A.slice j A.m (j + ib) A.n
    blockApply o.isReal .Left .ConjTrans .Forward .Columnwise A11 tau1 TT A12 work2
    pure none
  else pure none

/-- geqrf_work (lapack/geqrf.hpp:80-121). -/
def geqrf (o : HhOps T R) (nb0 : Nat) (A : MatV L) (tau work : VecV L) : M L T Nat := do
  let k := min A.m A.n
  let nb := min nb0 k
  check (decide (tau.n ≥ k))
  let w ← blockWork (decide (A.n > nb)) work nb
  let _ ← forStep nb k (geqrfStep o A tau work w.1 w.2 k nb) 0
  pure 0

/-- `gelqf_worksize` (lapack/gelqf.hpp:41-69). -/
def gelqfWorksize (A : MatV L) (nb0 : Nat) : WorkInfo :=
  let nb := min nb0 (min A.m A.n)
  let w := WorkInfo.ofSize (gelq2Worksize (A.sub 0 nb 0 A.n))
  if A.m > nb then (w.minMax (larfbWorksize .Right (A.m - nb) A.n nb)).add (.ofMat nb nb) else w

/-- One step of gelqf_work (lapack/gelqf.hpp:99-117). -/
def gelqfStep (o : HhOps T R) (A : MatV L) (tau work : VecV L) (TT : MatV L) (work2 : VecV L)
    (k nb j : Nat) : M L T (Option Unit) := do
  let ib := min nb (k - j)
  let A11 ← A.slice j (j + ib) j A.n
  let tau1 ← tau.slice j (j + ib)
  let _ ← gelq2 o A11 tau1 work
  if j + ib < A.m then do
    let A12 ← A.slice (j + ib) A.m j A.n
    blockApply o.isReal .Right .NoTrans .Forward .Rowwise A11 tau1 TT A12 work2
    pure none
  else pure none

/-- gelqf_work (lapack/gelqf.hpp:80-121). -/
def gelqf (o : HhOps T R) (nb0 : Nat) (A : MatV L) (tau work : VecV L) : M L T Nat := do
  let k := min A.m A.n
  let nb := min nb0 k
  check (decide (tau.n ≥ k))
  let w ← blockWork (decide (A.m > nb)) work nb
  let _ ← forStep nb k (gelqfStep o A tau work w.1 w.2 k nb) 0
  pure 0

/-- `geqlf_worksize` (lapack/geqlf.hpp:41-69). -/
def geqlfWorksize (A : MatV L) (nb0 : Nat) : WorkInfo :=
  let nb := min nb0 (min A.m A.n)
  let w := WorkInfo.ofSize (geql2Worksize (A.sub 0 A.m 0 nb))
  if A.n > nb then (w.minMax (larfbWorksize .Left A.m (A.n - nb) nb)).add (.ofMat nb nb) else w

/-- One step of geqlf_work (lapack/geqlf.hpp:99-117). -/
def geqlfStep (o : HhOps T R) (A : MatV L) (tau work : VecV L) (TT : MatV L) (work2 : VecV L)
    (k nb j2 : Nat) : M L T (Option Unit) := do
  let n := A.n
  let j := n - j2
  let ib := min nb (k - j2)
  let A11 ← A.slice 0 (A.m - (n - j)) (j - ib) j
  let tau1 ← tau.slice (k - (n - j) - ib) (k - (n - j))
  let _ ← geql2 o A11 tau1 work
  if j > ib then do
    let A12 ← A.slice 0 (A.m - (n - j)) 0 (j - ib)
    blockApply o.isReal .Left .ConjTrans .Backward .Columnwise A11 tau1 TT A12 work2
    pure none
  else pure none

/-- geqlf_work (lapack/geqlf.hpp:80-121). -/
def geqlf (o : HhOps T R) (nb0 : Nat) (A : MatV L) (tau work : VecV L) : M L T Nat := do
  let k := min A.m A.n
  let nb := min nb0 k
  check (decide (tau.n ≥ k))
  let w ← blockWork (decide (A.n > nb)) work nb
  let _ ← forStep nb k (geqlfStep o A tau work w.1 w.2 k nb) 0
  pure 0

/-- `gerqf_worksize` (lapack/gerqf.hpp:41-69). -/
def gerqfWorksize (A : MatV L) (nb0 : Nat) : WorkInfo :=
  let nb := min nb0 (min A.m A.n)
  let w := WorkInfo.ofSize (gerq2Worksize (A.sub 0 nb 0 A.n))
  if A.m > nb then (w.minMax (larfbWorksize .Right (A.m - nb) A.n nb)).add (.ofMat nb nb) else w

/-- One step of gerqf_work (lapack/gerqf.hpp:99-117). -/
def gerqfStep (o : HhOps T R) (A : MatV L) (tau work : VecV L) (TT : MatV L) (work2 : VecV L)
    (k nb j2 : Nat) : M L T (Option Unit) := do
  let ib := min nb (k - j2)
  let j := A.m - j2 - ib
  let A11 ← A.slice j (j + ib) 0 (A.n - j2)
  let tau1 ← tau.slice (k - j2 - ib) (k - j2)
  let _ ← gerq2 o A11 tau1 work
  if j > 0 then do
    let A12 ← A.slice 0 j 0 (A.n - j2)
    blockApply o.isReal .Right .NoTrans .Backward .Rowwise A11 tau1 TT A12 work2
    pure none
  else pure none

/-- gerqf_work (lapack/gerqf.hpp:80-121). -/
def gerqf (o : HhOps T R) (nb0 : Nat) (A : MatV L) (tau work : VecV L) : M L T Nat := do
  let k := min A.m A.n
  let nb := min nb0 k
  check (decide (tau.n ≥ k))
  let w ← blockWork (decide (A.m > nb)) work nb
  let _ ← forStep nb k (gerqfStep o A tau work w.1 w.2 k nb) 0
  pure 0

/-! ### Applying and generating Q -/

/-- `unmq_worksize` (lapack/unmq.hpp:79-113). -/
def unmqBlkWorksize (side : Side) (C : MatV L) (k nb0 : Nat) : WorkInfo :=
  let nb := min nb0 k
  (WorkInfo.ofMat nb nb).add (larfbWorksize side C.m C.n nb)

/-- One step of unmq_work (lapack/unmq.hpp:183-199, 203-220). -/
def unmqBlkStep (isReal : Bool) (side : Side) (trans : Op) (dir : Direction) (store : StoreV)
    (V : MatV L) (tau : VecV L) (C TT : MatV L) (work1 : VecV L) (nb i : Nat) : M L T Unit := do
  let k := tau.n
  let nQ := if side = .Left then C.m else C.n
  let ib := min nb (k - i)
  let r0 := if dir = .Forward then i else 0
  let r1 := if dir = .Forward then nQ else nQ - k + i + ib
  let Vi ← (if store = .Columnwise then V.slice r0 r1 i (i + ib) else V.slice i (i + ib) r0 r1)
  let taui ← tau.slice i (i + ib)
  let Ci ← unmqPart side C r0 r1
  let tr := if store = .Columnwise then trans else (if trans = .NoTrans then .ConjTrans else .NoTrans)
  blockApply isReal side tr dir store Vi taui TT Ci work1

/-- unmq_work (lapack/unmq.hpp:131-224).  The loops `for (i = i0; i != iN; i += inc)` run over the
multiples of `nb` below `k`, upwards or downwards (lines 177-179); for `nb = 0` line 177 or 178 divides
by zero. -/
def unmqBlk (isReal : Bool) (nb0 : Nat) (side : Side) (trans : Op) (dir : Direction) (store : StoreV)
    (V : MatV L) (tau : VecV L) (C : MatV L) (work : VecV L) : M L T Nat := do
  let k := tau.n
  let nQ := if side = .Left then C.m else C.n
  let nb := min nb0 k
  check (!(side ≠ .Left ∧ side ≠ .Right : Bool))
  check (!(trans ≠ .NoTrans ∧ trans ≠ .ConjTrans ∧ (trans ≠ .Trans ∨ isReal = false) : Bool))
  check (match store with
    | .Columnwise => decide (V.n = k ∧ V.m = nQ)
    | .Rowwise => decide (V.m = k ∧ V.n = nQ))
  if C.m = 0 ∨ C.n = 0 ∨ k = 0 then pure 0
  else do
    let w ← reshapeWM work nb nb
    if nb = 0 then M.fail .ub
    else if unmqInc side trans dir store then do
      forUp_ 0 ((k - 1) / nb + 1) fun b =>
        unmqBlkStep isReal side trans dir store V tau C w.1 w.2 nb (b * nb)
      pure 0
    else do
      forDown_ 0 ((k - 1) / nb + 1) fun b =>
        unmqBlkStep isReal side trans dir store V tau C w.1 w.2 nb (b * nb)
      pure 0

/-- `ungq_worksize` (lapack/ungq.hpp:59-123).  For Backward and `k = 0` line 88 (106) divides by zero;
see `ungqBlk`. -/
def ungqBlkWorksize (dir : Direction) (store : StoreV) (A : MatV L) (k nb0 : Nat) : WorkInfo :=
  let nb := min nb0 k
  let w := match store with
    | .Columnwise => if nb < A.n then
        (larfbWorksize .Left A.m (if dir = Direction.Forward then A.n - nb else (A.n - k) + (k - 1) / nb * nb)
          nb).add (.ofMat nb nb)
      else .ofSize 0
    | .Rowwise => if nb < A.m then
        (larfbWorksize .Right (if dir = Direction.Forward then A.m - nb else (A.m - k) + (k - 1) / nb * nb)
          A.n nb).add (.ofMat nb nb)
      else .ofSize 0
  w.minMax (.ofSize (match store with
    | .Columnwise => ungqWorksize store (A.sub 0 A.m 0 nb)
    | .Rowwise => ungqWorksize store (A.sub 0 nb 0 A.n)))

/-- The update of the rest of the matrix in a step of ungq_work (lapack/ungq.hpp:184-193, 218-228,
251-260, 285-295). -/
def ungqUpd (c : Bool) (isReal : Bool) (dir : Direction) (store : StoreV) (V : MatV L) (tau : VecV L)
    (TT : MatV L) (A : MatV L) (r0 r1 c0 c1 : Nat) (work1 : VecV L) : M L T Unit :=
  if c then do
    let C ← A.slice r0 r1 c0 c1
    blockApply isReal (if store = .Columnwise then .Left else .Right)
      (if store = .Columnwise then .NoTrans else .ConjTrans) dir store V tau TT C work1
  else pure ()

/-- One step, Columnwise, Forward (lapack/ungq.hpp:180-199). -/
def ungqrStep (isReal : Bool) (A : MatV L) (tau work : VecV L) (TT : MatV L) (work1 : VecV L)
    (nb j : Nat) : M L T Unit := do
  let ib := min nb (tau.n - j)
  let tauj ← tau.slice j (j + ib)
  let V ← A.slice j A.m j (j + ib)
  ungqUpd (decide (j + ib < A.n)) isReal .Forward .Columnwise V tauj TT A j A.m (j + ib) A.n work1
  let A0 ← A.slice 0 j j (j + ib)
  lasetG 0 A0
  let _ ← ungq .Forward .Columnwise V tauj work
  pure ()

/-- One step, Columnwise, Backward (lapack/ungq.hpp:212-234). -/
def ungqlStep (isReal : Bool) (A : MatV L) (tau work : VecV L) (TT : MatV L) (work1 : VecV L)
    (nb j : Nat) : M L T (Option Unit) := do
  let k := tau.n
  let ib := min nb (k - j)
  let sizev := A.m - k + j + ib
  let jj := A.n - k + j
  let tauj ← tau.slice j (j + ib)
  let V ← A.slice 0 sizev jj (jj + ib)
  ungqUpd (decide (jj > 0)) isReal .Backward .Columnwise V tauj TT A 0 sizev 0 jj work1
  let A0 ← A.slice sizev A.m jj (jj + ib)
  let _ ← ungq .Backward .Columnwise V tauj work
  lasetG 0 A0
  pure none

/-- One step, Rowwise, Forward (lapack/ungq.hpp:247-266). -/
def unglqStep (isReal : Bool) (A : MatV L) (tau work : VecV L) (TT : MatV L) (work1 : VecV L)
    (nb i : Nat) : M L T Unit := do
  let ib := min nb (tau.n - i)
  let taui ← tau.slice i (i + ib)
  let V ← A.slice i (i + ib) i A.n
  ungqUpd (decide (i + ib < A.m)) isReal .Forward .Rowwise V taui TT A (i + ib) A.m i A.n work1
  let A0 ← A.slice i (i + ib) 0 i
  lasetG 0 A0
  let _ ← ungq .Forward .Rowwise V taui work
  pure ()

/-- One step, Rowwise, Backward (lapack/ungq.hpp:279-301). -/
def ungrqStep (isReal : Bool) (A : MatV L) (tau work : VecV L) (TT : MatV L) (work1 : VecV L)
    (nb i : Nat) : M L T (Option Unit) := do
  let k := tau.n
  let ib := min nb (k - i)
  let sizev := A.n - k + i + ib
  let ii := A.m - k + i
  let taui ← tau.slice i (i + ib)
  let V ← A.slice ii (ii + ib) 0 sizev
  ungqUpd (decide (ii > 0)) isReal .Backward .Rowwise V taui TT A 0 ii 0 sizev work1
  let A0 ← A.slice ii (ii + ib) sizev A.n
  let _ ← ungq .Backward .Rowwise V taui work
  lasetG 0 A0
  pure none

/-- `for (j = ((k - 1) / nb) * nb; j != -nb; j -= nb)` (lapack/ungq.hpp:179, 246): the multiples of `nb`
below `k`, downwards; for `nb = 0`, that is for `k = 0` or `opts.nb = 0`, the initialization divides by
zero. -/
def ungqLoop (k nb : Nat) (body : Nat → M L T Unit) : M L T Unit :=
  if nb = 0 then M.fail .ub else forDown_ 0 ((k - 1) / nb + 1) fun b => body (b * nb)

/-- ungq_work (lapack/ungq.hpp:138-307). -/
def ungqBlk (isReal : Bool) (nb0 : Nat) (dir : Direction) (store : StoreV) (A : MatV L)
    (tau work : VecV L) : M L T Nat := do
  let m := A.m
  let n := A.n
  let k := tau.n
  let nb := min nb0 k
  check (match store with
    | .Columnwise => decide (m ≥ n ∧ n ≥ k)
    | .Rowwise => decide (n ≥ m ∧ m ≥ k))
  if m = 0 ∨ n = 0 then pure 0
  else do
    let w ← blockWork (decide (min m n > nb)) work nb
    match store, dir with
    | .Columnwise, .Forward => do
      let A0 ← A.slice 0 k k n
      let A1 ← A.slice k m k n
      lasetG 0 A0
      lasetG 1 A1
      ungqLoop k nb (ungqrStep isReal A tau work w.1 w.2 nb)
      pure 0
    | .Columnwise, .Backward => do
      let A0 ← A.slice 0 (m - n) 0 (n - k)
      let A1 ← A.slice (m - n) (m - k) 0 (n - k)
      let A2 ← A.slice (m - k) m 0 (n - k)
      lasetG 0 A0
      lasetG 1 A1
      lasetG 0 A2
      let _ ← forStep nb k (ungqlStep isReal A tau work w.1 w.2 nb) 0
      pure 0
    | .Rowwise, .Forward => do
      let A0 ← A.slice k m 0 k
      let A1 ← A.slice k m k n
      lasetG 0 A0
      lasetG 1 A1
      ungqLoop k nb (unglqStep isReal A tau work w.1 w.2 nb)
      pure 0
    | .Rowwise, .Backward => do
      let A0 ← A.slice 0 (m - k) 0 (n - m)
      let A1 ← A.slice 0 (m - k) (n - m) (n - k)
      let A2 ← A.slice 0 (m - k) (n - k) n
      lasetG 0 A0
      lasetG 1 A1
      lasetG 0 A2
      let _ ← forStep nb k (ungrqStep isReal A tau work w.1 w.2 nb) 0
      pure 0

end blk
end TLA
