import Verif.Model.Lu
import Verif.Model.BlockRefl
import Verif.Model.Blas3

/-!
# Model of the Bunch-Kaufman factorization: hetf3, hetrf_blocked, hetrf (uplo = Lower)

Pivot arrays hold `int`s and are values (`ZArr`); `int` is modelled by unbounded integers.  Columns and rows of slices are taken as the
corresponding part of a column or row of the matrix itself.
-/

namespace TLA
variable {L T : Type} [DecidableEq L]

/-- An array of `n` integers. -/
structure ZArr where
  n : Nat
  f : Nat → Int

/-- `ipiv[i] = v`. -/
def ZArr.set (p : ZArr) (i : Nat) (v : Int) : M L T ZArr :=
  if i < p.n then pure ⟨p.n, fun k => if k = i then v else p.f k⟩ else M.fail .ub

/-- `ipiv[i]`. -/
def ZArr.get (p : ZArr) (i : Nat) : M L T Int :=
  if i < p.n then pure (p.f i) else M.fail .ub

/-- `slice(ipiv, range(a, b))` as an array of its own. -/
def ZArr.slice (p : ZArr) (a b : Nat) : M L T ZArr :=
  if (a < p.n ∨ a = b) ∧ b ≤ p.n ∧ a ≤ b then pure ⟨b - a, fun i => p.f (a + i)⟩ else M.fail .ub

/-- The array `p` after the entries seen through `slice(p, range(a, a + q.n))` became `q`. -/
def ZArr.put (p : ZArr) (a : Nat) (q : ZArr) : ZArr :=
  ⟨p.n, fun i => if a ≤ i ∧ i < a + q.n then q.f (i - a) else p.f i⟩

variable [Zero T] [One T] [Add T] [Mul T] [Sub T] [Neg T] [Div T] [Star T] [ReIm T] [DecidableEq T]

/-- `hermitian ? conj(x) : x`. -/
def cjIf (herm : Bool) (x : T) : T := if herm then star x else x

/-- `hermitian ? real(x) : x`. -/
def reIf (herm : Bool) (x : T) : T := if herm then re x else x

/-- `if (hermitian) conjv(x)` (lapack/hetf3.hpp:106-110). -/
def conjIf (herm : Bool) (x : VecV L) : M L T Unit := if herm then conjugate x else pure ()

/-- `if (hermitian) W(i, c) = real(W(i, c))`. -/
def realIf (herm : Bool) (W : MatV L) (i c : Nat) : M L T Unit :=
  if herm then do
    let v ← W.get i c
    W.set i c (re v)
  else pure ()

/-- `iamax` of a nonempty vector with the default `abs1` (blas/iamax.hpp:245-251); the result of iamax_ec, never `idx_t(-1)`. -/
def iamaxD {R : Type} [LT R] [DecidableRel (α := R) (· < ·)] (o : LuOps T R) (x : VecV L) : M L T Nat := do
  let r ← iamaxEc o.toIamaxOps x
  match r with
  | some k => pure k
  | none => M.fail .ub

/-- The update of a column of `W` by the columns factored so far, with `i = j`, `c = j` (lapack/hetf3.hpp:348-360) and with `i = i_colmax`,
`c = j + 1` (lapack/hetf3.hpp:383-398). -/
def hetLowUpd (herm : Bool) (A W : MatV L) (n j i c : Nat) : M L T Unit :=
  if 0 < j then
    if herm then do
      let x ← W.sliceRow i 0 j
      let y ← W.sliceCol 0 j c
      copy x y
      let y ← W.sliceCol 0 j c
      conjugate y
      let Aj ← A.slice j n 0 j
      let x ← W.sliceCol 0 j c
      let y ← W.sliceCol j n c
      gemv .NoTrans (-1) Aj x (.val 1) y
      let v ← W.get i c
      W.set i c (re v)
    else do
      let Aj ← A.slice j n 0 j
      let x ← W.sliceRow i 0 j
      let y ← W.sliceCol j n c
      gemv .NoTrans (-1) Aj x (.val 1) y
  else pure ()

/-- lapack/hetf3.hpp:346-360. -/
def hetLowCol (herm : Bool) (A W : MatV L) (n j : Nat) : M L T Unit := do
  let x ← A.sliceCol j n j
  let y ← W.sliceCol j n j
  copy x y
  realIf herm W j j
  hetLowUpd herm A W n j j j

/-- lapack/hetf3.hpp:375-398, `i = i_colmax`. -/
def hetLowCol2 (herm : Bool) (A W : MatV L) (n j i : Nat) : M L T Unit := do
  let x ← A.sliceRow i j i
  let y ← W.sliceCol j i (j + 1)
  copy x y
  let x ← A.sliceCol i n i
  let y ← W.sliceCol i n (j + 1)
  copy x y
  (if herm then do
    let v ← W.get i (j + 1)
    W.set i (j + 1) (re v)
    let y ← W.sliceCol j i (j + 1)
    conjugate y
  else pure () : M L T Unit)
  hetLowUpd herm A W n j i (j + 1)

/-- The outcome of the pivot search. -/
inductive HetPiv where
  | zero
  | one (piv : Nat)
  | two (piv : Nat)

/-- The pivot search (lapack/hetf3.hpp:361-419), including the copy of the pivot column (line 413). -/
def hetLowPiv {R : Type} [Field R] [LinearOrder R] (o : LuOps T R) (alpha : R) (herm : Bool) (A W : MatV L) (n j : Nat) : M L T HetPiv := do
  let wjj ← W.get j j
  let absAjj := o.abs1 wjj
  let x ← W.sliceCol (j + 1) n j
  let t ← iamaxD o x
  let ic := j + 1 + t
  let wic ← W.get ic j
  let colmax := o.abs1 wic
  if max colmax absAjj = 0 then pure .zero
  else if alpha * colmax ≤ absAjj then pure (.one j)
  else do
    hetLowCol2 herm A W n j ic
    let x ← W.sliceCol j ic (j + 1)
    let t ← iamaxD o x
    let v ← W.get (j + t) (j + 1)
    let rowmax0 := o.abs1 v
    let rowmax ← (if ic + 1 < n then do
        let x ← W.sliceCol (ic + 1) n (j + 1)
        let t ← iamaxD o x
        let v ← W.get (ic + 1 + t) (j + 1)
        pure (max rowmax0 (o.abs1 v))
      else pure rowmax0 : M L T R)
    if rowmax = 0 then M.fail .divz
    else if alpha * colmax * colmax / rowmax ≤ absAjj then pure (.one j)
    else do
      let wii ← W.get ic (j + 1)
      if alpha * rowmax ≤ o.abs1 wii then do
        let x ← W.sliceCol j n (j + 1)
        let y ← W.sliceCol j n j
        copy x y
        pure (.one ic)
      else pure (.two ic)

/-- The interchange of rows and columns `s` and `piv` (lapack/hetf3.hpp:420-433). -/
def hetLowSwap (herm : Bool) (A W : MatV L) (n j s piv : Nat) : M L T Unit :=
  if piv ≠ s then do
    let d ← A.get s s
    A.set piv piv d
    let x ← A.sliceCol (s + 1) piv s
    let y ← A.sliceRow piv (s + 1) piv
    copy x y
    let y ← A.sliceRow piv (s + 1) piv
    conjIf herm y
    (if piv + 1 < n then do
      let x ← A.sliceCol (piv + 1) n s
      let y ← A.sliceCol (piv + 1) n piv
      copy x y
    else pure () : M L T Unit)
    (if 0 < j then do
      let x ← A.sliceRow piv 0 j
      let y ← A.sliceRow s 0 j
      swap x y
    else pure () : M L T Unit)
    let x ← W.sliceRow piv 0 (s + 1)
    let y ← W.sliceRow s 0 (s + 1)
    swap x y
  else pure ()

/-- A 1 by 1 pivot (lapack/hetf3.hpp:435-438). -/
def hetLowOne {R : Type} [Field R] [LinearOrder R] (o : LuOps T R) (herm : Bool) (A W : MatV L) (n j : Nat) : M L T Unit := do
  let x ← W.sliceCol j n j
  let y ← A.sliceCol j n j
  copy x y
  (if j + 1 < n then do
    let d ← W.get j j
    let x ← A.sliceCol (j + 1) n j
    rscl o (reIf herm d) x
  else pure () : M L T Unit)

/-- Division as in the code; a zero divisor is an error. -/
def divE (x y : T) : M L T T := if y = 0 then M.fail .divz else pure (x / y)

/-- A 2 by 2 pivot (lapack/hetf3.hpp:441-459).  For the Hermitian variant `d` is real; as a value of type `T` it is
`1 / (real(D11 * D22) - 1)`. -/
def hetLowTwo (herm : Bool) (A W : MatV L) (n j : Nat) : M L T Unit := do
  let D21 ← W.get (j + 1) j
  let a ← W.get j j
  let D22 ← divE a (cjIf herm D21)
  let b ← W.get (j + 1) (j + 1)
  let D11 ← divE b D21
  let d ← divE 1 (reIf herm (D11 * D22) - 1)
  let D21 ← divE d D21
  forUp_ (j + 2) n fun k => do
    let wj ← W.get k j
    let wj1 ← W.get k (j + 1)
    A.set k j (cjIf herm D21 * (D11 * wj - wj1))
    A.set k (j + 1) (D21 * (D22 * wj1 - wj))
  let v ← W.get j j
  A.set j j v
  let v ← W.get (j + 1) j
  A.set (j + 1) j v
  let v ← W.get (j + 1) (j + 1)
  A.set (j + 1) (j + 1) v

/-- One iteration of the panel (lapack/hetf3.hpp:342-467); returns the next `s`, `info` and `ipiv`. -/
def hetLowStep {R : Type} [Field R] [LinearOrder R] (o : LuOps T R) (alpha : R) (herm : Bool) (A W : MatV L) (n j info : Nat) (ipiv : ZArr) :
    M L T (Nat × Nat × ZArr) := do
  hetLowCol herm A W n j
  let r ← hetLowPiv o alpha herm A W n j
  match r with
  | .zero => do
    let d ← A.get j j
    A.set j j (re d)
    let ipiv ← ipiv.set j j
    pure (j + 1, (if info = 0 then j + 1 else info), ipiv)
  | .one piv => do
    hetLowSwap herm A W n j j piv
    hetLowOne o herm A W n j
    let ipiv ← ipiv.set j piv
    pure (j + 1, info, ipiv)
  | .two piv => do
    hetLowSwap herm A W n j (j + 1) piv
    hetLowTwo herm A W n j
    let ipiv ← ipiv.set (j + 1) (-(piv : Int) - 1)
    let ipiv ← ipiv.set j (-(piv : Int) - 1)
    pure (j + 2, info, ipiv)

/-- `for (s = 0; s < jn - 1; ++s)` (lapack/hetf3.hpp:341), where an iteration may advance `s` by 2.  `fuel` bounds the number of
iterations, which is at most `jn`. -/
def hetLowLoop {R : Type} [Field R] [LinearOrder R] (o : LuOps T R) (alpha : R) (herm : Bool) (A W : MatV L) (n jn : Nat) :
    Nat → Nat → Nat → ZArr → M L T (Nat × Nat × ZArr)
  | 0, s, info, ipiv => pure (s, info, ipiv)
  | fuel + 1, s, info, ipiv =>
    if s + 1 < jn then do
      let (s, info, ipiv) ← hetLowStep o alpha herm A W n s info ipiv
      hetLowLoop o alpha herm A W n jn fuel s info ipiv
    else pure (s, info, ipiv)

/-- Undoing the interchanges in the factored columns, `for (j = s - 1; j > 0; --j)` (lapack/hetf3.hpp:483-493); the argument is `j + 1`. -/
def hetLowUndo (A : MatV L) (ipiv : ZArr) : Nat → M L T Unit
  | 0 => pure ()
  | 1 => pure ()
  | j + 2 => do
    let piv ← ipiv.get (j + 1)
    if piv < 0 then do
      (if (-piv - 1 ≠ ((j + 1 : Nat) : Int)) ∧ 0 < j then do
        let x ← A.sliceRow (-piv - 1).toNat 0 j
        let y ← A.sliceRow (j + 1) 0 j
        swap x y
      else pure () : M L T Unit)
      hetLowUndo A ipiv j
    else do
      (if piv ≠ ((j + 1 : Nat) : Int) then do
        let x ← A.sliceRow piv.toNat 0 (j + 1)
        let y ← A.sliceRow (j + 1) 0 (j + 1)
        swap x y
      else pure () : M L T Unit)
      hetLowUndo A ipiv (j + 1)

/-- hetf3 with uplo = Lower (lapack/hetf3.hpp:58-84, 338-341, 469-496); returns `info` and the pivots. -/
def hetf3Low {R : Type} [Field R] [LinearOrder R] [OfNat T 2] (o : LuOps T R) (alpha : R) (mhalf : T) (herm : Bool) (nb : Nat) (A : MatV L) (ipiv : ZArr) (work : VecV L) :
    M L T (Nat × ZArr) := do
  let n := A.m
  check (decide (A.m = A.n))
  check (decide (A.m = ipiv.n))
  if n = 0 then pure (0, ipiv) else do
  let (W, _) ← reshapeWM work n nb
  let jn := min nb n
  let (s, info, ipiv) ← hetLowLoop o alpha herm A W n jn jn 0 0 ipiv
  let ipiv ← (if s < jn then ipiv.set (jn - 1) ((n : Int) + s) else pure ipiv : M L T ZArr)
  (if s < n then do
    let L21 ← A.slice s n 0 s
    let W21 ← W.slice s n 0 s
    let A22 ← A.slice s n s n
    if herm then her2k .Lower .NoTrans mhalf L21 W21 (.val 1) A22
    else syr2k .Lower .NoTrans mhalf L21 W21 (.val 1) A22
  else pure () : M L T Unit)
  hetLowUndo A ipiv s
  pure (info, ipiv)

/-- The pivots of a panel relative to the whole matrix (lapack/hetrf_blocked.hpp:102-111); `k` runs over the columns of the panel. -/
def hetShift (j step : Nat) : Nat → Nat → ZArr → M L T ZArr
  | 0, _, q => pure q
  | fuel + 1, k, q =>
    if k < step then do
      let v ← q.get k
      if 0 ≤ v then do
        let q ← q.set k (v + j)
        hetShift j step fuel (k + 1) q
      else do
        let q ← q.set k (v - j)
        let v ← q.get (k + 1)
        let q ← q.set (k + 1) (v - j)
        hetShift j step fuel (k + 2) q
    else pure q

/-- The loop over the panels, `while (j < n - 1)` (lapack/hetrf_blocked.hpp:90-113); a panel that makes no progress never ends. -/
def hetrfLowLoop {R : Type} [Field R] [LinearOrder R] [OfNat T 2] (o : LuOps T R) (alpha : R) (mhalf : T) (herm : Bool) (nb : Nat) (A : MatV L) (work : VecV L) :
    Nat → Nat → Nat → ZArr → M L T (Nat × ZArr)
  | 0, _, info, ipiv => pure (info, ipiv)
  | fuel + 1, j, info, ipiv =>
    let n := A.m
    if j + 1 < n then do
      let jn := min nb (n - j)
      let Aj ← A.slice j n j n
      let q ← ipiv.slice j n
      let (infoj, q) ← hetf3Low o alpha mhalf herm nb Aj q work
      let infoj := if 0 < infoj then infoj + j else infoj
      let info := if info = 0 then infoj else info
      let v ← (if jn = 0 then M.fail .ub else q.get (jn - 1) : M L T Int)
      let step := if ((n : Int) - j) ≤ v then jn - 1 else jn
      let q ← hetShift j step step 0 q
      if step = 0 then M.fail .diverge
      else hetrfLowLoop o alpha mhalf herm nb A work fuel (j + step) info (ipiv.put j q)
    else pure (info, ipiv)

/-- hetrf / hetrf_blocked with uplo = Lower (lapack/hetrf.hpp:131-144, lapack/hetrf_blocked.hpp:51-117). -/
def hetrfLow {R : Type} [Field R] [LinearOrder R] [OfNat T 2] (o : LuOps T R) (alpha : R) (mhalf : T) (herm : Bool) (nb : Nat) (A : MatV L) (ipiv : ZArr) (work : VecV L) :
    M L T (Nat × ZArr) := do
  let n := A.m
  check (decide (A.m = A.n))
  if n = 0 then pure (0, ipiv) else do
  let (info, ipiv) ← hetrfLowLoop o alpha mhalf herm nb A work n 0 0 ipiv
  let v ← ipiv.get (n - 1)
  let ipiv ← (if 0 ≤ v then ipiv.set (n - 1) ((n - 1 : Nat) : Int) else pure ipiv : M L T ZArr)
  pure (info, ipiv)

end TLA
