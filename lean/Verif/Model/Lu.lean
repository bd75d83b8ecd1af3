import Verif.Model.Chol
import Verif.Model.Sort

/-!
# Model of the LU routines

getrf_level0, getrf_recursive, getrf, ul_mult, lu_mult, getri_uili, getri_uxli, getri.

Pivot arrays are values (`IArr`, see Model/Sort.lean); a routine that writes `piv` returns the new
array next to its `int` result.
-/

namespace TLA
variable {L T : Type} [DecidableEq L]

/-- `slice(piv, range(a, b))` as an array of its own (the asserts are in `IArr.slice`). -/
def IArr.sub (p : IArr) (a b : Nat) : IArr := ⟨b - a, fun i => p.f (a + i)⟩

/-- `slice(piv, range(a, b))` with the asserts of plugins/legacyArray.hpp:567-570 (for
`std::vector` plugins/stdvector.hpp goes through the same code). -/
def IArr.slice (p : IArr) (a b : Nat) : M L T IArr :=
  if (a < p.n ∨ a = b) ∧ b ≤ p.n ∧ a ≤ b then pure (p.sub a b) else M.fail .ub

/-- The array `p` after the entries seen through `slice(p, range(a, a + q.n))` became `q`. -/
def IArr.put (p : IArr) (a : Nat) (q : IArr) : IArr :=
  ⟨p.n, fun i => if a ≤ i ∧ i < a + q.n then q.f (i - a) else p.f i⟩

/-- Scalar operations of getrf: those of `iamax` with `absf = abs` (getrf_recursive.hpp:64), the
parts and constants used by `rscl`, and `abs1` (getrf_level0.hpp:71). -/
structure LuOps (T R : Type) extends IamaxOps T R where
  abs1 : T → R
  reR : T → R
  imR : T → R
  emb : R → T
  mkc : R → R → T
  isinfR : R → Bool
  safeMin : R
  safeMax : R

/-- `rscl(alpha, x)`: the overload for real `alpha` (lapack/rscl.hpp:22-41) or for complex `alpha`
(lapack/rscl.hpp:75-162). -/
def rscl [Mul T] {R : Type} [Field R] [LinearOrder R] (o : LuOps T R) (alpha : T) (x : VecV L) :
    M L T Unit :=
  if o.isReal then rsclReal o.emb o.safeMin o.safeMax (o.reR alpha) x
  else rsclComplex o.emb o.mkc o.isinfR o.safeMin o.safeMax (o.reR alpha) (o.imR alpha) x

/-- `swap(row(A, i), row(A, j))` (getrf_recursive.hpp:127-129, 156-158, 185-187). -/
def swapRowsV (A : MatV L) (i j : Nat) : M L T Unit := do
  let v1 ← A.sliceRow i 0 A.n
  let v2 ← A.sliceRow j 0 A.n
  swap v1 v2

/-- `swap(col(A, i), col(A, j))` (getri.hpp:91-93, 142-144). -/
def swapColsV (A : MatV L) (i j : Nat) : M L T Unit := do
  let v1 ← A.sliceCol 0 A.m i
  let v2 ← A.sliceCol 0 A.m j
  swap v1 v2

/-- `for (j = 0; j < k; j++) if (piv[j] != j) swap(row(A, j), row(A, piv[j]))`
(getrf_recursive.hpp:125-131, 154-160, 183-189). -/
def rowSwaps (A : MatV L) (piv : IArr) (k : Nat) : M L T Unit :=
  forUp_ 0 k fun j => do
    let p ← piv.get j
    if p ≠ j then swapRowsV A j p else pure ()

section lu
variable [Zero T] [One T] [Add T] [Mul T] [Sub T] [Neg T] [Div T] [Star T] [ReIm T] [DecidableEq T]
variable {R : Type} [Field R] [LinearOrder R]

/-- The pivot search of column `j` (lapack/getrf_level0.hpp:69-72). -/
def pivSearch (abs1 : T → R) (A : MatV L) (m j : Nat) : M L T Nat :=
  forUp (j + 1) m j fun i p => do
    let a ← A.get i j
    let b ← A.get p j
    pure (if abs1 a > abs1 b then i else p)

/-- The elementwise exchange of rows `j` and `p` (lapack/getrf_level0.hpp:81-87). -/
def swapRowsLoop (A : MatV L) (n j p : Nat) : M L T Unit :=
  if p ≠ j then
    forUp_ 0 n fun i => do
      let tmp ← A.get j i
      let u ← A.get p i
      A.set j i u
      A.set p i tmp
  else pure ()

/-- The division of the column and the update of the trailing part
(lapack/getrf_level0.hpp:92-101). -/
def luElim (A : MatV L) (m n j : Nat) : M L T Unit := do
  forUp_ (j + 1) m fun i => do
    let d ← A.get j j
    A.modify i j (· / d)
  forUp_ (j + 1) m fun row =>
    forUp_ (j + 1) n fun col => do
      let l ← A.get row j
      let u ← A.get j col
      A.modify row col (· - l * u)

/-- lapack/getrf_level0.hpp:50-105.  The result is the `int` and the new contents of `piv`. -/
def getrfLevel0 (abs1 : T → R) (A : MatV L) (piv : IArr) : M L T (Nat × IArr) := do
  let m := A.m
  let n := A.n
  let k := min m n
  check (piv.n ≥ k : Bool)
  if m = 0 ∨ n = 0 then pure (0, piv)
  else do
    let r ← forRet (ρ := Nat × IArr) 0 k piv fun j piv => do
      let p ← pivSearch abs1 A m j
      let piv ← piv.set j p
      let a ← A.get p j
      if a = 0 then pure (.inr (j + 1, piv))
      else do
        swapRowsLoop A n j p
        luElim A m n j
        pure (.inl piv)
    match r with
    | .inr x => pure x
    | .inl piv => pure (0, piv)

/-- The one-column case of getrf_recursive (lapack/getrf_recursive.hpp:92-113). -/
def getrfCol (o : LuOps T R) (A : MatV L) (piv : IArr) : M L T (Nat × IArr) := do
  let c ← A.sliceCol 0 A.m 0
  let r ← iamaxEc o.toIamaxOps c
  match r with
  | none => M.fail .ub   -- `idx_t(-1)`: the next statement would read A(idx_t(-1), 0)
  | some p => do
    let piv ← piv.set 0 p
    let a ← A.get p 0
    if a = 0 then pure (1, piv)
    else do
      (if p ≠ 0 then do
        let aux ← A.get p 0
        let a0 ← A.get 0 0
        A.set p 0 a0
        A.set 0 0 aux
      else pure ())
      let l ← A.sliceCol 1 A.m 0
      let d ← A.get 0 0
      rscl o d l
      pure (0, piv)

/-- lapack/getrf_recursive.hpp:56-200.  The recursive calls are on fewer columns or, for a wide
matrix, on its leading square part. -/
def getrfRec (o : LuOps T R) (A : MatV L) (piv : IArr) : M L T (Nat × IArr) := do
  let k := min A.m A.n
  check (piv.n ≥ k : Bool)
  if A.m = 0 ∨ A.n = 0 then pure (0, piv)
  else if A.m = 1 then do
    let piv ← piv.set 0 0
    let a ← A.get 0 0
    if a = 0 then pure (1, piv) else pure (0, piv)
  else if A.n = 1 then getrfCol o A piv
  else if h : A.m < A.n then do
    let m := A.m
    let n := A.n
    A.sliceChk 0 m 0 m
    let A1 ← A.slice 0 m m n
    let (info, piv) ← getrfRec o (A.sub 0 m 0 m) piv
    if info ≠ 0 then pure (info, piv)
    else do
      rowSwaps A1 piv k
      trsm .Left .Lower .NoTrans .Unit 1 (A.sub 0 m 0 m) A1
      pure (0, piv)
  else do
    let m := A.m
    let n := A.n
    let k0 := k / 2
    A.sliceChk 0 m 0 k0
    let A1 ← A.slice 0 m k0 n
    let piv0 ← piv.slice 0 k0
    let (info, piv0) ← getrfRec o (A.sub 0 m 0 k0) piv0
    let piv := piv.put 0 piv0
    if info ≠ 0 then pure (info, piv)
    else do
      rowSwaps A1 piv0 k0
      let A00 ← A.slice 0 k0 0 k0
      let A01 ← A.slice 0 k0 k0 n
      let A10 ← A.slice k0 m 0 k0
      A.sliceChk k0 m k0 n
      let piv1 ← piv.slice k0 k
      trsm .Left .Lower .NoTrans .Unit 1 A00 A01
      gemm .NoTrans .NoTrans (-1) A10 A01 (.val 1) (A.sub k0 m k0 n)
      let (info, piv1) ← getrfRec o (A.sub k0 m k0 n) piv1
      if info ≠ 0 then pure (info + k0, piv.put k0 piv1)
      else do
        rowSwaps A10 piv1 (k - k0)
        let piv1 ← forUp 0 (k - k0) piv1 fun i q => do
          let v ← q.get i
          q.set i (v + k0)
        pure (0, piv.put k0 piv1)
termination_by A.m + A.n
decreasing_by all_goals simp only [MatV.sub]; omega

/-- `enum class GetrfVariant` (lapack/getrf.hpp:21). -/
inductive GetrfVariant where
  | Level0 | Recursive
  deriving DecidableEq, Repr

/-- lapack/getrf.hpp:64-71. -/
def getrf (o : LuOps T R) (variant : GetrfVariant) (A : MatV L) (piv : IArr) :
    M L T (Nat × IArr) :=
  match variant with
  | .Recursive => getrfRec o A piv
  | .Level0 => getrfLevel0 o.abs1 A piv

/-- lapack/ul_mult.hpp:34-75 (the `int` result is always 0).  On an empty matrix `n0 = 0` and the
first recursive call is again on an empty matrix: the recursion never ends (`diverge`). -/
def ulMult (A : MatV L) : M L T Unit := do
  check (A.m = A.n : Bool)
  if A.n = 1 then pure ()
  else if h : A.m = 0 ∨ A.m ≠ A.n then M.fail .diverge
  else do
    let n := A.n
    let n0 := n / 2
    A.sliceChk 0 n0 0 n0
    let A10 ← A.slice n0 n 0 n0
    let A01 ← A.slice 0 n0 n0 n
    A.sliceChk n0 n n0 n
    ulMult (A.sub 0 n0 0 n0)
    gemm .NoTrans .NoTrans 1 A01 A10 (.val 1) (A.sub 0 n0 0 n0)
    trmm .Left .Upper .NoTrans .NonUnit 1 (A.sub n0 n n0 n) A10
    trmm .Right .Lower .NoTrans .Unit 1 (A.sub n0 n n0 n) A01
    ulMult (A.sub n0 n n0 n)
termination_by A.m
decreasing_by all_goals simp only [MatV.sub]; omega

/-- The unblocked part of lu_mult (lapack/lu_mult.hpp:56-69). -/
def luMultBase (A : MatV L) (n : Nat) : M L T Unit :=
  forDown_ 0 n fun i =>
    forDown_ 0 n fun j => do
      let sum ← forUp 0 (min i j + 1) (0 : T) fun k sum =>
        if i = k then do
          let u ← A.get k j
          pure (sum + u)
        else do
          let l ← A.get i k
          let u ← A.get k j
          pure (sum + l * u)
      A.set i j sum

/-- lapack/lu_mult.hpp:40-106. -/
def luMult (nx : Nat) (A : MatV L) : M L T Unit := do
  check (A.m = A.n : Bool)
  check (nx ≥ 1 : Bool)
  if A.n = 0 then pure ()
  else if h : A.m ≠ A.n ∨ A.n ≤ nx ∨ nx < 1 then luMultBase A A.n
  else do
    let n := A.n
    let n0 := n / 2
    A.sliceChk 0 n0 0 n0
    let A01 ← A.slice 0 n0 n0 n
    let A10 ← A.slice n0 n 0 n0
    A.sliceChk n0 n n0 n
    luMult nx (A.sub n0 n n0 n)
    gemm .NoTrans .NoTrans 1 A10 A01 (.val 1) (A.sub n0 n n0 n)
    trmm .Left .Lower .NoTrans .Unit 1 (A.sub 0 n0 0 n0) A01
    trmm .Right .Upper .NoTrans .NonUnit 1 (A.sub 0 n0 0 n0) A10
    luMult nx (A.sub 0 n0 0 n0)
termination_by A.n
decreasing_by all_goals simp only [MatV.sub]; omega

/-- lapack/getri_uili.hpp:39-56. `dbg`: the error macros are enabled (`trtri_recursive` is called
with its default options, so it throws in that case). -/
def getriUili (dbg : Bool) (A : MatV L) : M L T Nat := do
  check (A.m = A.n : Bool)
  let info ← trtri dbg .Upper .NonUnit A
  if info ≠ 0 then pure info
  else do
    let _ ← trtri dbg .Lower .Unit A
    ulMult A
    pure 0

/-- One step of getri_uxli (lapack/getri_uxli.hpp:64-90). -/
def getriUxliStep (A : MatV L) (W : VecV L) (n j : Nat) : M L T (Option Nat) := do
  let a ← A.get j j
  if a = 0 then pure (some (j + 1))
  else if j + 1 = n then do
    A.set j j (1 / a)
    pure none
  else do
    let X22 ← A.slice (j + 1) n (j + 1) n
    let l21 ← A.sliceCol (j + 1) n j
    let u12 ← A.sliceRow j (j + 1) n
    let w ← W.slice 0 (n - j - 1)
    gemv .Trans (-1 / a) X22 u12 .strongZero w
    let a ← A.get j j
    let d ← dotu l21 w
    A.set j j (1 / a - d)
    copy w u12
    gemv .NoTrans (-1) X22 l21 .strongZero w
    copy w l21
    pure none

/-- `for (j = n - 1; j != -1; j--)` with early return: `cnt` columns are left. -/
def getriUxliLoop (A : MatV L) (W : VecV L) (n : Nat) : Nat → M L T Nat
  | 0 => pure 0
  | j + 1 => do
    match ← getriUxliStep A W n j with
    | some r => pure r
    | none => getriUxliLoop A W n j

/-- lapack/getri_uxli.hpp:46-94.  `reshape(work, n - 1)` is modelled for a vector `work`
(plugins/legacyArray.hpp:703-712): a check of the size, then the first `n - 1` entries.  For
`n = 0` the requested size `n - 1` is the largest `idx_t` and the check fails. -/
def getriUxliWork (A : MatV L) (work : VecV L) : M L T Nat := do
  let n := A.n
  check (A.m = n : Bool)
  check (!(n = 0 ∨ n - 1 > work.n : Bool))
  let W ← work.slice 0 (n - 1)
  getriUxliLoop A W n n

/-- The final column exchanges of getri (lapack/getri.hpp:89-95, 140-146). -/
def getriSwaps (A : MatV L) (piv : IArr) (n : Nat) : M L T Unit :=
  forDown_ 0 n fun j => do
    let p ← piv.get j
    if p ≠ j then swapColsV A j p else pure ()

/-- getri with variant UILI (lapack/getri.hpp:68-98, 122-149). -/
def getriUILI (dbg : Bool) (A : MatV L) (piv : IArr) : M L T Nat := do
  let info ← getriUili dbg A
  if info ≠ 0 then pure info
  else do
    getriSwaps A piv A.n
    pure 0

/-- getri_work with variant UXLI (lapack/getri.hpp:68-98). -/
def getriUXLI (A : MatV L) (piv : IArr) (work : VecV L) : M L T Nat := do
  let info ← getriUxliWork A work
  if info ≠ 0 then pure info
  else do
    getriSwaps A piv A.n
    pure 0

end lu
end TLA
