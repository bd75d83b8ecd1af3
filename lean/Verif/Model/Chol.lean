import Verif.Model.Blas1
import Verif.Model.Blas2
import Verif.Model.Blas3
import Verif.Model.Auxil

/-!
# Model of the Cholesky routines and of in-place triangular inversion / products

potf2, potrf2, potrf_blocked, potrf_rl, potrf, potrs, trtri_recursive, lauum_recursive, potri,
mult_llh, mult_uhu, pttrf.
-/

namespace TLA
variable {L T : Type} [DecidableEq L]

/-- Real square root and real comparisons (`std::sqrt`, `<`, `<=` on `real_type<T>`), the real
numbers being embedded in `T` as in `ReIm`. -/
class RealOps (T : Type) where
  sqrt : T → T
  lt : T → T → Bool
  le : T → T → Bool

/-- `tlapack_error` / `tlapack_error_if(thr, k, ..)`
(/repo/include/tlapack/base/exceptionHandling.hpp:146-188): throws if `thr`.  `thr = false` is
`opts.ec.internal = false`, or any `tlapack_error` in a build with `TLAPACK_NDEBUG`. -/
def raise (thr : Bool) (k : Nat) : M L T Unit := if thr then error k else pure ()

/-- `for (idx_t j = 0; j < n; j += nb)` with early `return`: `some r` is `return r`.
`nb = 0` never advances: `diverge`. -/
def forStep {ρ : Type} (nb n : Nat) (body : Nat → M L T (Option ρ)) (j : Nat) :
    M L T (Option ρ) :=
  if h : j < n then do
    match ← body j with
    | some r => pure (some r)
    | none =>
      if hb : nb = 0 then M.fail .diverge else forStep nb n body (j + nb)
  else pure none
termination_by n - j
decreasing_by omega

section chol
variable [Zero T] [One T] [Add T] [Mul T] [Sub T] [Neg T] [Div T] [Star T] [ReIm T] [RealOps T]

/-- One step of the upper variant of potf2 (lapack/potf2.hpp:80-110). -/
def potf2UStep (thr : Bool) (A : MatV L) (n j : Nat) : M L T (Option Nat) := do
  let colj ← A.sliceCol 0 j j
  let a ← A.get j j
  let d ← dot colj colj
  let ajj := re a - re d
  if RealOps.lt 0 ajj then do
    let ajj := RealOps.sqrt ajj
    A.set j j ajj
    if j + 1 < n then do
      let Ajj ← A.slice 0 j (j + 1) n
      let rowj ← A.sliceRow j (j + 1) n
      conjugate colj
      gemv .Trans (-1) Ajj colj (.val 1) rowj
      conjugate colj
      scal (1 / ajj) rowj
    pure none
  else do
    raise thr (j + 1)
    pure (some (j + 1))

/-- One step of the lower variant of potf2 (lapack/potf2.hpp:116-146). -/
def potf2LStep (thr : Bool) (A : MatV L) (n j : Nat) : M L T (Option Nat) := do
  let rowj ← A.sliceRow j 0 j
  let a ← A.get j j
  let d ← dot rowj rowj
  let ajj := re a - re d
  if RealOps.lt 0 ajj then do
    let ajj := RealOps.sqrt ajj
    A.set j j ajj
    if j + 1 < n then do
      let Ajj ← A.slice (j + 1) n 0 j
      let colj ← A.sliceCol (j + 1) n j
      conjugate rowj
      gemv .NoTrans (-1) Ajj rowj (.val 1) colj
      conjugate rowj
      scal (1 / ajj) colj
    pure none
  else do
    raise thr (j + 1)
    pure (some (j + 1))

/-- `tlapack_check(uplo == Lower || uplo == Upper); tlapack_check(nrows(A) == ncols(A))`
(potf2.hpp:71-72, potrf2.hpp:86-87, potrf_blocked.hpp:79-80, ...). -/
def squareTriChecks (uplo : Uplo) (A : MatV L) : M L T Unit := do
  check (uplo = .Lower || uplo = .Upper)
  check (A.m = A.n : Bool)

/-- lapack/potf2.hpp:58-151.  `thr = false` is the build with `TLAPACK_NDEBUG`. -/
def potf2 (thr : Bool) (uplo : Uplo) (A : MatV L) : M L T Nat := do
  squareTriChecks uplo A
  let n := A.m
  let r ← forStep 1 n (fun j =>
    if uplo = .Upper then potf2UStep thr A n j else potf2LStep thr A n j) 0
  pure (r.getD 0)

/-- The update between the two recursive calls of potrf2 (lapack/potrf2.hpp:127-144), and of one
step of potrf_rl (lapack/potrf_blocked_right_looking.hpp:104-109, 131-136): block columns
`j0..j1` are factored, `j1..n` is the trailing part. -/
def cholPanel (uplo : Uplo) (A : MatV L) (j0 j1 n : Nat) : M L T Unit :=
  if uplo = .Upper then do
    let AJJ ← A.slice j0 j1 j0 j1
    let B ← A.slice j0 j1 j1 n
    let C ← A.slice j1 n j1 n
    trsm .Left .Upper .ConjTrans .NonUnit 1 AJJ B
    herk .Upper .ConjTrans (-1) B (.val 1) C
  else do
    let AJJ ← A.slice j0 j1 j0 j1
    let B ← A.slice j1 n j0 j1
    let C ← A.slice j1 n j1 n
    trsm .Right .Lower .ConjTrans .NonUnit 1 AJJ B
    herk .Lower .NoTrans (-1) B (.val 1) C

/-- lapack/potrf2.hpp:73-159.  `thr` is `opts.ec.internal`; the recursive calls use
`NO_ERROR_CHECK`. -/
def potrf2 (thr : Bool) (uplo : Uplo) (A : MatV L) : M L T Nat := do
  squareTriChecks uplo A
  if A.m = 0 then pure 0
  else if h : A.m = 1 then do
    let a ← A.get 0 0
    let a00 := re a
    if RealOps.lt 0 a00 then do
      A.set 0 0 (RealOps.sqrt a00)
      pure 0
    else do
      raise thr 1
      pure 1
  else do
    let n := A.m
    let n1 := n / 2
    A.sliceChk 0 n1 0 n1
    A.sliceChk n1 n n1 n
    let info ← potrf2 false uplo (A.sub 0 n1 0 n1)
    if info ≠ 0 then do
      raise thr info
      pure info
    else do
      cholPanel uplo A 0 n1 n
      let info ← potrf2 false uplo (A.sub n1 n n1 n)
      if info = 0 then pure 0
      else do
        raise thr (info + n1)
        pure (info + n1)
termination_by A.m
decreasing_by all_goals simp only [MatV.sub]; omega

/-- One step of potrf_blocked (lapack/potrf_blocked.hpp:93-120, 125-152). -/
def potrfBlockedStep (thr : Bool) (uplo : Uplo) (A : MatV L) (n nb j : Nat) :
    M L T (Option Nat) := do
  let jb := min nb (n - j)
  if uplo = .Upper then do
    let AJJ ← A.slice j (j + jb) j (j + jb)
    let A1J ← A.slice 0 j j (j + jb)
    herk .Upper .ConjTrans (-1) A1J (.val 1) AJJ
    let info ← potf2 thr .Upper AJJ
    if info ≠ 0 then do
      raise thr (info + j)
      pure (some (info + j))
    else if j + jb < n then do
      let B ← A.slice 0 j (j + jb) n
      let C ← A.slice j (j + jb) (j + jb) n
      gemm .ConjTrans .NoTrans (-1) A1J B (.val 1) C
      trsm .Left .Upper .ConjTrans .NonUnit 1 AJJ C
      pure none
    else pure none
  else do
    let AJJ ← A.slice j (j + jb) j (j + jb)
    let AJ1 ← A.slice j (j + jb) 0 j
    herk .Lower .NoTrans (-1) AJ1 (.val 1) AJJ
    let info ← potf2 thr .Lower AJJ
    if info ≠ 0 then do
      raise thr (info + j)
      pure (some (info + j))
    else if j + jb < n then do
      let B ← A.slice (j + jb) n 0 j
      let C ← A.slice (j + jb) n j (j + jb)
      gemm .NoTrans .ConjTrans (-1) B AJ1 (.val 1) C
      trsm .Right .Lower .ConjTrans .NonUnit 1 AJJ C
      pure none
    else pure none

/-- lapack/potrf_blocked.hpp:66-158 (left-looking). -/
def potrfBlocked (thr : Bool) (nb : Nat) (uplo : Uplo) (A : MatV L) : M L T Nat := do
  squareTriChecks uplo A
  let n := A.m
  if n = 0 then pure 0
  else if n ≤ nb then potf2 thr uplo A
  else do
    let r ← forStep nb n (potrfBlockedStep thr uplo A n nb) 0
    pure (r.getD 0)

/-- One step of potrf_rl (lapack/potrf_blocked_right_looking.hpp:88-110, 115-137). -/
def potrfRlStep (thr : Bool) (uplo : Uplo) (A : MatV L) (n nb j : Nat) :
    M L T (Option Nat) := do
  let jb := min nb (n - j)
  let AJJ ← A.slice j (j + jb) j (j + jb)
  let info ← potf2 thr uplo AJJ
  if info ≠ 0 then do
    raise thr (info + j)
    pure (some (info + j))
  else if j + jb < n then do
    cholPanel uplo A j (j + jb) n
    pure none
  else pure none

/-- lapack/potrf_blocked_right_looking.hpp:61-143. -/
def potrfRl (thr : Bool) (nb : Nat) (uplo : Uplo) (A : MatV L) : M L T Nat := do
  squareTriChecks uplo A
  let n := A.m
  if n = 0 then pure 0
  else if n ≤ nb then potf2 thr uplo A
  else do
    let r ← forStep nb n (potrfRlStep thr uplo A n nb) 0
    pure (r.getD 0)

/-- `enum class PotrfVariant` (lapack/potrf.hpp:23-28). -/
inductive PotrfVariant where
  | Blocked | Recursive | Level2 | RightLooking
  deriving DecidableEq, Repr

/-- lapack/potrf.hpp:78-97.  `dbg` : the error macros are enabled; `internal` : `opts.ec.internal`
(only potrf2 looks at it). -/
def potrf (dbg internal : Bool) (nb : Nat) (variant : PotrfVariant) (uplo : Uplo) (A : MatV L) :
    M L T Nat := do
  squareTriChecks uplo A
  match variant with
  | .Blocked => potrfBlocked dbg nb uplo A
  | .Recursive => potrf2 (dbg && internal) uplo A
  | .Level2 => potf2 dbg uplo A
  | .RightLooking => potrfRl dbg nb uplo A

/-- lapack/potrs.hpp:56-80. -/
def potrs (uplo : Uplo) (A B : MatV L) : M L T Unit := do
  squareTriChecks uplo A
  check (!(B.m ≠ A.n : Bool))
  if uplo = .Upper then do
    trsm .Left .Upper .ConjTrans .NonUnit 1 A B
    trsm .Left .Upper .NoTrans .NonUnit 1 A B
  else do
    trsm .Left .Lower .NoTrans .NonUnit 1 A B
    trsm .Left .Lower .ConjTrans .NonUnit 1 A B

/-- The two triangular solves of trtri_recursive (lapack/trtri_recursive.hpp:90-95, 123-128). -/
def trtriOff (uplo : Uplo) (diag : Diag) (C : MatV L) (n0 n : Nat) : M L T Unit :=
  if uplo = .Lower then do
    let C00 ← C.slice 0 n0 0 n0
    let C10 ← C.slice n0 n 0 n0
    let C11 ← C.slice n0 n n0 n
    trsm .Right .Lower .NoTrans diag (-1) C00 C10
    trsm .Left .Lower .NoTrans diag 1 C11 C10
  else do
    let C00 ← C.slice 0 n0 0 n0
    let C01 ← C.slice 0 n0 n0 n
    let C11 ← C.slice n0 n n0 n
    trsm .Left .Upper .NoTrans diag (-1) C00 C01
    trsm .Right .Upper .NoTrans diag 1 C11 C01

/-- lapack/trtri_recursive.hpp:48-155.  `thr` is `opts.ec.internal`; unlike potrf2 the recursive
calls receive the caller's `opts`. -/
def trtri [DecidableEq T] (thr : Bool) (uplo : Uplo) (diag : Diag) (C : MatV L) : M L T Nat := do
  squareTriChecks uplo C
  if C.m = 0 then pure 0
  else if h : C.m = 1 then
    if diag = .NonUnit then do
      let c ← C.get 0 0
      if c ≠ 0 then do
        C.set 0 0 (1 / c)
        pure 0
      else do
        raise thr 1
        pure 1
    else pure 0
  else do
    let n := C.m
    let n0 := n / 2
    trtriOff uplo diag C n0 n
    let info ← trtri thr uplo diag (C.sub 0 n0 0 n0)
    if info ≠ 0 then do
      raise thr info
      pure info
    else do
      let info ← trtri thr uplo diag (C.sub n0 n n0 n)
      if info = 0 then pure 0
      else do
        raise thr (info + n0)
        pure (info + n0)
termination_by C.m
decreasing_by all_goals simp only [MatV.sub]; omega

/-- lapack/lauum_recursive.hpp:45-100. -/
def lauum (uplo : Uplo) (C : MatV L) : M L T Unit := do
  squareTriChecks uplo C
  if C.m = 0 then pure ()
  else if h : C.m = 1 then do
    let c ← C.get 0 0
    C.set 0 0 (re c * re c + im c * im c)
  else do
    let n := C.m
    let n0 := n / 2
    C.sliceChk 0 n0 0 n0
    C.sliceChk n0 n n0 n
    lauum uplo (C.sub 0 n0 0 n0)
    if uplo = .Lower then do
      let C10 ← C.slice n0 n 0 n0
      herk .Lower .ConjTrans 1 C10 (.val 1) (C.sub 0 n0 0 n0)
      trmm .Left uplo .ConjTrans .NonUnit 1 (C.sub n0 n n0 n) C10
    else do
      let C01 ← C.slice 0 n0 n0 n
      herk .Upper .NoTrans 1 C01 (.val 1) (C.sub 0 n0 0 n0)
      trmm .Right uplo .ConjTrans .NonUnit 1 (C.sub n0 n n0 n) C01
    lauum uplo (C.sub n0 n n0 n)
termination_by C.m
decreasing_by all_goals simp only [MatV.sub]; omega

/-- lapack/potri.hpp:47-57 (the `int` results of the three calls are discarded; with errors
enabled potrf2 and trtri_recursive throw instead, their `opts` being defaulted). -/
def potri [DecidableEq T] (dbg : Bool) (uplo : Uplo) (A : MatV L) : M L T Unit := do
  squareTriChecks uplo A
  let _ ← potrf2 dbg uplo A
  let _ ← trtri dbg uplo .NonUnit A
  lauum uplo A

/-- The unblocked part of mult_llh (lapack/mult_llh.hpp:55-72). -/
def multLlhBase (A : MatV L) (n : Nat) : M L T Unit :=
  forDown_ 0 n fun j => do
    let a ← A.get j j
    let s ← forUp 0 j (re a * re a + im a * im a) fun k s => do
      let v ← A.get j k
      pure (s + (re v * re v + im v * im v))
    A.set j j s
    forDown_ 0 j fun i => do
      let d ← A.get i i
      A.modify j i (· * star d)
      forUp_ 0 i fun k => do
        let u ← A.get j k
        let w ← A.get i k
        A.modify j i (· + u * star w)

/-- lapack/mult_llh.hpp:40-98. -/
def multLlh (nx : Nat) (A : MatV L) : M L T Unit := do
  check (A.m = A.n : Bool)
  check (nx ≥ 1 : Bool)
  if A.m = 0 then pure ()
  else if h : A.m ≤ nx ∨ nx < 1 then multLlhBase A A.m
  else do
    let n := A.m
    let n0 := n / 2
    A.sliceChk 0 n0 0 n0
    let L10 ← A.slice n0 n 0 n0
    A.sliceChk n0 n n0 n
    multLlh nx (A.sub n0 n n0 n)
    herk .Lower .NoTrans 1 L10 (.val 1) (A.sub n0 n n0 n)
    trmm .Right .Lower .ConjTrans .NonUnit 1 (A.sub 0 n0 0 n0) L10
    multLlh nx (A.sub 0 n0 0 n0)
termination_by A.m
decreasing_by all_goals simp only [MatV.sub]; omega

/-- The unblocked part of mult_uhu (lapack/mult_uhu.hpp:56-71). -/
def multUhuBase (A : MatV L) (n : Nat) : M L T Unit :=
  forDown_ 0 n fun j => do
    let a ← A.get j j
    let s ← forUp 0 j (re a * re a + im a * im a) fun k s => do
      let v ← A.get k j
      pure (s + (re v * re v + im v * im v))
    A.set j j s
    forDown_ 0 j fun i => do
      let d ← A.get i i
      A.modify i j (star d * ·)
      forDown_ 0 i fun k => do
        let u ← A.get k i
        let w ← A.get k j
        A.modify i j (· + star u * w)

/-- lapack/mult_uhu.hpp:41-95. -/
def multUhu (nx : Nat) (A : MatV L) : M L T Unit := do
  check (A.m = A.n : Bool)
  check (nx ≥ 1 : Bool)
  if A.m = 0 then pure ()
  else if h : A.m ≤ nx ∨ nx < 1 then multUhuBase A A.m
  else do
    let n := A.m
    let n0 := n / 2
    A.sliceChk 0 n0 0 n0
    let U01 ← A.slice 0 n0 n0 n
    A.sliceChk n0 n n0 n
    multUhu nx (A.sub n0 n n0 n)
    herk .Upper .ConjTrans 1 U01 (.val 1) (A.sub n0 n n0 n)
    trmm .Left .Upper .ConjTrans .NonUnit 1 (A.sub 0 n0 0 n0) U01
    multUhu nx (A.sub 0 n0 0 n0)
termination_by A.m
decreasing_by all_goals simp only [MatV.sub]; omega

/-- lapack/pttrf.hpp:50-82. -/
def pttrf (thr : Bool) (D E : VecV L) : M L T Nat := do
  let n := D.n
  check (D.n = E.n + 1 : Bool)
  if n = 0 then pure 0
  else do
    let r ← forStep 1 (n - 1) (fun i => do
      let d ← D.get i
      if RealOps.le (re d) 0 then do
        raise thr (i + 1)
        pure (some (i + 1))
      else do
        let Ei ← E.get i
        E.set i (Ei / re d)
        let ei ← E.get i
        D.modify (i + 1) (· - re (ei * star Ei))
        pure none) 0
    match r with
    | some k => pure k
    | none => do
      let d ← D.get (n - 1)
      if RealOps.le (re d) 0 then do
        raise thr n
        pure n
      else pure 0

end chol
end TLA
