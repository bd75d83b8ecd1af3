import Verif.Model.Chol
import Verif.Model.BlockRefl

/-!
# Model of the level-3 kernels that extend the BLAS

trmm_out, trsm_tri, gemmtr, hemm2, mult_hehe, trmm_blocked_mixed.

Simplification: branches whose texts differ only in how an operand is accessed (`A01` or, for a transposed
operand, `A10`; `B(i,0)` or `conj(B(0,i))`) share one definition with the accessor as parameter.
-/

namespace TLA
variable {L T : Type} [DecidableEq L]

/-- The operation of the last `else` of an `if (NoTrans) … else if (ConjTrans) … else …` (trmm_out.hpp:102,
344, 586): whatever is neither of the two is treated as Trans. -/
def tOp (op : Op) : Op := if op = .NoTrans then .NoTrans else if op = .ConjTrans then .ConjTrans else .Trans

/-- The part of `B` holding rows `r0..r1`, columns `c0..c1` of `op(B)` (e.g. trmm_out.hpp:122-123, 365-366). -/
def opSlice (op : Op) (B : MatV L) (r0 r1 c0 c1 : Nat) : M L T (MatV L) :=
  if op = .NoTrans then B.slice r0 r1 c0 c1 else B.slice c0 c1 r0 r1

/-- The view `opSlice` returns. -/
def opSub (op : Op) (B : MatV L) (r0 r1 c0 c1 : Nat) : MatV L :=
  if op = .NoTrans then B.sub r0 r1 c0 c1 else B.sub c0 c1 r0 r1

/-- Rows and columns of `op(B)` (trmm_out.hpp:99-100). -/
def opRows (op : Op) (B : MatV L) : Nat := if op = .NoTrans then B.m else B.n
def opCols (op : Op) (B : MatV L) : Nat := if op = .NoTrans then B.n else B.m

omit [DecidableEq L] in
theorem opRows_sub (op : Op) (B : MatV L) (r0 r1 c0 c1 : Nat) : opRows op (opSub op B r0 r1 c0 c1) = r1 - r0 := by
  unfold opRows opSub; split <;> rfl
omit [DecidableEq L] in
theorem opCols_sub (op : Op) (B : MatV L) (r0 r1 c0 c1 : Nat) : opCols op (opSub op B r0 r1 c0 c1) = c1 - c0 := by
  unfold opCols opSub; split <;> rfl

section
variable [Zero T] [One T] [Add T] [Mul T] [Star T]

/-- `alpha * op(B)(..) * A(0,0)` or, for a unit diagonal, `alpha * op(B)(..)`
(e.g. trmm_out.hpp:110-111, 140-141 and 171, 199). -/
def trmmOutTerm (diag : Diag) (alpha : T) (A : MatV L) (b : T) : M L T T :=
  if diag = .NonUnit then do
    let a ← A.get 0 0
    pure (alpha * b * a)
  else pure (alpha * b)

/-- trmm_out with `side == Right` (lapack/trmm_out.hpp:105-133, 165-193, 225-254, 285-313 for NoTrans and the
corresponding parts of 344-827).  There are no checks.  For `n = 0` the recursive call has the same
arguments: `diverge`. -/
def trmmOutR (uplo : Uplo) (transA : Op) (diag : Diag) (transB : Op) (alpha : T) (A B : MatV L)
    (beta : Coef T) (C : MatV L) : M L T Unit :=
  let m := opRows transB B
  let n := opCols transB B
  let n0 := n / 2
  if n = 1 then
    forUp_ 0 m fun i => do
      let b ← opGet (tOp transB) B i 0
      let t ← trmmOutTerm diag alpha A b
      C.modify i 0 (fun c => beta.addMul t c)
  else do
    C.sliceChk 0 m 0 n0
    C.sliceChk 0 m n0 n
    A.sliceChk 0 n0 0 n0
    let Ao ← (if uplo = .Upper then A.slice 0 n0 n0 n else A.slice n0 n 0 n0)
    A.sliceChk n0 n n0 n
    let _ ← opSlice transB B 0 m 0 n0
    let _ ← opSlice transB B 0 m n0 n
    if h : n = 0 then M.fail .diverge
    else if uplo = .Upper then do
      trmmOutR uplo transA diag transB alpha (A.sub 0 n0 0 n0) (opSub transB B 0 m 0 n0) beta (C.sub 0 m 0 n0)
      gemm transB transA alpha (opSub transB B 0 m 0 n0) Ao beta (C.sub 0 m n0 n)
      trmmOutR uplo transA diag transB alpha (A.sub n0 n n0 n) (opSub transB B 0 m n0 n) (.val 1)
        (C.sub 0 m n0 n)
    else do
      trmmOutR uplo transA diag transB alpha (A.sub n0 n n0 n) (opSub transB B 0 m n0 n) beta (C.sub 0 m n0 n)
      gemm transB transA alpha (opSub transB B 0 m n0 n) Ao beta (C.sub 0 m 0 n0)
      trmmOutR uplo transA diag transB alpha (A.sub 0 n0 0 n0) (opSub transB B 0 m 0 n0) (.val 1)
        (C.sub 0 m 0 n0)
termination_by opCols transB B
decreasing_by all_goals (rw [opCols_sub]; omega)

/-- trmm_out with `side == Left` (lapack/trmm_out.hpp:134-162, 194-220, 255-282, 314-340 for NoTrans and the
corresponding parts of 344-827). -/
def trmmOutL (uplo : Uplo) (transA : Op) (diag : Diag) (transB : Op) (alpha : T) (A B : MatV L)
    (beta : Coef T) (C : MatV L) : M L T Unit :=
  let m := opRows transB B
  let n := opCols transB B
  let m0 := m / 2
  if m = 1 then
    forUp_ 0 n fun j => do
      let b ← opGet (tOp transB) B 0 j
      let t ← trmmOutTerm diag alpha A b
      C.modify 0 j (fun c => beta.addMul t c)
  else do
    C.sliceChk 0 m0 0 n
    C.sliceChk m0 m 0 n
    A.sliceChk 0 m0 0 m0
    let Ao ← (if uplo = .Upper then A.slice 0 m0 m0 m else A.slice m0 m 0 m0)
    A.sliceChk m0 m m0 m
    let _ ← opSlice transB B 0 m0 0 n
    let _ ← opSlice transB B m0 m 0 n
    if h : m = 0 then M.fail .diverge
    else if uplo = .Upper then do
      trmmOutL uplo transA diag transB alpha (A.sub m0 m m0 m) (opSub transB B m0 m 0 n) beta (C.sub m0 m 0 n)
      gemm transA transB alpha Ao (opSub transB B m0 m 0 n) beta (C.sub 0 m0 0 n)
      trmmOutL uplo transA diag transB alpha (A.sub 0 m0 0 m0) (opSub transB B 0 m0 0 n) (.val 1)
        (C.sub 0 m0 0 n)
    else do
      trmmOutL uplo transA diag transB alpha (A.sub 0 m0 0 m0) (opSub transB B 0 m0 0 n) beta (C.sub 0 m0 0 n)
      gemm transA transB alpha Ao (opSub transB B 0 m0 0 n) beta (C.sub m0 m 0 n)
      trmmOutL uplo transA diag transB alpha (A.sub m0 m m0 m) (opSub transB B m0 m 0 n) (.val 1)
        (C.sub m0 m 0 n)
termination_by opRows transB B
decreasing_by all_goals (rw [opRows_sub]; omega)

/-- lapack/trmm_out.hpp:82-828. -/
def trmmOut (side : Side) (uplo : Uplo) (transA : Op) (diag : Diag) (transB : Op) (alpha : T) (A B : MatV L)
    (beta : Coef T) (C : MatV L) : M L T Unit :=
  if side = .Right then trmmOutR uplo transA diag transB alpha A B beta C
  else trmmOutL uplo transA diag transB alpha A B beta C

/-! ### gemmtr -/

/-- First row of column `j` of the triangle, and one past the last one (gemmtr.hpp:101, 208). -/
def triLo (uplo : Uplo) (j : Nat) : Nat := if uplo = .Upper then 0 else j
def triHi (uplo : Uplo) (n j : Nat) : Nat := if uplo = .Upper then j + 1 else n

/-- gemmtr.hpp:99-131, 206-238. -/
def gemmtrN (uplo : Uplo) (getB : Nat → Nat → M L T T) (alpha : T) (A : MatV L) (beta : Coef T) (C : MatV L)
    (n k : Nat) : M L T Unit :=
  forUp_ 0 n fun j => do
    forUp_ (triLo uplo j) (triHi uplo n j) fun i => C.modify i j (fun c => beta.mulAssign c)
    forUp_ 0 k fun l => do
      let b ← getB l j
      let alphaTimesblj := alpha * b
      forUp_ (triLo uplo j) (triHi uplo n j) fun i => do
        let a ← A.get i l
        C.modify i j (· + a * alphaTimesblj)

/-- gemmtr.hpp:136-165, 171-200, 243-272, 278-307; `fA` is applied to the entries of `A`, `g` to the sum. -/
def gemmtrT (uplo : Uplo) (fA g : T → T) (getB : Nat → Nat → M L T T) (alpha : T) (A : MatV L)
    (beta : Coef T) (C : MatV L) (n k : Nat) : M L T Unit :=
  forUp_ 0 n fun j =>
    forUp_ (triLo uplo j) (triHi uplo n j) fun i => do
      let sum ← forUp 0 k 0 fun l sum => do
        let a ← A.get l i
        let b ← getB l j
        pure (sum + fA a * b)
      C.modify i j (fun c => beta.addMul (alpha * g sum) c)

/-- lapack/gemmtr.hpp:61-310.  Line 85 rejects a `C` only if both dimensions are wrong. -/
def gemmtr (uplo : Uplo) (transA transB : Op) (alpha : T) (A B : MatV L) (beta : Coef T) (C : MatV L) :
    M L T Unit := do
  let n := if transB = .NoTrans then B.n else B.m
  let k := if transA = .NoTrans then A.n else A.m
  check (!(uplo ≠ .Upper && uplo ≠ .Lower))
  check (!(transA ≠ .NoTrans && transA ≠ .Trans && transA ≠ .ConjTrans))
  check (!(transB ≠ .NoTrans && transB ≠ .Trans && transB ≠ .ConjTrans))
  check (!((C.n ≠ n : Bool) && (C.m ≠ n : Bool)))
  check (!((if transA = .NoTrans then A.n else A.m) ≠ k : Bool))
  check (!((if transB = .NoTrans then B.m else B.n) ≠ k : Bool))
  check (!((if transA = .NoTrans then A.m else A.n) ≠ n : Bool))
  check (!((if transB = .NoTrans then B.n else B.m) ≠ n : Bool))
  if transA = .NoTrans then
    gemmtrN uplo (opGet transB B) alpha A beta C n k
  else if transA = .Trans then
    gemmtrT uplo id id (opGet transB B) alpha A beta C n k
  else
    match transB with
    | .NoTrans => gemmtrT uplo star id (opGet .NoTrans B) alpha A beta C n k
    | .Trans => gemmtrT uplo star id (opGet .Trans B) alpha A beta C n k
    | _ => gemmtrT uplo id star (opGet .Trans B) alpha A beta C n k

/-! ### hemm2 and mult_hehe -/

variable [ReIm T]

/-- `sum` over row `j` of the Hermitian matrix held in one triangle (hemm2.hpp:157-164, 173-180, 192-199,
208-215): `x i` is the other factor. -/
def hemm2Row (uplo : Uplo) (A : MatV L) (n j : Nat) (x : Nat → M L T T) : M L T T := do
  let s0 ← forUp 0 j 0 fun i s => do
    let a ← if uplo = .Upper then A.get i j else A.get j i
    let b ← x i
    pure (s + (if uplo = .Upper then star a else a) * b)
  let ajj ← A.get j j
  let bj ← x j
  forUp (j + 1) n (s0 + re ajj * bj) fun i s => do
    let a ← if uplo = .Upper then A.get j i else A.get i j
    let b ← x i
    pure (s + (if uplo = .Upper then a else star a) * b)

/-- hemm2.hpp:151-220 (`side == Left`, transposed `B`, which is m × n): `f` is `id` or `conj`. -/
def hemm2LT (f : T → T) (uplo : Uplo) (alpha : T) (A B : MatV L) (beta : Coef T) (C : MatV L) (m n : Nat) :
    M L T Unit :=
  forUp_ 0 n fun j =>
    forUp_ 0 m fun k => do
      let sum ← hemm2Row uplo A n j fun i => do
        let b ← B.get k i
        pure (f b)
      C.modify j k (fun c => beta.addMul (alpha * sum) c)

/-- Column `k` of the Hermitian matrix (hemm2.hpp:277-284, 293-300, 312-319, 328-335); on line 281 and 316
the diagonal entry is `real(conj(A(k,k)))`. -/
def hemm2Col (uplo : Uplo) (A : MatV L) (m k : Nat) (x : Nat → M L T T) : M L T T := do
  let s0 ← forUp 0 k 0 fun i s => do
    let b ← x i
    let a ← if uplo = .Upper then A.get i k else A.get k i
    pure (s + b * (if uplo = .Upper then a else star a))
  let bk ← x k
  let akk ← A.get k k
  forUp (k + 1) m (s0 + bk * re (if uplo = .Upper then star akk else akk)) fun i s => do
    let b ← x i
    let a ← if uplo = .Upper then A.get k i else A.get i k
    pure (s + b * (if uplo = .Upper then star a else a))

/-- hemm2.hpp:271-340 (`side == Right`, transposed `B`). -/
def hemm2RT (f : T → T) (uplo : Uplo) (alpha : T) (A B : MatV L) (beta : Coef T) (C : MatV L) (m n : Nat) :
    M L T Unit :=
  forUp_ 0 n fun j =>
    forUp_ 0 m fun k => do
      let sum ← hemm2Col uplo A m k fun i => do
        let b ← B.get i j
        pure (f b)
      C.modify j k (fun c => beta.addMul (alpha * sum) c)

/-- lapack/hemm2.hpp:75-342.  Only the branches `side == Right, NoTrans` treat `General` as Upper; the others
treat it as Lower. -/
def hemm2 (side : Side) (uplo : Uplo) (transB : Op) (alpha : T) (A B : MatV L) (beta : Coef T) (C : MatV L) :
    M L T Unit := do
  let m := B.m
  let n := B.n
  check (!(side ≠ .Left && side ≠ .Right))
  check (!notTriGen uplo)
  check (!(A.m ≠ A.n : Bool))
  (if (side = .Left ∧ transB = .NoTrans) ∨ (side = .Right ∧ (transB = .Trans ∨ transB = .ConjTrans)) then
    check (!(A.n ≠ m : Bool))
  else check (!(A.m ≠ n : Bool)) : M L T Unit)
  (if transB = .NoTrans then do
    check (!(C.m ≠ m : Bool))
    check (!(C.n ≠ n : Bool))
  else do
    check (!(C.m ≠ n : Bool))
    check (!(C.n ≠ m : Bool)) : M L T Unit)
  let uplo' : Uplo := if uplo = .Upper then .Upper else .Lower
  if side = .Left then
    if transB = .NoTrans then hemmL star re uplo' alpha A B beta C m n
    else if transB = .Trans then hemm2LT id uplo' alpha A B beta C m n
    else hemm2LT star uplo' alpha A B beta C m n
  else
    if transB = .NoTrans then hemmR star re uplo alpha A B beta C m n
    else if transB = .Trans then hemm2RT id uplo' alpha A B beta C m n
    else hemm2RT star uplo' alpha A B beta C m n

/-- lapack/mult_hehe.hpp:53-170 (the `std::endl` written to standard output on line 140 is left out).  For an
empty matrix line 74 accesses `C(0,0)`: `ub`. -/
def multHehe (uplo : Uplo) (alpha : T) (A B : MatV L) (beta : Coef T) (C : MatV L) : M L T Unit :=
  let n := A.n
  let n0 := n / 2
  if A.m ≠ A.n then pure ()
  else if h : n ≤ 1 then do
    let a ← A.get 0 0
    let b ← B.get 0 0
    C.modify 0 0 (fun c => beta.addMul (alpha * re a * re b) c)
  else do
    A.sliceChk 0 n0 0 n0
    let Ao ← (if uplo = .Upper then A.slice 0 n0 n0 n else A.slice n0 n 0 n0)
    A.sliceChk n0 n n0 n
    B.sliceChk 0 n0 0 n0
    let Bo ← (if uplo = .Upper then B.slice 0 n0 n0 n else B.slice n0 n 0 n0)
    B.sliceChk n0 n n0 n
    C.sliceChk 0 n0 0 n0
    let C01 ← C.slice 0 n0 n0 n
    let C10 ← C.slice n0 n 0 n0
    C.sliceChk n0 n n0 n
    if uplo = .Upper then do
      multHehe .Upper alpha (A.sub 0 n0 0 n0) (B.sub 0 n0 0 n0) beta (C.sub 0 n0 0 n0)
      gemm .NoTrans .ConjTrans alpha Ao Bo (.val 1) (C.sub 0 n0 0 n0)
      hemm2 .Left .Upper .NoTrans alpha (A.sub 0 n0 0 n0) Bo beta C01
      hemm2 .Right .Upper .NoTrans alpha (B.sub n0 n n0 n) Ao (.val 1) C01
      hemm2 .Left .Upper .ConjTrans alpha (A.sub n0 n n0 n) Bo beta C10
      hemm2 .Right .Upper .ConjTrans alpha (B.sub 0 n0 0 n0) Ao (.val 1) C10
      multHehe .Upper alpha (A.sub n0 n n0 n) (B.sub n0 n n0 n) beta (C.sub n0 n n0 n)
      gemm .ConjTrans .NoTrans alpha Ao Bo (.val 1) (C.sub n0 n n0 n)
    else do
      multHehe .Lower alpha (A.sub 0 n0 0 n0) (B.sub 0 n0 0 n0) beta (C.sub 0 n0 0 n0)
      gemm .ConjTrans .NoTrans alpha Ao Bo (.val 1) (C.sub 0 n0 0 n0)
      hemm2 .Right .Lower .NoTrans alpha (B.sub 0 n0 0 n0) Ao beta C10
      hemm2 .Left .Lower .NoTrans alpha (A.sub n0 n n0 n) Bo (.val 1) C10
      hemm2 .Left .Lower .ConjTrans alpha (A.sub 0 n0 0 n0) Bo beta C01
      hemm2 .Right .Lower .ConjTrans alpha (B.sub n0 n n0 n) Ao (.val 1) C01
      multHehe .Lower alpha (A.sub n0 n n0 n) (B.sub n0 n n0 n) beta (C.sub n0 n n0 n)
      gemm .NoTrans .ConjTrans alpha Ao Bo (.val 1) (C.sub n0 n n0 n)
termination_by A.n
decreasing_by all_goals simp only [MatV.sub]; omega

/-! ### trsm_tri and trmm_blocked_mixed -/

variable [Sub T] [Neg T] [Div T]

/-- `B *= alpha` on the triangle (trsm_tri.hpp:123-136). -/
def trsmTriScale (uploB : Uplo) (alpha : T) (B : MatV L) (n : Nat) : M L T Unit :=
  forUp_ 0 n fun j =>
    forUp_ (triLo uploB j) (triHi uploB n j) fun i => B.modify i j (· * alpha)

/-- The off-diagonal part of trsm_tri once both diagonal blocks are solved (trsm_tri.hpp:163-287). -/
def trsmTriOff (sideA : Side) (uploB : Uplo) (transA : Op) (diagA : Diag) (A B : MatV L) (n nd : Nat) :
    M L T Unit :=
  let uploA : Uplo := if transA ≠ .NoTrans then (if uploB = .Upper then .Lower else .Upper) else uploB
  if uploB = .Upper then do
    let Ao ← opSlice transA A 0 nd nd n
    if sideA = .Left then do
      trmmOut .Right uploB .NoTrans .NonUnit transA (-1) (B.sub nd n nd n) Ao (.val 1) (B.sub 0 nd nd n)
      trsm .Left uploA transA diagA 1 (A.sub 0 nd 0 nd) (B.sub 0 nd nd n)
    else do
      trmmOut .Left uploB .NoTrans .NonUnit transA (-1) (B.sub 0 nd 0 nd) Ao (.val 1) (B.sub 0 nd nd n)
      trsm .Right uploA transA diagA 1 (A.sub nd n nd n) (B.sub 0 nd nd n)
  else do
    let Ao ← opSlice transA A nd n 0 nd
    if sideA = .Left then do
      trmmOut .Right uploB .NoTrans .NonUnit transA (-1) (B.sub 0 nd 0 nd) Ao (.val 1) (B.sub nd n 0 nd)
      trsm .Left uploA transA diagA 1 (A.sub nd n nd n) (B.sub nd n 0 nd)
    else do
      trmmOut .Left uploB .NoTrans .NonUnit transA (-1) (B.sub nd n nd n) Ao (.val 1) (B.sub nd n 0 nd)
      trsm .Right uploA transA diagA 1 (A.sub 0 nd 0 nd) (B.sub nd n 0 nd)

/-- lapack/trsm_tri.hpp:99-288; no checks.  For `n = 0` the recursion never ends: `diverge`. -/
def trsmTri (sideA : Side) (uploB : Uplo) (transA : Op) (diagA : Diag) (alpha : T) (A B : MatV L) :
    M L T Unit := do
  let n := A.m
  trsmTriScale uploB alpha B n
  if h1 : n = 1 then
    if diagA = .NonUnit then do
      let a ← A.get 0 0
      B.modify 0 0 (fun b => b / (if transA = .ConjTrans then star a else a))
    else pure ()
  else do
    let nd := n / 2
    A.sliceChk 0 nd 0 nd
    A.sliceChk 0 nd nd n
    A.sliceChk nd n 0 nd
    A.sliceChk nd n nd n
    B.sliceChk 0 nd 0 nd
    B.sliceChk 0 nd nd n
    B.sliceChk nd n 0 nd
    B.sliceChk nd n nd n
    if h : n = 0 then M.fail .diverge
    else do
      trsmTri sideA uploB transA diagA 1 (A.sub 0 nd 0 nd) (B.sub 0 nd 0 nd)
      trsmTri sideA uploB transA diagA 1 (A.sub nd n nd n) (B.sub nd n nd n)
      trsmTriOff sideA uploB transA diagA A B n nd
termination_by A.m
decreasing_by all_goals simp only [MatV.sub]; omega

/-- One step of trmm_blocked_mixed (lapack/trmm_blocked_mixed.hpp:116-133). -/
def trmmBlockedStep (uplo : Uplo) (diag : Diag) (alpha : T) (A B W : MatV L) (nb i : Nat) : M L T Unit := do
  let m := B.m
  let n := B.n
  let ib := min nb (m - i)
  let A0i ← A.slice 0 i i (i + ib)
  let Aii ← A.slice i (i + ib) i (i + ib)
  let B0 ← B.slice 0 i 0 n
  let Bi ← B.slice i (i + ib) 0 n
  let Bl ← W.slice 0 ib 0 n
  lacpy .General Bi Bl
  gemm .NoTrans .NoTrans alpha A0i Bl (.val 1) B0
  trmm .Left uplo .NoTrans diag alpha Aii Bi

/-- lapack/trmm_blocked_mixed.hpp:78-184: only Left/NoTrans/Upper is implemented, the other combinations call
`tlapack_error(1, …)`.  Simplification: the workspace has the precision of `B` (no rounding by the cast). -/
def trmmBlockedMixed (optNb : Nat) (side : Side) (uplo : Uplo) (trans : Op) (diag : Diag) (alpha : T)
    (A B : MatV L) (work : VecV L) : M L T Unit := do
  let m := B.m
  let n := B.n
  let nb := min optNb m
  check (!(side ≠ .Left && side ≠ .Right))
  check (!(uplo ≠ .Lower && uplo ≠ .Upper))
  check (!(trans ≠ .NoTrans && trans ≠ .Trans && trans ≠ .ConjTrans))
  check (!(A.m ≠ A.n : Bool))
  check (!(A.m ≠ (if side = .Left then m else n) : Bool))
  let (W, _) ← reshapeWM work nb n
  if side = .Left ∧ trans = .NoTrans ∧ uplo = .Upper then do
    let _ ← forStep (ρ := Unit) nb m (fun i => do
      trmmBlockedStep uplo diag alpha A B W nb i
      pure none) 0
    pure ()
  else error 1

end
end TLA
