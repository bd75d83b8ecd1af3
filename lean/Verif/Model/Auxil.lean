import Verif.Model.Blas1
import Mathlib.Algebra.Order.Field.Basic

/-!
# Model of auxiliary routines: iamax, hasnan, hasinf, laset, lacpy, transpose, lascl, rscl
-/

namespace TLA

variable {L T : Type}

/-! ### iamax -/

/-- A floating-point real: NaN, a finite value (or minus infinity), or plus infinity. -/
inductive Fl (K : Type) where
  | nan
  | fin (k : K)
  | inf
  deriving DecidableEq, Repr

/-- `a > b` on floating-point reals: false when one of them is NaN. -/
def Fl.gt {K : Type} [LT K] [DecidableRel (α := K) (· < ·)] : Fl K → Fl K → Bool
  | .fin a, .fin b => decide (b < a)
  | .inf, .fin _ => true
  | _, _ => false

/-- The scalar operations iamax uses: `is_real<T>`, `isnan`, `isinf` on entries, `absf(x)`,
`absf(oneFourth * x)` and the value `-1` (blas/iamax.hpp:68-134). -/
structure IamaxOps (T K : Type) where
  isReal : Bool
  isnan : T → Bool
  isinf : T → Bool
  absf : T → Fl K
  absQ : T → Fl K
  minusOne : K

/-- Loop-carried variables `scaledsmax`, `smax`, `index` (blas/iamax.hpp:82-84); `none` is
`idx_t(-1)`. -/
structure IamaxSt (K : Type) where
  scaled : Bool
  smax : Fl K
  index : Option Nat

variable {K : Type} [LT K] [DecidableRel (α := K) (· < ·)]

/-- The branch for an entry that is neither NaN nor Inf (blas/iamax.hpp:103-130, 181-208). -/
def iamaxStep (o : IamaxOps T K) (i : Nat) (xi : T) (st : IamaxSt K) : IamaxSt K :=
  if o.isReal then
    let a := o.absf xi
    if a.gt st.smax then ⟨st.scaled, a, some i⟩ else st
  else if st.scaled = false then
    let a := o.absf xi
    match a with
    | .inf => ⟨true, o.absQ xi, some i⟩
    | _ => if a.gt st.smax then ⟨st.scaled, a, some i⟩ else st
  else
    let a := o.absQ xi
    if a.gt st.smax then ⟨st.scaled, a, some i⟩ else st

/-- blas/iamax.hpp:68-134 (`iamax_ec`); the result `none` is `idx_t(-1)`. -/
def iamaxEc (o : IamaxOps T K) (x : VecV L) : M L T (Option Nat) := do
  if x.n = 0 then pure (some 0) else do
  let r ← forRet 0 x.n (⟨false, .fin o.minusOne, none⟩ : IamaxSt K) fun i st => do
    let xi ← x.get i
    if o.isnan xi then pure (.inr i)
    else if o.isinf xi then do
      let r ← forRet (i + 1) x.n () fun k _ => do
        let xk ← x.get k
        if o.isnan xk then pure (.inr k) else pure (.inl ())
      match r with
      | .inr k => pure (.inr k)
      | .inl _ => pure (.inr i)
    else pure (.inl (iamaxStep o i xi st))
  match r with
  | .inr k => pure (some k)
  | .inl st => pure st.index

/-- blas/iamax.hpp:158-212 (`iamax_nc`). -/
def iamaxNc (o : IamaxOps T K) (x : VecV L) : M L T Nat := do
  if x.n = 0 then pure 0 else do
  let r ← forRet 0 x.n (⟨false, .fin o.minusOne, none⟩ : IamaxSt K) fun i st => do
    let xi ← x.get i
    if o.isinf xi then pure (.inr i)
    else pure (.inl (iamaxStep o i xi st))
  match r with
  | .inr k => pure k
  | .inl st => pure (match st.index with | some k => k | none => 0)

/-! ### hasnan / hasinf -/

/-- `for j < n: for lo(j) <= i < hi(j): if p(A(i,j)) return true; return false` – the shape of
every branch of hasnan (lapack/hasnan.hpp:55-97, 119-122) and hasinf (lapack/hasinf.hpp:55-97,
119-122). -/
def scanRegion (p : T → Bool) (A : MatV L) (lo hi : Nat → Nat) : M L T Bool := do
  let r ← forRet (ρ := Bool) 0 A.n () fun j _ => do
    let r ← forRet (ρ := Bool) (lo j) (hi j) () fun i _ => do
      let v ← A.get i j
      if p v then pure (.inr true) else pure (.inl ())
    match r with
    | .inr b => pure (.inr b)
    | .inl _ => pure (.inl ())
  match r with
  | .inr b => pure b
  | .inl _ => pure false

/-- hasnan(uplo, A) (lapack/hasnan.hpp:42-98) with `p = isnan`, hasinf(uplo, A)
(lapack/hasinf.hpp:42-98) with `p = isinf`: the two files are identical otherwise.  The check of
the option (lines 50-53) always passes for the seven values of `Uplo`. -/
def hasP (p : T → Bool) (uplo : Uplo) (A : MatV L) : M L T Bool :=
  match uplo with
  | .UpperHessenberg => scanRegion p A (fun _ => 0) (fun j => if j < A.m then j + 2 else A.m)
  | .Upper => scanRegion p A (fun _ => 0) (fun j => if j < A.m then j + 1 else A.m)
  | .StrictUpper => scanRegion p A (fun _ => 0) (fun j => if j < A.m then j else A.m)
  | .LowerHessenberg => scanRegion p A (fun j => if j > 1 then j - 1 else 0) (fun _ => A.m)
  | .Lower => scanRegion p A (fun j => j) (fun _ => A.m)
  | .StrictLower => scanRegion p A (fun j => j + 1) (fun _ => A.m)
  | .General => scanRegion p A (fun _ => 0) (fun _ => A.m)

/-- hasnan/hasinf(BandAccess(kl,ku), A) (lapack/hasnan.hpp:109-123, lapack/hasinf.hpp:109-123). -/
def hasPBand (p : T → Bool) (kl ku : Nat) (A : MatV L) : M L T Bool :=
  scanRegion p A (fun j => if j ≥ ku then j - ku else 0) (fun j => min A.m (j + kl + 1))

/-- hasnan/hasinf(x) (lapack/hasnan.hpp:136-146, lapack/hasinf.hpp:136-146). -/
def hasPVec (p : T → Bool) (x : VecV L) : M L T Bool := do
  let r ← forRet (ρ := Bool) 0 x.n () fun i _ => do
    let v ← x.get i
    if p v then pure (.inr true) else pure (.inl ())
  match r with
  | .inr b => pure b
  | .inl _ => pure false

/-! ### laset, lacpy -/

variable [DecidableEq L]

/-- lapack/laset.hpp:38-82. -/
def laset (uplo : Uplo) (alpha beta : T) (A : MatV L) : M L T Unit := do
  check (!(uplo ≠ .Lower ∧ uplo ≠ .Upper ∧ uplo ≠ .General : Bool))
  (if uplo = .Upper then
    forUp_ 1 A.n fun j =>
      forUp_ 0 (min A.m j) fun i => A.set i j alpha
  else if uplo = .Lower then
    forUp_ 0 (min A.m A.n) fun j =>
      forUp_ (j + 1) A.m fun i => A.set i j alpha
  else
    forUp_ 0 A.n fun j =>
      forUp_ 0 A.m fun i => A.set i j alpha)
  forUp_ 0 (min A.m A.n) fun i => A.set i i beta

/-- lapack/lacpy.hpp:38-73 (both matrices of the same scalar type). -/
def lacpy (uplo : Uplo) (A B : MatV L) : M L T Unit := do
  check (!(uplo ≠ .Lower ∧ uplo ≠ .Upper ∧ uplo ≠ .General : Bool))
  if uplo = .Upper then
    forUp_ 0 A.n fun j =>
      forUp_ 0 (min A.m (j + 1)) fun i => do
        let v ← A.get i j
        B.set i j v
  else if uplo = .Lower then
    forUp_ 0 (min A.m A.n) fun j =>
      forUp_ j A.m fun i => do
        let v ← A.get i j
        B.set i j v
  else
    forUp_ 0 A.n fun j =>
      forUp_ 0 A.m fun i => do
        let v ← A.get i j
        B.set i j v

/-! ### transpose -/

/-- lapack/transpose.hpp:92-130 (`f = id`, `transpose`) and 37-75 (`f = conj`, `conjtranspose`);
the two functions are identical otherwise.  Recursion on the C++ call tree is structural on the
matrix sizes: `n ≤ 1` cannot reach the recursive branch because `nx ≥ 2`. -/
def transposeRec (f : T → T) (nx : Nat) (A B : MatV L) : M L T Unit := do
  check (A.m = B.n : Bool)
  check (A.n = B.m : Bool)
  check (nx ≥ 2 : Bool)
  if h : min A.m A.n ≤ nx ∨ nx < 2 then
    forUp_ 0 A.m fun i =>
      forUp_ 0 A.n fun j => do
        let v ← A.get i j
        B.set j i (f v)
  else do
    let m1 := A.m / 2
    let n1 := A.n / 2
    -- the eight calls of `slice` (lines 115-123): first their asserts, then the sub-views
    A.sliceChk 0 m1 0 n1
    A.sliceChk 0 m1 n1 A.n
    A.sliceChk m1 A.m 0 n1
    A.sliceChk m1 A.m n1 A.n
    B.sliceChk 0 n1 0 m1
    B.sliceChk 0 n1 m1 A.m
    B.sliceChk n1 A.n 0 m1
    B.sliceChk n1 A.n m1 A.m
    transposeRec f nx (A.sub 0 m1 0 n1) (B.sub 0 n1 0 m1)
    transposeRec f nx (A.sub 0 m1 n1 A.n) (B.sub n1 A.n 0 m1)
    transposeRec f nx (A.sub m1 A.m 0 n1) (B.sub 0 n1 m1 A.m)
    transposeRec f nx (A.sub m1 A.m n1 A.n) (B.sub n1 A.n m1 A.m)
termination_by A.m + A.n
decreasing_by all_goals simp only [MatV.sub]; omega

/-! ### lascl -/

section lascl
variable [Mul T]

/-- `for j < n: for lo(j) <= i < hi(j): A(i,j) *= c`, the shape of every branch of one pass of
lascl (lapack/lascl.hpp:131-166, 262-265). -/
def scaleRegion (c : T) (A : MatV L) (lo hi : Nat → Nat) : M L T Unit :=
  forUp_ 0 A.n fun j => forUp_ (lo j) (hi j) fun i => A.modify i j (· * c)

/-- One pass of lascl over the selected part (lapack/lascl.hpp:131-166). -/
def lasclPass (uplo : Uplo) (c : T) (A : MatV L) : M L T Unit :=
  match uplo with
  | .UpperHessenberg => scaleRegion c A (fun _ => 0) (fun j => if j < A.m then j + 2 else A.m)
  | .Upper => scaleRegion c A (fun _ => 0) (fun j => if j < A.m then j + 1 else A.m)
  | .StrictUpper => scaleRegion c A (fun _ => 0) (fun j => if j < A.m then j else A.m)
  | .LowerHessenberg => scaleRegion c A (fun j => if j > 1 then j - 1 else 0) (fun _ => A.m)
  | .Lower => scaleRegion c A (fun j => j) (fun _ => A.m)
  | .StrictLower => scaleRegion c A (fun j => j + 1) (fun _ => A.m)
  | .General => scaleRegion c A (fun _ => 0) (fun _ => A.m)

variable {R : Type} [Field R] [LinearOrder R]

/-- The choice of the factor in one pass (lapack/lascl.hpp:90-129): the factor `c`, whether it is
the last pass, and the new `a_`, `b_`. -/
def lasclStep (small big b a_ b_ : R) : R × Bool × R × R :=
  let b1 := b * small
  if b1 = b_ then (a_ / b_, true, a_, b_)
  else
    let a1 := a_ / big
    if a1 = a_ then (a_, true, a_, b_)
    else if |b1| > |a_| ∧ a_ ≠ 0 then (small, false, a_, b1)
    else if |a1| > |b_| then (big, false, a1, b_)
    else (a_ / b_, true, a_, b_)

/-- The `while (!done)` loop (lapack/lascl.hpp:89-167) with an explicit bound on the number of
passes (`diverge` when it is exhausted). `pass` is the scaling of the region, `emb` the conversion
of a real factor to the entry type. -/
def lasclLoop (emb : R → T) (pass : T → M L T Unit) (small big b : R) :
    (fuel : Nat) → (a_ b_ : R) → M L T Unit
  | 0, _, _ => M.fail .diverge
  | fuel + 1, a_, b_ => do
    let (c, done, a', b') := lasclStep small big b a_ b_
    pass (emb c)
    if done then pure () else lasclLoop emb pass small big b fuel a' b'

/-- lapack/lascl.hpp:61-170 on an exact real type (no NaN, so the `isnan` checks of lines 81-82
cannot fire). -/
def lascl (emb : R → T) (small big : R) (fuel : Nat) (uplo : Uplo) (b a : R) (A : MatV L) :
    M L T Nat := do
  check (!(b = 0 : Bool))
  if A.m = 0 ∨ A.n = 0 then pure 0 else do
  lasclLoop emb (fun c => lasclPass uplo c A) small big b fuel a b
  pure 0

/-- lapack/lascl.hpp:194-269 (BandAccess version). -/
def lasclBand (emb : R → T) (small big : R) (fuel : Nat) (kl ku : Nat) (b a : R) (A : MatV L) :
    M L T Nat := do
  check (!(kl ≥ A.m ∨ ku ≥ A.n : Bool))
  check (!(b = 0 : Bool))
  if A.m = 0 ∨ A.n = 0 then pure 0 else do
  lasclLoop emb (fun c => scaleRegion c A (fun j => if j ≥ ku then j - ku else 0)
    (fun j => min A.m (j + kl + 1))) small big b fuel a b
  pure 0

/-! ### rscl -/

/-- lapack/rscl.hpp:22-41 (real alpha). -/
def rsclReal (emb : R → T) (safeMin safeMax : R) (alpha : R) (x : VecV L) : M L T Unit := do
  let r := |alpha|
  if r > safeMax then
    scal (emb safeMin) x
    scal (emb (safeMax / alpha)) x
  else if r < safeMin then
    scal (emb (safeMin / alpha)) x
    scal (emb safeMax) x
  else scal (emb (1 / alpha)) x

/-- lapack/rscl.hpp:75-162 (complex alpha with parts `aR`, `aI`); `mkc` is the constructor
`alpha_t(re, im)`, `isinf` the test used on lines 127 and 134. -/
def rsclComplex (emb : R → T) (mkc : R → R → T) (isinf : R → Bool) (safeMin safeMax : R)
    (aR aI : R) (x : VecV L) : M L T Unit := do
  let absR := |aR|
  let absI := |aI|
  if aI = 0 then rsclReal emb safeMin safeMax aR x
  else if aR = 0 then
    if absI > safeMax then
      scal (emb safeMin) x
      scal (mkc 0 (-safeMax / aI)) x
    else if absI < safeMin then
      scal (mkc 0 (-safeMin / aI)) x
      scal (emb safeMax) x
    else scal (mkc 0 (-1 / aI)) x
  else
    let a := aR + aI * (aI / aR)
    let b := aI + aR * (aR / aI)
    if |a| < safeMin ∨ |b| < safeMin then
      scal (mkc (safeMin / a) (-safeMin / b)) x
      scal (emb safeMax) x
    else if |a| > safeMax ∨ |b| > safeMax then
      if isinf aR || isinf aI then
        scal (mkc (1 / a) (-1 / b)) x
      else
        scal (emb safeMin) x
        if isinf a || isinf b then
          if absR ≥ absI then
            let a := safeMin * aR + safeMin * (aI * (aI / aR))
            let b := safeMin * aI + aR * (safeMin * aR / aI)
            scal (mkc (1 / a) (-1 / b)) x
          else
            let a := safeMin * aR + aI * (safeMin * aI / aR)
            let b := safeMin * aI + safeMin * (aR * (aR / aI))
            scal (mkc (1 / a) (-1 / b)) x
        else scal (mkc (safeMax / a) (-safeMax / b)) x
    else scal (mkc (1 / a) (-1 / b)) x

end lascl

end TLA
