import Verif.Core

/-!
# Loops over unsigned, wrapping indices

`idx_t` is an unsigned type of some width `w` (`std::size_t` by default); its arithmetic is modulo
`2^w` (`BitVec w`).  The relations below are the C++ big-step semantics of the loop idioms of the
library, with the loop test, the decrement and the wrap-around written out; `forUp`/`forDown` of
Core.lean are what the routine models use instead.
-/

namespace TLA

variable {L T σ : Type} {w : Nat}

/-- `for (idx_t i = i0; test(i); i = step(i)) body(i)`, started with `i`.
Instances (all in /repo/include/tlapack):
* `i != idx_t(-1)`, `--i`: blas/trmv.hpp:93, lapack/hetd2.hpp:76, lapack/larft.hpp:184,
  lapack/getri_uxli.hpp:62, lapack/hemm2.hpp:136, lapack/hessenberg_rq.hpp:63, ...
* `i > lo`, `--i`: lapack/unghr.hpp:96, lapack/gghrd.hpp:79, lapack/steqr.hpp:127, ...
* `i >= lo`, `--i`: blas/trmv.hpp:95, lapack/laed4.hpp:406, ...
* `i < hi`, `++i`: everywhere. -/
inductive ForLoop (test : BitVec w → Bool) (step : BitVec w → BitVec w)
    (body : Nat → σ → M L T σ) :
    BitVec w → σ → Store L T → Except Err σ × Store L T → Prop
  | done {i s μ} : test i = false → ForLoop test step body i s μ (.ok s, μ)
  | next {i s μ s' ν r} : test i = true → body i.toNat s μ = (.ok s', ν) →
      ForLoop test step body (step i) s' ν r → ForLoop test step body i s μ r
  | throw {i s μ e ν} : test i = true → body i.toNat s μ = (.error e, ν) →
      ForLoop test step body i s μ (.error e, ν)

/-- `for (idx_t j = j0; j-- > 0;) body(j)` (lapack/getri.hpp:89, lapack/mult_llh.hpp:55,
lapack/mult_uhu.hpp:56, lapack/trge_ung2r.hpp:53): the test is on the value before the decrement,
the body sees the value after it. -/
inductive ForPostDec (body : Nat → σ → M L T σ) :
    BitVec w → σ → Store L T → Except Err σ × Store L T → Prop
  | done {j s μ} : ¬ (j > 0) → ForPostDec body j s μ (.ok s, μ)
  | next {j s μ s' ν r} : j > 0 → body (j - 1).toNat s μ = (.ok s', ν) →
      ForPostDec body (j - 1) s' ν r → ForPostDec body j s μ r
  | throw {j s μ e ν} : j > 0 → body (j - 1).toNat s μ = (.error e, ν) →
      ForPostDec body j s μ (.error e, ν)

/-- The size check of hetd2 (lapack/hetd2.hpp:63): `(idx_t) size(tau) >= n - 1`, evaluated before
the quick return for `n <= 0` (lapack/hetd2.hpp:66). -/
def hetd2Check (sizeTau n : BitVec w) : Bool := decide (sizeTau ≥ n - 1)

/-- The quick return test of hessenberg_rq (lapack/hessenberg_rq.hpp:57-60): `k = n - 1; k < 1`. -/
def hessenbergRqQuick (n : BitVec w) : Bool := decide (n - 1 < 1)

end TLA
