import Verif.Core

/-!
# Model of the level-1 BLAS templates (/repo/include/tlapack/blas)

Only the templates selected by `disable_if_allow_optblas_t` are modelled (the others forward to
the external BLAS++).  `tlapack_check_false(c)` is `check (!c)`.
-/

namespace TLA

variable {L T : Type} [DecidableEq L]

/-- blas/copy.hpp:31-43. -/
def copy (x y : VecV L) : M L T Unit := do
  check (!(y.n < x.n : Bool))
  forUp_ 0 x.n fun i => do
    let v ← x.get i
    y.set i v

/-- blas/swap.hpp:31-47. -/
def swap (x y : VecV L) : M L T Unit := do
  check (!(y.n ≠ x.n : Bool))
  forUp_ 0 x.n fun i => do
    let aux ← x.get i
    let yi ← y.get i
    x.set i yi
    y.set i aux

/-- lapack/conjugate.hpp:24-32. -/
def conjugate [Star T] (x : VecV L) : M L T Unit :=
  forUp_ 0 x.n fun i => do
    let v ← x.get i
    x.set i (star v)

/-- blas/scal.hpp:30-39. -/
def scal [Mul T] (alpha : T) (x : VecV L) : M L T Unit :=
  forUp_ 0 x.n fun i => x.modify i (· * alpha)

/-- blas/axpy.hpp:34-46. -/
def axpy [Add T] [Mul T] (alpha : T) (x y : VecV L) : M L T Unit := do
  check (!(y.n < x.n : Bool))
  forUp_ 0 x.n fun i => do
    let xi ← x.get i
    y.modify i (· + alpha * xi)

/-- blas/dot.hpp:32-48. -/
def dot [Zero T] [Add T] [Mul T] [Star T] (x y : VecV L) : M L T T := do
  check (!(y.n ≠ x.n : Bool))
  forUp 0 x.n 0 fun i result => do
    let xi ← x.get i
    let yi ← y.get i
    pure (result + star xi * yi)

/-- blas/dotu.hpp:32-48. -/
def dotu [Zero T] [Add T] [Mul T] (x y : VecV L) : M L T T := do
  check (!(y.n ≠ x.n : Bool))
  forUp 0 x.n 0 fun i result => do
    let xi ← x.get i
    let yi ← y.get i
    pure (result + xi * yi)

/-- blas/asum.hpp:27-41.  `abs1` is the function of base/utils.hpp with values in the real
type `R`, a parameter here. -/
def asum {R : Type} [Zero R] [Add R] (abs1 : T → R) (x : VecV L) : M L T R :=
  forUp 0 x.n 0 fun i result => do
    let xi ← x.get i
    pure (result + abs1 xi)

/-- blas/rot.hpp:44-64. -/
def rot [Zero T] [One T] [Add T] [Mul T] [Sub T] [Star T] [DecidableEq T]
    (x y : VecV L) (c s : T) : M L T Unit := do
  check (!(y.n ≠ x.n : Bool))
  if x.n = 0 ∨ (c = 1 ∧ s = 0) then pure () else
  forUp_ 0 x.n fun i => do
    let xi ← x.get i
    let yi ← y.get i
    let stmp := c * xi + s * yi
    y.set i (c * yi - star s * xi)
    x.set i stmp

/-- blas/rotm.hpp:75-107 `rotm<flag>(x, y, h)`; `flag` is a template argument in `{-2, …, 1}`. -/
def rotm [Zero T] [One T] [Add T] [Mul T] [Sub T] (flag : ℤ) (x y : VecV L) (h : ℕ → T) : M L T Unit := do
  check (!(y.n ≠ x.n : Bool))
  if flag = -1 then
    forUp_ 0 x.n fun i => do
      let xi ← x.get i
      let yi ← y.get i
      let stmp := h 0 * xi + h 2 * yi
      y.set i (h 3 * yi + h 1 * xi)
      x.set i stmp
  else if flag = 0 then
    forUp_ 0 x.n fun i => do
      let xi ← x.get i
      let yi ← y.get i
      let stmp := xi + h 2 * yi
      y.set i (yi + h 1 * xi)
      x.set i stmp
  else if flag = 1 then
    forUp_ 0 x.n fun i => do
      let xi ← x.get i
      let yi ← y.get i
      let stmp := h 0 * xi + yi
      y.set i (h 3 * yi - xi)
      x.set i stmp
  else pure ()

end TLA
