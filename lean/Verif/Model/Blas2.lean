import Verif.Core

/-!
# Model of the level-2 BLAS templates (/repo/include/tlapack/blas)

Only the templates selected by `disable_if_allow_optblas_t` are modelled.  Checks that cannot
fail because the enum has only admissible values (`trans`, `diag`) are omitted.
The overloads without `beta` are the calls with `Coef.strongZero`
(e.g. gemv.hpp:230-237).
Simplification: branches of the code that differ only in `conj(..)` around the entries of `A`
share one loop definition with a parameter `f` (the identity or `star`).
-/

namespace TLA

variable {L T : Type} [DecidableEq L]

/-- The first loop of gemv.hpp:85-86 (also hemv.hpp:75-76, symv.hpp:72-73). -/
def scaleVec [Zero T] [Mul T] (beta : Coef T) (y : VecV L) (m : Nat) : M L T Unit :=
  forUp_ 0 m fun i => y.modify i (fun v => beta.mulAssign v)

/-- gemv.hpp:90-95 (`f = id`) and 99-104 (`f = conj`). -/
def gemvN [Add T] [Mul T] (f : T → T) (alpha : T) (A : MatV L) (x y : VecV L) (m n : Nat) :
    M L T Unit :=
  forUp_ 0 n fun j => do
    let xj ← x.get j
    let tmp := alpha * xj
    forUp_ 0 m fun i => do
      let a ← A.get i j
      y.modify i (· + tmp * f a)

/-- gemv.hpp:108-114 (`f = id`) and 118-124 (`f = conj`). -/
def gemvT [Zero T] [Add T] [Mul T] (f : T → T) (alpha : T) (A : MatV L) (x y : VecV L)
    (m n : Nat) : M L T Unit :=
  forUp_ 0 m fun i => do
    let tmp ← forUp 0 n 0 fun j tmp => do
      let a ← A.get j i
      let xj ← x.get j
      pure (tmp + f a * xj)
    y.modify i (· + alpha * tmp)

/-- blas/gemv.hpp:57-126. -/
def gemv [Zero T] [Add T] [Mul T] [Star T] (trans : Op) (alpha : T) (A : MatV L) (x : VecV L)
    (beta : Coef T) (y : VecV L) : M L T Unit := do
  let m := if trans = .NoTrans ∨ trans = .Conj then A.m else A.n
  let n := if trans = .NoTrans ∨ trans = .Conj then A.n else A.m
  check (!(x.n ≠ n : Bool))
  check (!(y.n ≠ m : Bool))
  if m = 0 ∨ n = 0 then pure () else
  scaleVec beta y m
  match trans with
  | .NoTrans => gemvN id alpha A x y m n
  | .Conj => gemvN star alpha A x y m n
  | .Trans => gemvT id alpha A x y m n
  | .ConjTrans => gemvT star alpha A x y m n

/-- The loop nest of ger.hpp:59-63 (`f = conj`) and geru.hpp:60-64 (`f = id`). -/
def gerLoop [Add T] [Mul T] (f : T → T) (alpha : T) (x y : VecV L) (A : MatV L) (m n : Nat) :
    M L T Unit :=
  forUp_ 0 n fun j => do
    let yj ← y.get j
    let tmp := alpha * f yj
    forUp_ 0 m fun i => do
      let xi ← x.get i
      A.modify i j (· + xi * tmp)

/-- blas/ger.hpp:42-64. -/
def ger [Add T] [Mul T] [Star T] (alpha : T) (x y : VecV L) (A : MatV L) : M L T Unit := do
  check (!(x.n ≠ A.m : Bool))
  check (!(y.n ≠ A.n : Bool))
  gerLoop star alpha x y A A.m A.n

/-- blas/geru.hpp:43-65. -/
def geru [Add T] [Mul T] (alpha : T) (x y : VecV L) (A : MatV L) : M L T Unit := do
  check (!(x.n ≠ A.m : Bool))
  check (!(y.n ≠ A.n : Bool))
  gerLoop id alpha x y A A.m A.n

/-- `uplo != Uplo::Lower && uplo != Uplo::Upper` (the argument of the first check of the
Hermitian, symmetric and triangular routines). -/
def notTri (uplo : Uplo) : Bool := uplo ≠ .Lower && uplo ≠ .Upper

/-- blas/her.hpp:53-85. -/
def her [Add T] [Mul T] [Sub T] [Star T] [ReIm T] (uplo : Uplo) (alpha : T) (x : VecV L)
    (A : MatV L) : M L T Unit := do
  let n := A.m
  check (!notTri uplo)
  check (!(x.n ≠ n : Bool))
  check (!(A.n ≠ n : Bool))
  if uplo = .Upper then
    forUp_ 0 n fun j => do
      let xj ← x.get j
      let tmp := alpha * star xj
      forUp_ 0 j fun i => do
        let xi ← x.get i
        A.modify i j (· + xi * tmp)
      let xj ← x.get j
      A.modify j j (fun a => re a + re xj * re tmp - im xj * im tmp)
  else
    forUp_ 0 n fun j => do
      let xj ← x.get j
      let tmp := alpha * star xj
      A.modify j j (fun a => re a + re xj * re tmp - im xj * im tmp)
      forUp_ (j + 1) n fun i => do
        let xi ← x.get i
        A.modify i j (· + xi * tmp)

/-- blas/her2.hpp:50-92. -/
def her2 [Add T] [Mul T] [Sub T] [Star T] [ReIm T] (uplo : Uplo) (alpha : T) (x y : VecV L)
    (A : MatV L) : M L T Unit := do
  let n := A.m
  check (!notTri uplo)
  check (!(x.n ≠ n : Bool))
  check (!(y.n ≠ n : Bool))
  check (!(A.n ≠ n : Bool))
  if uplo = .Upper then
    forUp_ 0 n fun j => do
      let yj ← y.get j
      let xj ← x.get j
      let tmp1 := alpha * star yj
      let tmp2 := star (alpha * xj)
      forUp_ 0 j fun i => do
        let xi ← x.get i
        let yi ← y.get i
        A.modify i j (· + (xi * tmp1 + yi * tmp2))
      A.modify j j (fun a => re a + re xj * re tmp1 - im xj * im tmp1
                              + re yj * re tmp2 - im yj * im tmp2)
  else
    forUp_ 0 n fun j => do
      let yj ← y.get j
      let xj ← x.get j
      let tmp1 := alpha * star yj
      let tmp2 := star (alpha * xj)
      A.modify j j (fun a => re a + re xj * re tmp1 - im xj * im tmp1
                              + re yj * re tmp2 - im yj * im tmp2)
      forUp_ (j + 1) n fun i => do
        let xi ← x.get i
        let yi ← y.get i
        A.modify i j (· + (xi * tmp1 + yi * tmp2))

/-- blas/syr.hpp:45-73. -/
def syr [Add T] [Mul T] (uplo : Uplo) (alpha : T) (x : VecV L) (A : MatV L) : M L T Unit := do
  let n := A.m
  check (!notTri uplo)
  check (!(x.n ≠ n : Bool))
  check (!(A.n ≠ n : Bool))
  if uplo = .Upper then
    forUp_ 0 n fun j => do
      let xj ← x.get j
      let tmp := alpha * xj
      forUp_ 0 (j + 1) fun i => do
        let xi ← x.get i
        A.modify i j (· + xi * tmp)
  else
    forUp_ 0 n fun j => do
      let xj ← x.get j
      let tmp := alpha * xj
      forUp_ j n fun i => do
        let xi ← x.get i
        A.modify i j (· + xi * tmp)

/-- blas/syr2.hpp:48-84. -/
def syr2 [Add T] [Mul T] (uplo : Uplo) (alpha : T) (x y : VecV L) (A : MatV L) :
    M L T Unit := do
  let n := A.m
  check (!notTri uplo)
  check (!(x.n ≠ n : Bool))
  check (!(y.n ≠ n : Bool))
  check (!(A.n ≠ n : Bool))
  if uplo = .Upper then
    forUp_ 0 n fun j => do
      let yj ← y.get j
      let xj ← x.get j
      let tmp1 := alpha * yj
      let tmp2 := alpha * xj
      forUp_ 0 (j + 1) fun i => do
        let xi ← x.get i
        let yi ← y.get i
        A.modify i j (· + (xi * tmp1 + yi * tmp2))
  else
    forUp_ 0 n fun j => do
      let yj ← y.get j
      let xj ← x.get j
      let tmp1 := alpha * yj
      let tmp2 := alpha * xj
      forUp_ j n fun i => do
        let xi ← x.get i
        let yi ← y.get i
        A.modify i j (· + (xi * tmp1 + yi * tmp2))

/-- The loop nests of hemv.hpp:78-103 (`f = conj`, `g = real`) and symv.hpp:75-100
(`f = g = id`). -/
def hemvLoop [Zero T] [Add T] [Mul T] (f g : T → T) (uplo : Uplo) (alpha : T) (A : MatV L)
    (x y : VecV L) (n : Nat) : M L T Unit :=
  if uplo = .Upper then
    forUp_ 0 n fun j => do
      let xj ← x.get j
      let tmp1 := alpha * xj
      let sum ← forUp 0 j 0 fun i sum => do
        let a ← A.get i j
        y.modify i (· + tmp1 * a)
        let xi ← x.get i
        pure (sum + f a * xi)
      let ajj ← A.get j j
      y.modify j (· + (tmp1 * g ajj + alpha * sum))
  else
    forUp_ 0 n fun j => do
      let xj ← x.get j
      let tmp1 := alpha * xj
      let sum ← forUp (j + 1) n 0 fun i sum => do
        let a ← A.get i j
        y.modify i (· + tmp1 * a)
        let xi ← x.get i
        pure (sum + f a * xi)
      let ajj ← A.get j j
      y.modify j (· + (tmp1 * g ajj + alpha * sum))

/-- blas/hemv.hpp:53-104. -/
def hemv [Zero T] [Add T] [Mul T] [Star T] [ReIm T] (uplo : Uplo) (alpha : T) (A : MatV L)
    (x : VecV L) (beta : Coef T) (y : VecV L) : M L T Unit := do
  let n := A.m
  check (!notTri uplo)
  check (!(A.n ≠ n : Bool))
  check (!(x.n ≠ n : Bool))
  check (!(y.n ≠ n : Bool))
  scaleVec beta y n
  hemvLoop star re uplo alpha A x y n

/-- blas/symv.hpp:50-101. -/
def symv [Zero T] [Add T] [Mul T] (uplo : Uplo) (alpha : T) (A : MatV L)
    (x : VecV L) (beta : Coef T) (y : VecV L) : M L T Unit := do
  let n := A.m
  check (!notTri uplo)
  check (!(A.n ≠ n : Bool))
  check (!(x.n ≠ n : Bool))
  check (!(y.n ≠ n : Bool))
  scaleVec beta y n
  hemvLoop id id uplo alpha A x y n

/-- trmv.hpp:81-99 (`f = id`) and 103-121 (`f = conj`). -/
def trmvN [Add T] [Mul T] (f : T → T) (uplo : Uplo) (diag : Diag) (A : MatV L) (x : VecV L)
    (n : Nat) : M L T Unit :=
  if uplo = .Upper then
    forUp_ 0 n fun j => do
      forUp_ 0 j fun i => do
        let xj ← x.get j
        let a ← A.get i j
        x.modify i (· + xj * f a)
      if diag = .NonUnit then do
        let a ← A.get j j
        x.modify j (· * f a)
  else
    forDown_ 0 n fun j => do
      forDown_ (j + 1) n fun i => do
        let xj ← x.get j
        let a ← A.get i j
        x.modify i (· + xj * f a)
      if diag = .NonUnit then do
        let a ← A.get j j
        x.modify j (· * f a)

/-- trmv.hpp:128-147 (`f = id`) and 155-174 (`f = conj`). -/
def trmvT [Add T] [Mul T] (f : T → T) (uplo : Uplo) (diag : Diag) (A : MatV L) (x : VecV L)
    (n : Nat) : M L T Unit :=
  if uplo = .Upper then
    forDown_ 0 n fun j => do
      let tmp ← x.get j
      let tmp ← if diag = .NonUnit then do
          let a ← A.get j j
          pure (tmp * f a)
        else pure tmp
      let tmp ← forDown 0 j tmp fun i tmp => do
        let a ← A.get i j
        let xi ← x.get i
        pure (tmp + f a * xi)
      x.set j tmp
  else
    forUp_ 0 n fun j => do
      let tmp ← x.get j
      let tmp ← if diag = .NonUnit then do
          let a ← A.get j j
          pure (tmp * f a)
        else pure tmp
      let tmp ← forUp (j + 1) n tmp fun i tmp => do
        let a ← A.get i j
        let xi ← x.get i
        pure (tmp + f a * xi)
      x.set j tmp

/-- blas/trmv.hpp:60-176. -/
def trmv [Add T] [Mul T] [Star T] (uplo : Uplo) (trans : Op) (diag : Diag) (A : MatV L)
    (x : VecV L) : M L T Unit := do
  let n := A.m
  check (!notTri uplo)
  check (!(A.m ≠ A.n : Bool))
  check (!(x.n ≠ n : Bool))
  match trans with
  | .NoTrans => trmvN id uplo diag A x n
  | .Conj => trmvN star uplo diag A x n
  | .Trans => trmvT id uplo diag A x n
  | .ConjTrans => trmvT star uplo diag A x n

/-- trsv.hpp:85-109 (`f = id`) and 113-137 (`f = conj`). -/
def trsvN [Mul T] [Sub T] [Div T] (f : T → T) (uplo : Uplo) (diag : Diag) (A : MatV L)
    (x : VecV L) (n : Nat) : M L T Unit :=
  if uplo = .Upper then
    forDown_ 0 n fun j => do
      if diag = .NonUnit then do
        let a ← A.get j j
        x.modify j (· / f a)
      forDown_ 0 j fun i => do
        let xj ← x.get j
        let a ← A.get i j
        x.modify i (· - xj * f a)
  else
    forUp_ 0 n fun j => do
      if diag = .NonUnit then do
        let a ← A.get j j
        x.modify j (· / f a)
      forUp_ (j + 1) n fun i => do
        let xj ← x.get j
        let a ← A.get i j
        x.modify i (· - xj * f a)

/-- trsv.hpp:144-169 (`f = id`) and 177-202 (`f = conj`). -/
def trsvT [Mul T] [Sub T] [Div T] (f : T → T) (uplo : Uplo) (diag : Diag) (A : MatV L)
    (x : VecV L) (n : Nat) : M L T Unit :=
  if uplo = .Upper then
    forUp_ 0 n fun j => do
      let tmp ← x.get j
      let tmp ← forUp 0 j tmp fun i tmp => do
        let a ← A.get i j
        let xi ← x.get i
        pure (tmp - f a * xi)
      if diag = .NonUnit then do
        let a ← A.get j j
        x.set j (tmp / f a)
      else x.set j tmp
  else
    forDown_ 0 n fun j => do
      let tmp ← x.get j
      let tmp ← forUp (j + 1) n tmp fun i tmp => do
        let a ← A.get i j
        let xi ← x.get i
        pure (tmp - f a * xi)
      if diag = .NonUnit then do
        let a ← A.get j j
        x.set j (tmp / f a)
      else x.set j tmp

/-- blas/trsv.hpp:64-204. -/
def trsv [Mul T] [Sub T] [Div T] [Star T] (uplo : Uplo) (trans : Op) (diag : Diag) (A : MatV L)
    (x : VecV L) : M L T Unit := do
  let n := A.m
  check (!notTri uplo)
  check (!(A.m ≠ A.n : Bool))
  check (!(x.n ≠ n : Bool))
  match trans with
  | .NoTrans => trsvN id uplo diag A x n
  | .Conj => trsvN star uplo diag A x n
  | .Trans => trsvT id uplo diag A x n
  | .ConjTrans => trsvT star uplo diag A x n

end TLA
