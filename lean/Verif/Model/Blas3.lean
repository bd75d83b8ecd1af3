import Verif.Model.Blas2

/-!
# Model of the level-3 BLAS templates (/repo/include/tlapack/blas)

Only the templates selected by `disable_if_allow_optblas_t` are modelled.  Checks on enum values
that the enum type already excludes are omitted; the others (e.g. `Op::Conj` in gemm,
`Side::Both`, non-triangular `Uplo`) are kept.  The overloads without `beta` are the calls with
`Coef.strongZero`.
Simplification: branches that differ only in the accessor of an operand (`B(l,j)`, `B(j,l)`,
`conj(B(j,l))`; `A(..)`, `conj(A(..))`) share one loop definition with that accessor as
parameter.
-/

namespace TLA

variable {L T : Type} [DecidableEq L]

/-- `B(l,j)`, `B(j,l)` or `conj(B(j,l))`: the operand of gemm.hpp:97,108,119 and of the `sum`s
134,144,154,... -/
def opGet [Star T] (op : Op) (B : MatV L) (l j : Nat) : M L T T :=
  match op with
  | .NoTrans => B.get l j
  | .Trans => B.get j l
  | .ConjTrans => do
    let b ← B.get j l
    pure (star b)
  | .Conj => do
    let b ← B.get l j
    pure (star b)

/-- gemm.hpp:93-101, 104-112, 115-123; `getB l j` is the operand op(B)(l,j). -/
def gemmN [Zero T] [Add T] [Mul T] (getB : Nat → Nat → M L T T) (alpha : T) (A : MatV L)
    (beta : Coef T) (C : MatV L) (m n k : Nat) : M L T Unit :=
  forUp_ 0 n fun j => do
    forUp_ 0 m fun i => C.modify i j (fun c => beta.mulAssign c)
    forUp_ 0 k fun l => do
      let b ← getB l j
      let alphaTimesblj := alpha * b
      forUp_ 0 m fun i => do
        let a ← A.get i l
        C.modify i j (· + a * alphaTimesblj)

/-- gemm.hpp:130-137, 140-147, 150-157, 165-172, 175-182, 185-192; `fA` is applied to the entries
of `A`, `g` to the sum. -/
def gemmT [Zero T] [Add T] [Mul T] (fA g : T → T) (getB : Nat → Nat → M L T T) (alpha : T)
    (A : MatV L) (beta : Coef T) (C : MatV L) (m n k : Nat) : M L T Unit :=
  forUp_ 0 n fun j =>
    forUp_ 0 m fun i => do
      let sum ← forUp 0 k 0 fun l sum => do
        let a ← A.get l i
        let b ← getB l j
        pure (sum + fA a * b)
      C.modify i j (fun c => beta.addMul (alpha * g sum) c)

/-- blas/gemm.hpp:61-195. -/
def gemm [Zero T] [Add T] [Mul T] [Star T] (transA transB : Op) (alpha : T) (A B : MatV L)
    (beta : Coef T) (C : MatV L) : M L T Unit := do
  let m := if transA = .NoTrans then A.m else A.n
  let n := if transB = .NoTrans then B.n else B.m
  let k := if transA = .NoTrans then A.n else A.m
  check (!(transA ≠ .NoTrans && transA ≠ .Trans && transA ≠ .ConjTrans))
  check (!(transB ≠ .NoTrans && transB ≠ .Trans && transB ≠ .ConjTrans))
  check (!(C.m ≠ m : Bool))
  check (!(C.n ≠ n : Bool))
  check (!((if transB = .NoTrans then B.m else B.n) ≠ k : Bool))
  if transA = .NoTrans then
    gemmN (opGet transB B) alpha A beta C m n k
  else if transA = .Trans then
    gemmT id id (opGet transB B) alpha A beta C m n k
  else
    match transB with
    | .NoTrans => gemmT star id (opGet .NoTrans B) alpha A beta C m n k
    | .Trans => gemmT star id (opGet .Trans B) alpha A beta C m n k
    | _ => gemmT id star (opGet .Trans B) alpha A beta C m n k

/-- `uplo` is none of Lower, Upper, General. -/
def notTriGen (uplo : Uplo) : Bool := uplo ≠ .Lower && uplo ≠ .Upper && uplo ≠ .General

/-- hemm.hpp:89-124 (`f = conj`, `g = real`), symm.hpp:87-122 (`f = g = id`). -/
def hemmL [Zero T] [Add T] [Mul T] (f g : T → T) (uplo : Uplo) (alpha : T) (A B : MatV L)
    (beta : Coef T) (C : MatV L) (m n : Nat) : M L T Unit :=
  if uplo ≠ .Lower then
    forUp_ 0 n fun j =>
      forUp_ 0 m fun i => do
        let bij ← B.get i j
        let alphaTimesBij := alpha * bij
        let sum ← forUp 0 i 0 fun k sum => do
          let a ← A.get k i
          C.modify k j (· + a * alphaTimesBij)
          let b ← B.get k j
          pure (sum + f a * b)
        let aii ← A.get i i
        C.modify i j (fun c => beta.mulAdd c (g aii * alphaTimesBij) + alpha * sum)
  else
    forUp_ 0 n fun j =>
      forDown_ 0 m fun i => do
        let bij ← B.get i j
        let alphaTimesBij := alpha * bij
        let sum ← forUp (i + 1) m 0 fun k sum => do
          let a ← A.get k i
          C.modify k j (· + a * alphaTimesBij)
          let b ← B.get k j
          pure (sum + f a * b)
        let aii ← A.get i i
        C.modify i j (fun c => beta.mulAdd c (g aii * alphaTimesBij) + alpha * sum)

/-- hemm.hpp:125-173 (`f = conj`, `g = real`), symm.hpp:123-171 (`f = g = id`). -/
def hemmR [Add T] [Mul T] (f g : T → T) (uplo : Uplo) (alpha : T) (A B : MatV L)
    (beta : Coef T) (C : MatV L) (m n : Nat) : M L T Unit :=
  if uplo ≠ .Lower then
    forUp_ 0 n fun j => do
      let ajj ← A.get j j
      let alphaTimesAjj := alpha * g ajj
      forUp_ 0 m fun i => do
        let b ← B.get i j
        C.modify i j (fun c => beta.mulAdd c (b * alphaTimesAjj))
      forUp_ 0 j fun k => do
        let a ← A.get k j
        let alphaTimesAkj := alpha * a
        forUp_ 0 m fun i => do
          let b ← B.get i k
          C.modify i j (· + b * alphaTimesAkj)
      forUp_ (j + 1) n fun k => do
        let a ← A.get j k
        let alphaTimesAjk := alpha * f a
        forUp_ 0 m fun i => do
          let b ← B.get i k
          C.modify i j (· + b * alphaTimesAjk)
  else
    forUp_ 0 n fun j => do
      let ajj ← A.get j j
      let alphaTimesAjj := alpha * g ajj
      forUp_ 0 m fun i => do
        let b ← B.get i j
        C.modify i j (fun c => beta.mulAdd c (b * alphaTimesAjj))
      forUp_ 0 j fun k => do
        let a ← A.get j k
        let alphaTimesAjk := alpha * f a
        forUp_ 0 m fun i => do
          let b ← B.get i k
          C.modify i j (· + b * alphaTimesAjk)
      forUp_ (j + 1) n fun k => do
        let a ← A.get k j
        let alphaTimesAkj := alpha * a
        forUp_ 0 m fun i => do
          let b ← B.get i k
          C.modify i j (· + b * alphaTimesAkj)

/-- Checks of hemm.hpp:81-87 and symm.hpp:79-85. -/
def hemmChecks (side : Side) (uplo : Uplo) (A B C : MatV L) : M L T Unit := do
  check (!(side ≠ .Left && side ≠ .Right))
  check (!notTriGen uplo)
  check (!(A.m ≠ A.n : Bool))
  check (!(A.m ≠ (if side = .Left then B.m else B.n) : Bool))
  check (!(C.m ≠ B.m : Bool))
  check (!(C.n ≠ B.n : Bool))

/-- blas/hemm.hpp:63-174. -/
def hemm [Zero T] [Add T] [Mul T] [Star T] [ReIm T] (side : Side) (uplo : Uplo) (alpha : T)
    (A B : MatV L) (beta : Coef T) (C : MatV L) : M L T Unit := do
  hemmChecks side uplo A B C
  if side = .Left then hemmL star re uplo alpha A B beta C B.m B.n
  else hemmR star re uplo alpha A B beta C B.m B.n

/-- blas/symm.hpp:61-172. -/
def symm [Zero T] [Add T] [Mul T] (side : Side) (uplo : Uplo) (alpha : T)
    (A B : MatV L) (beta : Coef T) (C : MatV L) : M L T Unit := do
  hemmChecks side uplo A B C
  if side = .Left then hemmL id id uplo alpha A B beta C B.m B.n
  else hemmR id id uplo alpha A B beta C B.m B.n

/-- `for j, for i in j+1..n: C(i,j) = f(C(j,i))`: herk.hpp:162-167, her2k.hpp:187-192
(`f = conj`), syrk.hpp:132-137, syr2k.hpp:150-155 (`f = id`). -/
def mirror (f : T → T) (C : MatV L) (n : Nat) : M L T Unit :=
  forUp_ 0 n fun j =>
    forUp_ (j + 1) n fun i => do
      let c ← C.get j i
      C.set i j (f c)

/-- blas/herk.hpp:68-168. -/
def herk [Zero T] [Add T] [Mul T] [Sub T] [Star T] [ReIm T] (uplo : Uplo) (trans : Op) (alpha : T)
    (A : MatV L) (beta : Coef T) (C : MatV L) : M L T Unit := do
  let n := if trans = .NoTrans then A.m else A.n
  let k := if trans = .NoTrans then A.n else A.m
  check (!notTriGen uplo)
  check (!(trans ≠ .NoTrans && trans ≠ .ConjTrans))
  check (!(C.m ≠ C.n : Bool))
  check (!(C.m ≠ n : Bool))
  if trans = .NoTrans then
    if uplo ≠ .Lower then
      forUp_ 0 n fun j => do
        forUp_ 0 j fun i => C.modify i j (fun c => beta.mulAssign c)
        C.modify j j (fun c => beta.mulVal (re c))
        forUp_ 0 k fun l => do
          let ajl ← A.get j l
          let alphaConjAjl := alpha * star ajl
          forUp_ 0 j fun i => do
            let ail ← A.get i l
            C.modify i j (· + ail * alphaConjAjl)
          C.modify j j (· + (re ajl * re alphaConjAjl - im ajl * im alphaConjAjl))
    else
      forUp_ 0 n fun j => do
        C.modify j j (fun c => beta.mulVal (re c))
        forUp_ (j + 1) n fun i => C.modify i j (fun c => beta.mulAssign c)
        forUp_ 0 k fun l => do
          let ajl ← A.get j l
          let alphaConjAjl := alpha * star ajl
          C.modify j j (· + (re ajl * re alphaConjAjl - im ajl * im alphaConjAjl))
          forUp_ (j + 1) n fun i => do
            let ail ← A.get i l
            C.modify i j (· + ail * alphaConjAjl)
  else
    if uplo ≠ .Lower then
      forUp_ 0 n fun j => do
        forUp_ 0 j fun i => do
          let sum ← forUp 0 k 0 fun l sum => do
            let ali ← A.get l i
            let alj ← A.get l j
            pure (sum + star ali * alj)
          C.modify i j (fun c => beta.addMul (alpha * sum) c)
        let sum ← forUp 0 k 0 fun l sum => do
          let alj ← A.get l j
          pure (sum + (re alj * re alj + im alj * im alj))
        C.modify j j (fun c => beta.addMul (alpha * sum) (re c))
    else
      forUp_ 0 n fun j => do
        forUp_ (j + 1) n fun i => do
          let sum ← forUp 0 k 0 fun l sum => do
            let ali ← A.get l i
            let alj ← A.get l j
            pure (sum + star ali * alj)
          C.modify i j (fun c => beta.addMul (alpha * sum) c)
        let sum ← forUp 0 k 0 fun l sum => do
          let alj ← A.get l j
          pure (sum + (re alj * re alj + im alj * im alj))
        C.modify j j (fun c => beta.addMul (alpha * sum) (re c))
  if uplo = .General then mirror star C n else pure ()

/-- blas/syrk.hpp:59-138. -/
def syrk [Zero T] [Add T] [Mul T] (uplo : Uplo) (trans : Op) (alpha : T)
    (A : MatV L) (beta : Coef T) (C : MatV L) : M L T Unit := do
  let n := if trans = .NoTrans then A.m else A.n
  let k := if trans = .NoTrans then A.n else A.m
  check (!notTriGen uplo)
  check (!(trans ≠ .NoTrans && trans ≠ .Trans))
  check (!(C.m ≠ C.n : Bool))
  check (!(C.m ≠ n : Bool))
  if trans = .NoTrans then
    if uplo ≠ .Lower then
      forUp_ 0 n fun j => do
        forUp_ 0 (j + 1) fun i => C.modify i j (fun c => beta.mulAssign c)
        forUp_ 0 k fun l => do
          let ajl ← A.get j l
          let alphaAjl := alpha * ajl
          forUp_ 0 (j + 1) fun i => do
            let ail ← A.get i l
            C.modify i j (· + ail * alphaAjl)
    else
      forUp_ 0 n fun j => do
        forUp_ j n fun i => C.modify i j (fun c => beta.mulAssign c)
        forUp_ 0 k fun l => do
          let ajl ← A.get j l
          let alphaAjl := alpha * ajl
          forUp_ j n fun i => do
            let ail ← A.get i l
            C.modify i j (· + ail * alphaAjl)
  else
    if uplo ≠ .Lower then
      forUp_ 0 n fun j =>
        forUp_ 0 (j + 1) fun i => do
          let sum ← forUp 0 k 0 fun l sum => do
            let ali ← A.get l i
            let alj ← A.get l j
            pure (sum + ali * alj)
          C.modify i j (fun c => beta.addMul (alpha * sum) c)
    else
      forUp_ 0 n fun j =>
        forUp_ j n fun i => do
          let sum ← forUp 0 k 0 fun l sum => do
            let ali ← A.get l i
            let alj ← A.get l j
            pure (sum + ali * alj)
          C.modify i j (fun c => beta.addMul (alpha * sum) c)
  if uplo = .General then mirror id C n else pure ()

/-- blas/her2k.hpp:72-193. -/
def her2k [Zero T] [Add T] [Mul T] [Sub T] [Star T] [ReIm T] [OfNat T 2] (uplo : Uplo) (trans : Op)
    (alpha : T) (A B : MatV L) (beta : Coef T) (C : MatV L) : M L T Unit := do
  let n := if trans = .NoTrans then A.m else A.n
  let k := if trans = .NoTrans then A.n else A.m
  check (!notTriGen uplo)
  check (!(trans ≠ .NoTrans && trans ≠ .ConjTrans))
  check (!(B.m ≠ A.m || B.n ≠ A.n))
  check (!(C.m ≠ C.n : Bool))
  check (!(C.m ≠ n : Bool))
  if trans = .NoTrans then
    if uplo ≠ .Lower then
      forUp_ 0 n fun j => do
        forUp_ 0 j fun i => C.modify i j (fun c => beta.mulAssign c)
        C.modify j j (fun c => beta.mulVal (re c))
        forUp_ 0 k fun l => do
          let bjl ← B.get j l
          let ajl ← A.get j l
          let alphaConjBjl := alpha * star bjl
          let conjAlphaAjl := star (alpha * ajl)
          forUp_ 0 j fun i => do
            let ail ← A.get i l
            let bil ← B.get i l
            C.modify i j (· + (ail * alphaConjBjl + bil * conjAlphaAjl))
          C.modify j j (· + 2 * (re ajl * re alphaConjBjl - im ajl * im alphaConjBjl))
    else
      forUp_ 0 n fun j => do
        C.modify j j (fun c => beta.mulVal (re c))
        forUp_ (j + 1) n fun i => C.modify i j (fun c => beta.mulAssign c)
        forUp_ 0 k fun l => do
          let bjl ← B.get j l
          let ajl ← A.get j l
          let alphaConjBjl := alpha * star bjl
          let conjAlphaAjl := star (alpha * ajl)
          C.modify j j (· + 2 * (re ajl * re alphaConjBjl - im ajl * im alphaConjBjl))
          forUp_ (j + 1) n fun i => do
            let ail ← A.get i l
            let bil ← B.get i l
            C.modify i j (· + (ail * alphaConjBjl + bil * conjAlphaAjl))
  else
    if uplo ≠ .Lower then
      forUp_ 0 n fun j =>
        forUp_ 0 (j + 1) fun i => do
          let (sum1, sum2) ← forUp 0 k ((0 : T), (0 : T)) fun l (sum1, sum2) => do
            let ali ← A.get l i
            let blj ← B.get l j
            let bli ← B.get l i
            let alj ← A.get l j
            pure (sum1 + star ali * blj, sum2 + star bli * alj)
          C.modify i j (fun c =>
            if i < j then beta.addMul (alpha * sum1 + star alpha * sum2) c
            else beta.addMul (re alpha * re sum1 - im alpha * im sum1 +
              re alpha * re sum2 + im alpha * im sum2) (re c))
    else
      forUp_ 0 n fun j =>
        forUp_ j n fun i => do
          let (sum1, sum2) ← forUp 0 k ((0 : T), (0 : T)) fun l (sum1, sum2) => do
            let ali ← A.get l i
            let blj ← B.get l j
            let bli ← B.get l i
            let alj ← A.get l j
            pure (sum1 + star ali * blj, sum2 + star bli * alj)
          C.modify i j (fun c =>
            if i > j then beta.addMul (alpha * sum1 + star alpha * sum2) c
            else beta.addMul (re alpha * re sum1 - im alpha * im sum1 +
              re alpha * re sum2 + im alpha * im sum2) (re c))
  if uplo = .General then mirror star C n else pure ()

/-- blas/syr2k.hpp:64-156. -/
def syr2k [Zero T] [Add T] [Mul T] (uplo : Uplo) (trans : Op)
    (alpha : T) (A B : MatV L) (beta : Coef T) (C : MatV L) : M L T Unit := do
  let n := if trans = .NoTrans then A.m else A.n
  let k := if trans = .NoTrans then A.n else A.m
  check (!notTriGen uplo)
  check (!(trans ≠ .NoTrans && trans ≠ .Trans))
  check (!(B.m ≠ A.m || B.n ≠ A.n))
  check (!(C.m ≠ C.n : Bool))
  check (!(C.m ≠ n : Bool))
  if trans = .NoTrans then
    if uplo ≠ .Lower then
      forUp_ 0 n fun j => do
        forUp_ 0 (j + 1) fun i => C.modify i j (fun c => beta.mulAssign c)
        forUp_ 0 k fun l => do
          let bjl ← B.get j l
          let ajl ← A.get j l
          let alphaBjl := alpha * bjl
          let alphaAjl := alpha * ajl
          forUp_ 0 (j + 1) fun i => do
            let ail ← A.get i l
            let bil ← B.get i l
            C.modify i j (· + (ail * alphaBjl + bil * alphaAjl))
    else
      forUp_ 0 n fun j => do
        forUp_ j n fun i => C.modify i j (fun c => beta.mulAssign c)
        forUp_ 0 k fun l => do
          let bjl ← B.get j l
          let ajl ← A.get j l
          let alphaBjl := alpha * bjl
          let alphaAjl := alpha * ajl
          forUp_ j n fun i => do
            let ail ← A.get i l
            let bil ← B.get i l
            C.modify i j (· + (ail * alphaBjl + bil * alphaAjl))
  else
    if uplo ≠ .Lower then
      forUp_ 0 n fun j =>
        forUp_ 0 (j + 1) fun i => do
          let (sum1, sum2) ← forUp 0 k ((0 : T), (0 : T)) fun l (sum1, sum2) => do
            let ali ← A.get l i
            let blj ← B.get l j
            let bli ← B.get l i
            let alj ← A.get l j
            pure (sum1 + ali * blj, sum2 + bli * alj)
          C.modify i j (fun c => beta.addMul (alpha * sum1 + alpha * sum2) c)
    else
      forUp_ 0 n fun j =>
        forUp_ j n fun i => do
          let (sum1, sum2) ← forUp 0 k ((0 : T), (0 : T)) fun l (sum1, sum2) => do
            let ali ← A.get l i
            let blj ← B.get l j
            let bli ← B.get l i
            let alj ← A.get l j
            pure (sum1 + ali * blj, sum2 + bli * alj)
          C.modify i j (fun c => beta.addMul (alpha * sum1 + alpha * sum2) c)
  if uplo = .General then mirror id C n else pure ()

/-- trmm.hpp:99-123. -/
def trmmLN [Add T] [Mul T] (uplo : Uplo) (diag : Diag) (alpha : T) (A B : MatV L) (m n : Nat) :
    M L T Unit :=
  if uplo = .Upper then
    forUp_ 0 n fun j =>
      forUp_ 0 m fun k => do
        let bkj ← B.get k j
        let alphaBkj := alpha * bkj
        forUp_ 0 k fun i => do
          let a ← A.get i k
          B.modify i j (· + a * alphaBkj)
        if diag = .NonUnit then do
          let a ← A.get k k
          B.set k j (a * alphaBkj)
        else B.set k j alphaBkj
  else
    forUp_ 0 n fun j =>
      forDown_ 0 m fun k => do
        let bkj ← B.get k j
        let alphaBkj := alpha * bkj
        if diag = .NonUnit then do
          let a ← A.get k k
          B.set k j (a * alphaBkj)
        else B.set k j alphaBkj
        forUp_ (k + 1) m fun i => do
          let a ← A.get i k
          B.modify i j (· + a * alphaBkj)

/-- trmm.hpp:126-149 (`f = id`), 153-176 (`f = conj`). -/
def trmmLT [Add T] [Mul T] (f : T → T) (uplo : Uplo) (diag : Diag) (alpha : T) (A B : MatV L)
    (m n : Nat) : M L T Unit :=
  if uplo = .Upper then
    forUp_ 0 n fun j =>
      forDown_ 0 m fun i => do
        let bij ← B.get i j
        let sum ← if diag = .NonUnit then do
            let a ← A.get i i
            pure (f a * bij)
          else pure bij
        let sum ← forUp 0 i sum fun k sum => do
          let a ← A.get k i
          let b ← B.get k j
          pure (sum + f a * b)
        B.set i j (alpha * sum)
  else
    forUp_ 0 n fun j =>
      forUp_ 0 m fun i => do
        let bij ← B.get i j
        let sum ← if diag = .NonUnit then do
            let a ← A.get i i
            pure (f a * bij)
          else pure bij
        let sum ← forUp (i + 1) m sum fun k sum => do
          let a ← A.get k i
          let b ← B.get k j
          pure (sum + f a * b)
        B.set i j (alpha * sum)

/-- trmm.hpp:181-212. -/
def trmmRN [Add T] [Mul T] (uplo : Uplo) (diag : Diag) (alpha : T) (A B : MatV L) (m n : Nat) :
    M L T Unit :=
  if uplo = .Upper then
    forDown_ 0 n fun j => do
      let alphaAjj ← if diag = .NonUnit then do
          let a ← A.get j j
          pure (alpha * a)
        else pure alpha
      forUp_ 0 m fun i => B.modify i j (· * alphaAjj)
      forUp_ 0 j fun k => do
        let a ← A.get k j
        let alphaAkj := alpha * a
        forUp_ 0 m fun i => do
          let b ← B.get i k
          B.modify i j (· + b * alphaAkj)
  else
    forUp_ 0 n fun j => do
      let alphaAjj ← if diag = .NonUnit then do
          let a ← A.get j j
          pure (alpha * a)
        else pure alpha
      forUp_ 0 m fun i => B.modify i j (· * alphaAjj)
      forUp_ (j + 1) n fun k => do
        let a ← A.get k j
        let alphaAkj := alpha * a
        forUp_ 0 m fun i => do
          let b ← B.get i k
          B.modify i j (· + b * alphaAkj)

/-- trmm.hpp:213-244 (`f = id`), 245-278 (`f = conj`). -/
def trmmRT [Add T] [Mul T] (f : T → T) (uplo : Uplo) (diag : Diag) (alpha : T) (A B : MatV L)
    (m n : Nat) : M L T Unit :=
  if uplo = .Upper then
    forUp_ 0 n fun k => do
      forUp_ 0 k fun j => do
        let a ← A.get j k
        let alphaAjk := alpha * f a
        forUp_ 0 m fun i => do
          let b ← B.get i k
          B.modify i j (· + b * alphaAjk)
      let alphaAkk ← if diag = .NonUnit then do
          let a ← A.get k k
          pure (alpha * f a)
        else pure alpha
      forUp_ 0 m fun i => B.modify i k (· * alphaAkk)
  else
    forDown_ 0 n fun k => do
      forUp_ (k + 1) n fun j => do
        let a ← A.get j k
        let alphaAjk := alpha * f a
        forUp_ 0 m fun i => do
          let b ← B.get i k
          B.modify i j (· + b * alphaAjk)
      let alphaAkk ← if diag = .NonUnit then do
          let a ← A.get k k
          pure (alpha * f a)
        else pure alpha
      forUp_ 0 m fun i => B.modify i k (· * alphaAkk)

/-- Checks of trmm.hpp:90-96 and trsm.hpp:93-99. -/
def trmmChecks (side : Side) (uplo : Uplo) (trans : Op) (A B : MatV L) : M L T Unit := do
  check (!(side ≠ .Left && side ≠ .Right))
  check (!notTri uplo)
  check (!(trans ≠ .NoTrans && trans ≠ .Trans && trans ≠ .ConjTrans))
  check (!(A.m ≠ A.n : Bool))
  check (!(A.m ≠ (if side = .Left then B.m else B.n) : Bool))

/-- blas/trmm.hpp:72-280. -/
def trmm [Add T] [Mul T] [Star T] (side : Side) (uplo : Uplo) (trans : Op) (diag : Diag)
    (alpha : T) (A B : MatV L) : M L T Unit := do
  trmmChecks side uplo trans A B
  if side = .Left then
    match trans with
    | .NoTrans => trmmLN uplo diag alpha A B B.m B.n
    | .Trans => trmmLT id uplo diag alpha A B B.m B.n
    | _ => trmmLT star uplo diag alpha A B B.m B.n
  else
    match trans with
    | .NoTrans => trmmRN uplo diag alpha A B B.m B.n
    | .Trans => trmmRT id uplo diag alpha A B B.m B.n
    | _ => trmmRT star uplo diag alpha A B B.m B.n

/-- trsm.hpp:103-126. -/
def trsmLN [Mul T] [Sub T] [Div T] (uplo : Uplo) (diag : Diag) (alpha : T) (A B : MatV L)
    (m n : Nat) : M L T Unit :=
  if uplo = .Upper then
    forUp_ 0 n fun j => do
      forUp_ 0 m fun i => B.modify i j (· * alpha)
      forDown_ 0 m fun k => do
        if diag = .NonUnit then do
          let a ← A.get k k
          B.modify k j (· / a)
        forUp_ 0 k fun i => do
          let a ← A.get i k
          let b ← B.get k j
          B.modify i j (· - a * b)
  else
    forUp_ 0 n fun j => do
      forUp_ 0 m fun i => B.modify i j (· * alpha)
      forUp_ 0 m fun k => do
        if diag = .NonUnit then do
          let a ← A.get k k
          B.modify k j (· / a)
        forUp_ (k + 1) m fun i => do
          let a ← A.get i k
          let b ← B.get k j
          B.modify i j (· - a * b)

/-- trsm.hpp:127-148 (`f = id`), 149-172 (`f = conj`). -/
def trsmLT [Mul T] [Sub T] [Div T] (f : T → T) (uplo : Uplo) (diag : Diag) (alpha : T)
    (A B : MatV L) (m n : Nat) : M L T Unit :=
  if uplo = .Upper then
    forUp_ 0 n fun j =>
      forUp_ 0 m fun i => do
        let bij ← B.get i j
        let sum ← forUp 0 i (alpha * bij) fun k sum => do
          let a ← A.get k i
          let b ← B.get k j
          pure (sum - f a * b)
        if diag = .NonUnit then do
          let a ← A.get i i
          B.set i j (sum / f a)
        else B.set i j sum
  else
    forUp_ 0 n fun j =>
      forDown_ 0 m fun i => do
        let bij ← B.get i j
        let sum ← forUp (i + 1) m (alpha * bij) fun k sum => do
          let a ← A.get k i
          let b ← B.get k j
          pure (sum - f a * b)
        if diag = .NonUnit then do
          let a ← A.get i i
          B.set i j (sum / f a)
        else B.set i j sum

/-- trsm.hpp:175-204. -/
def trsmRN [Mul T] [Sub T] [Div T] (uplo : Uplo) (diag : Diag) (alpha : T) (A B : MatV L)
    (m n : Nat) : M L T Unit :=
  if uplo = .Upper then
    forUp_ 0 n fun j => do
      forUp_ 0 m fun i => B.modify i j (· * alpha)
      forUp_ 0 j fun k =>
        forUp_ 0 m fun i => do
          let b ← B.get i k
          let a ← A.get k j
          B.modify i j (· - b * a)
      if diag = .NonUnit then
        forUp_ 0 m fun i => do
          let a ← A.get j j
          B.modify i j (· / a)
  else
    forDown_ 0 n fun j => do
      forUp_ 0 m fun i => B.modify i j (· * alpha)
      forUp_ (j + 1) n fun k =>
        forUp_ 0 m fun i => do
          let b ← B.get i k
          let a ← A.get k j
          B.modify i j (· - b * a)
      if diag = .NonUnit then
        forUp_ 0 m fun i => do
          let a ← A.get j j
          B.modify i j (· / a)

/-- trsm.hpp:205-234 (`f = id`), 235-264 (`f = conj`). -/
def trsmRT [Mul T] [Sub T] [Div T] (f : T → T) (uplo : Uplo) (diag : Diag) (alpha : T)
    (A B : MatV L) (m n : Nat) : M L T Unit :=
  if uplo = .Upper then
    forDown_ 0 n fun k => do
      if diag = .NonUnit then
        forUp_ 0 m fun i => do
          let a ← A.get k k
          B.modify i k (· / f a)
      forUp_ 0 k fun j =>
        forUp_ 0 m fun i => do
          let b ← B.get i k
          let a ← A.get j k
          B.modify i j (· - b * f a)
      forUp_ 0 m fun i => B.modify i k (· * alpha)
  else
    forUp_ 0 n fun k => do
      if diag = .NonUnit then
        forUp_ 0 m fun i => do
          let a ← A.get k k
          B.modify i k (· / f a)
      forUp_ (k + 1) n fun j =>
        forUp_ 0 m fun i => do
          let b ← B.get i k
          let a ← A.get j k
          B.modify i j (· - b * f a)
      forUp_ 0 m fun i => B.modify i k (· * alpha)

/-- blas/trsm.hpp:76-266. -/
def trsm [Mul T] [Sub T] [Div T] [Star T] (side : Side) (uplo : Uplo) (trans : Op) (diag : Diag)
    (alpha : T) (A B : MatV L) : M L T Unit := do
  trmmChecks side uplo trans A B
  if side = .Left then
    match trans with
    | .NoTrans => trsmLN uplo diag alpha A B B.m B.n
    | .Trans => trsmLT id uplo diag alpha A B B.m B.n
    | _ => trsmLT star uplo diag alpha A B B.m B.n
  else
    match trans with
    | .NoTrans => trsmRN uplo diag alpha A B B.m B.n
    | .Trans => trsmRT id uplo diag alpha A B B.m B.n
    | _ => trsmRT star uplo diag alpha A B B.m B.n

end TLA
