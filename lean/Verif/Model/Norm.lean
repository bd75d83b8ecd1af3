import Verif.Model.House

/-!
# Model of the matrix norms

lange, lansy, lanhe, lantr and the workspace variants infnorm_colmajor, infnorm_symmetric_colmajor,
infnorm_hermitian_colmajor, infnorm_triangular_colmajor.

The max, one and infinity norms only use the operations `NOps` of the real type, so that a type with
NaN and infinities is an instance; the Frobenius norm goes through lassq.
-/

namespace TLA
variable {L T : Type} [DecidableEq L]

/-- `enum class Norm` (base/types.hpp:308-314). -/
inductive Norm where
  | One | Two | Inf | Fro | Max
  deriving DecidableEq, Repr

/-- Operations on the real type `R` of the scalar type `T`: constants, `+`, `>`, `isnan`, `abs(x)` and
`abs(real(x))`. -/
structure NOps (T R : Type) where
  zero : R
  one : R
  add : R → R → R
  gt : R → R → Bool
  isnan : R → Bool
  abs : T → R
  absRe : T → R

section nops
variable {R : Type}

/-- `if (temp > norm) norm = temp; else { if (isnan(temp)) return temp; }`
(lapack/lange.hpp:63-67 and all its copies); `inr` is the early return. -/
def normUpd (o : NOps T R) (norm temp : R) : R ⊕ R :=
  if o.gt temp norm then .inl temp
  else if o.isnan temp then .inr temp
  else .inl norm

/-- `for (i = lo; i < hi; ++i) { temp = f(i); update }` inside a column or row loop. -/
def maxLoop (o : NOps T R) (lo hi : Nat) (norm : R) (f : Nat → M L T R) : M L T (R ⊕ R) :=
  forRet lo hi norm fun i norm => do
    let temp ← f i
    pure (normUpd o norm temp)

/-- The returned value. -/
def normRet (r : R ⊕ R) : R :=
  match r with
  | .inl norm => norm
  | .inr v => v

/-- `for (i = lo; i < hi; ++i) sum += abs(A(..))`. -/
def sumLoop (o : NOps T R) (lo hi : Nat) (sum : R) (f : Nat → M L T T) : M L T R :=
  forUp lo hi sum fun i sum => do
    let a ← f i
    pure (o.add sum (o.abs a))

/-- `norm_t` other than Fro, Inf, Max, One is rejected (lapack/lange.hpp:49-50, lantr.hpp:64-65,
lansy.hpp:54-55, lanhe.hpp:54-55). -/
def normOK (nt : Norm) : Bool :=
  match nt with
  | .Two => false
  | _ => true

/-- `abs(A(i, j))`. -/
def getAbs (o : NOps T R) (A : MatV L) (i j : Nat) : M L T R := do
  let a ← A.get i j
  pure (o.abs a)

/-- `abs(real(A(i, j)))`. -/
def getAbsRe (o : NOps T R) (A : MatV L) (i j : Nat) : M L T R := do
  let a ← A.get i j
  pure (o.absRe a)

/-- Maximum absolute value over `lo j ≤ i < hi j` (lapack/lange.hpp:59-69, lantr.hpp:78-89, 91-102,
107-118, 120-131, lansy.hpp:66-76, 79-89). -/
def maxRegion (o : NOps T R) (A : MatV L) (n : Nat) (norm : R) (lo hi : Nat → Nat) : M L T R := do
  let r ← forRet 0 n norm fun j norm => maxLoop o (lo j) (hi j) norm fun i => getAbs o A i j
  pure (normRet r)

/-- lange (lapack/lange.hpp:38-105); `fro` is the Frobenius branch. -/
def langeG (o : NOps T R) (fro : M L T R) (nt : Norm) (A : MatV L) : M L T R := do
  let m := A.m
  let n := A.n
  check (normOK nt)
  if m = 0 ∨ n = 0 then pure o.zero
  else
    match nt with
    | .Max => maxRegion o A n o.zero (fun _ => 0) (fun _ => m)
    | .Inf => do
      let r ← maxLoop o 0 m o.zero fun i => sumLoop o 0 n o.zero fun j => A.get i j
      pure (normRet r)
    | .One => do
      let r ← maxLoop o 0 n o.zero fun j => sumLoop o 0 m o.zero fun i => A.get i j
      pure (normRet r)
    | _ => fro

/-- Row sum of lantr (lapack/lantr.hpp:137-145, 156-164). -/
def lantrRow (o : NOps T R) (uplo : Uplo) (diag : Diag) (A : MatV L) (n i : Nat) : M L T R :=
  if uplo = .Upper then
    if diag = .NonUnit then sumLoop o i n o.zero fun j => A.get i j
    else sumLoop o (i + 1) n o.one fun j => A.get i j
  else
    if diag = .NonUnit ∨ i ≥ n then sumLoop o 0 (min i (n - 1) + 1) o.zero fun j => A.get i j
    else sumLoop o 0 i o.one fun j => A.get i j

/-- Column sum of lantr (lapack/lantr.hpp:177-185, 196-204). -/
def lantrCol (o : NOps T R) (uplo : Uplo) (diag : Diag) (A : MatV L) (m j : Nat) : M L T R :=
  if uplo = .Upper then
    if diag = .NonUnit ∨ j ≥ m then sumLoop o 0 (min j (m - 1) + 1) o.zero fun i => A.get i j
    else sumLoop o 0 j o.one fun i => A.get i j
  else
    if diag = .NonUnit then sumLoop o j m o.zero fun i => A.get i j
    else sumLoop o (j + 1) m o.one fun i => A.get i j

/-- The max norm of lantr (lapack/lantr.hpp:75-133). -/
def lantrMax (o : NOps T R) (uplo : Uplo) (diag : Diag) (A : MatV L) (m n : Nat) : M L T R :=
  if diag = .NonUnit then
    if uplo = .Upper then maxRegion o A n o.zero (fun _ => 0) (fun j => min j (m - 1) + 1)
    else maxRegion o A n o.zero (fun j => j) (fun _ => m)
  else
    if uplo = .Upper then maxRegion o A n o.one (fun _ => 0) (fun j => min j m)
    else maxRegion o A n o.one (fun j => j + 1) (fun _ => m)

/-- lantr (lapack/lantr.hpp:52-243). -/
def lantrG (o : NOps T R) (fro : M L T R) (nt : Norm) (uplo : Uplo) (diag : Diag) (A : MatV L) :
    M L T R := do
  let m := A.m
  let n := A.n
  check (normOK nt)
  check (!(uplo ≠ .Lower ∧ uplo ≠ .Upper : Bool))
  if m = 0 ∨ n = 0 then pure o.zero
  else
    match nt with
    | .Max => lantrMax o uplo diag A m n
    | .Inf => do
      let r ← maxLoop o 0 m o.zero fun i => lantrRow o uplo diag A n i
      pure (normRet r)
    | .One => do
      let r ← maxLoop o 0 n o.zero fun j => lantrCol o uplo diag A m j
      pure (normRet r)
    | _ => fro

/-- One row/column sum of lansy (lapack/lansy.hpp:95-101, 112-118). -/
def lansySum (o : NOps T R) (uplo : Uplo) (A : MatV L) (n j : Nat) : M L T R :=
  if uplo = .Upper then do
    let s ← sumLoop o 0 (j + 1) o.zero fun i => A.get i j
    sumLoop o (j + 1) n s fun i => A.get j i
  else do
    let s ← sumLoop o 0 (j + 1) o.zero fun i => A.get j i
    sumLoop o (j + 1) n s fun i => A.get i j

/-- lansy (lapack/lansy.hpp:43-151). -/
def lansyG (o : NOps T R) (fro : M L T R) (nt : Norm) (uplo : Uplo) (A : MatV L) : M L T R := do
  let n := A.m
  check (normOK nt)
  check (!(uplo ≠ .Lower ∧ uplo ≠ .Upper : Bool))
  if n = 0 then pure o.zero
  else
    match nt with
    | .Max =>
      if uplo = .Upper then maxRegion o A n o.zero (fun _ => 0) (fun j => j + 1)
      else maxRegion o A n o.zero (fun j => j) (fun _ => n)
    | .Fro => fro
    | _ => do
      let r ← maxLoop o 0 n o.zero fun j => lansySum o uplo A n j
      pure (normRet r)

/-- One column of the max norm of lanhe, Upper (lapack/lanhe.hpp:67-84). -/
def lanheMaxU (o : NOps T R) (A : MatV L) (j : Nat) (norm : R) : M L T (R ⊕ R) := do
  let r ← maxLoop o 0 j norm fun i => getAbs o A i j
  match r with
  | .inr v => pure (.inr v)
  | .inl norm => do
    let temp ← getAbsRe o A j j
    pure (normUpd o norm temp)

/-- One column of the max norm of lanhe, Lower (lapack/lanhe.hpp:89-106). -/
def lanheMaxL (o : NOps T R) (A : MatV L) (n j : Nat) (norm : R) : M L T (R ⊕ R) := do
  let temp ← getAbsRe o A j j
  match normUpd o norm temp with
  | .inr v => pure (.inr v)
  | .inl norm => maxLoop o (j + 1) n norm fun i => getAbs o A i j

/-- One row/column sum of lanhe (lapack/lanhe.hpp:113-121, 132-140). -/
def lanheSum (o : NOps T R) (uplo : Uplo) (A : MatV L) (n j : Nat) : M L T R :=
  if uplo = .Upper then do
    let s ← sumLoop o 0 j o.zero fun i => A.get i j
    let d ← getAbsRe o A j j
    sumLoop o (j + 1) n (o.add s d) fun i => A.get j i
  else do
    let s ← sumLoop o 0 j o.zero fun i => A.get j i
    let d ← getAbsRe o A j j
    sumLoop o (j + 1) n (o.add s d) fun i => A.get i j

/-- lanhe (lapack/lanhe.hpp:43-175). -/
def lanheG (o : NOps T R) (fro : M L T R) (nt : Norm) (uplo : Uplo) (A : MatV L) : M L T R := do
  let n := A.m
  check (normOK nt)
  check (!(uplo ≠ .Lower ∧ uplo ≠ .Upper : Bool))
  if n = 0 then pure o.zero
  else
    match nt with
    | .Max => do
      let r ← forRet 0 n o.zero fun j norm =>
        if uplo = .Upper then lanheMaxU o A j norm else lanheMaxL o A n j norm
      pure (normRet r)
    | .Fro => fro
    | _ => do
      let r ← maxLoop o 0 n o.zero fun j => lanheSum o uplo A n j
      pure (normRet r)

end nops

/-! ### Workspace variants

The entries of the workspace hold real numbers; `real_t temp = w[i]` only compiles when the scalar type
is real, hence `R = T` here. -/

section infnorm

/-- The final loop over `w` (lapack/infnorm_colmajor.hpp:67-75, infnorm_triangular_colmajor.hpp:128-136,
infnorm_symmetric_colmajor.hpp:84-91). -/
def maxW (o : NOps T T) (w : VecV L) (m : Nat) : M L T T := do
  let r ← maxLoop o 0 m o.zero fun i => w.get i
  pure (normRet r)

/-- `for (i = lo; i < hi; ++i) w[i] += abs(A(i, j))`. -/
def addAbsCol (o : NOps T T) (A : MatV L) (w : VecV L) (j lo hi : Nat) : M L T Unit :=
  forUp_ lo hi fun i => do
    let a ← A.get i j
    w.modify i (fun v => o.add v (o.abs a))

/-- infnorm_colmajor_work (lapack/infnorm_colmajor.hpp:40-78). -/
def infnormColmajor (o : NOps T T) (A : MatV L) (work : VecV L) : M L T T := do
  let m := A.m
  let n := A.n
  if m = 0 ∨ n = 0 then pure o.zero
  else do
    let w ← reshapeW work m
    forUp_ 0 m fun i => do
      let a ← A.get i 0
      w.set i (o.abs a)
    forUp_ 1 n fun j => addAbsCol o A w j 0 m
    maxW o w m

/-- The column loops of infnorm_triangular_colmajor_work (lapack/infnorm_triangular_colmajor.hpp:84-126). -/
def infnormTriSums (o : NOps T T) (uplo : Uplo) (diag : Diag) (A : MatV L) (w : VecV L) (m n : Nat) :
    M L T Unit := do
  forUp_ 0 n fun i => w.set i o.zero
  if uplo = .Upper then
    if diag = .NonUnit then do
      forUp_ 0 m fun i => w.set i o.zero
      forUp_ 0 n fun j => addAbsCol o A w j 0 (min j (m - 1) + 1)
    else do
      forUp_ 0 m fun i => w.set i o.one
      forUp_ 1 n fun j => addAbsCol o A w j 0 (min j m)
  else
    if diag = .NonUnit then do
      forUp_ 0 m fun i => w.set i o.zero
      forUp_ 0 n fun j => addAbsCol o A w j j m
    else do
      forUp_ 0 (min m n) fun i => w.set i o.one
      forUp_ n m fun i => w.set i o.zero
      forUp_ 1 n fun j => addAbsCol o A w j (j + 1) m

/-- infnorm_triangular_colmajor_work (lapack/infnorm_triangular_colmajor.hpp:57-139). -/
def infnormTriangular (o : NOps T T) (uplo : Uplo) (diag : Diag) (A : MatV L) (work : VecV L) :
    M L T T := do
  check (!(uplo ≠ .Lower ∧ uplo ≠ .Upper : Bool))
  let m := A.m
  let n := A.n
  if m = 0 ∨ n = 0 then pure o.zero
  else do
    let w ← reshapeW work m
    infnormTriSums o uplo diag A w m n
    maxW o w m

/-- One column of the symmetric/Hermitian variant: `absa = abs(A(i,j)); sum += absa; w[i] += absa`
(lapack/infnorm_symmetric_colmajor.hpp:77-81, 96-100). -/
def symCol (o : NOps T T) (A : MatV L) (w : VecV L) (j lo hi : Nat) (sum : T) : M L T T :=
  forUp lo hi sum fun i sum => do
    let a ← A.get i j
    w.modify i (fun v => o.add v (o.abs a))
    pure (o.add sum (o.abs a))

/-- infnorm_symmetric_colmajor_work (lapack/infnorm_symmetric_colmajor.hpp:47-110) with
`absD = abs`, infnorm_hermitian_colmajor_work (lapack/infnorm_hermitian_colmajor.hpp:47-110) with
`absD = abs(real(.))`. -/
def infnormSym (o : NOps T T) (absD : T → T) (uplo : Uplo) (A : MatV L) (work : VecV L) : M L T T := do
  check (!(uplo ≠ .Lower ∧ uplo ≠ .Upper : Bool))
  let n := A.m
  if n = 0 then pure o.zero
  else do
    let w ← reshapeW work n
    forUp_ 0 n fun i => w.set i o.zero
    if uplo = .Upper then do
      forUp_ 0 n fun j => do
        let sum ← symCol o A w j 0 j o.zero
        let d ← A.get j j
        w.set j (o.add sum (absD d))
      maxW o w n
    else do
      let r ← maxLoop o 0 n o.zero fun j => do
        let s ← w.get j
        let d ← A.get j j
        symCol o A w j (j + 1) n (o.add s (absD d))
      pure (normRet r)

end infnorm

/-! ### Frobenius norms -/

section fro
variable [Zero T] [One T] [Add T] [Mul T] [Sub T] [Neg T] [Div T] [Star T] [ReIm T] [DecidableEq T]
variable {R : Type} [Field R] [LinearOrder R]

/-- The operations of `R` as seen by the other norms. -/
@[reducible] def HhOps.nops (o : HhOps T R) : NOps T R where
  zero := 0
  one := 1
  add a b := a + b
  gt a b := decide (a > b)
  isnan := o.isnanR
  abs := o.absR
  absRe x := o.absR (re x)

/-- `for (j = lo; j < hi; ++j) lassq(slice(A, range(a j, b j), j), scale, sum)` (lapack/lange.hpp:99-100,
lantr.hpp:219-236, lansy.hpp:133-140, lanhe.hpp:155-162). -/
def lassqCols (o : HhOps T R) (A : MatV L) (lo hi : Nat) (a b : Nat → Nat) (s : R × R) : M L T (R × R) :=
  forUp lo hi s fun j s => do
    let v ← A.sliceCol (a j) (b j) j
    lassq o v s.1 s.2

/-- The Frobenius branch of lange (lapack/lange.hpp:98-101). -/
def langeFro (o : HhOps T R) (A : MatV L) : M L T R := do
  let r ← lassqCols o A 0 A.n (fun _ => 0) (fun _ => A.m) (0, 1)
  pure (r.1 * o.sqrtR r.2)

/-- lange (lapack/lange.hpp:38-105). -/
def lange (o : HhOps T R) (nt : Norm) (A : MatV L) : M L T R := langeG o.nops (langeFro o A) nt A

/-- The Frobenius branch of lantr (lapack/lantr.hpp:215-239). -/
def lantrFro (o : HhOps T R) (uplo : Uplo) (diag : Diag) (A : MatV L) : M L T R := do
  let m := A.m
  let n := A.n
  let r ← (if uplo = .Upper then
      if diag = .NonUnit then lassqCols o A 0 n (fun _ => 0) (fun j => min (j + 1) m) (1, 0)
      else lassqCols o A 1 n (fun _ => 0) (fun j => min j m) (1, ((min m n : Nat) : R))
    else
      if diag = .NonUnit then lassqCols o A 0 (min m n) (fun j => j) (fun _ => m) (1, 0)
      else lassqCols o A 0 (min (m - 1) n) (fun j => j + 1) (fun _ => m) (1, ((min m n : Nat) : R)))
  pure (r.1 * o.sqrtR r.2)

/-- lantr (lapack/lantr.hpp:52-243). -/
def lantr (o : HhOps T R) (nt : Norm) (uplo : Uplo) (diag : Diag) (A : MatV L) : M L T R :=
  lantrG o.nops (lantrFro o uplo diag A) nt uplo diag A

/-- `diag(A, 0)` (plugins/legacyArray.hpp:530-542). -/
def MatV.diagv (A : MatV L) : VecV L := ⟨min A.m A.n, fun i => A.cell i i⟩

/-- The Frobenius branch of lansy (lapack/lansy.hpp:130-147) and lanhe (lapack/lanhe.hpp:152-171); they
differ in the absolute value used for the diagonal. -/
def lansyFro (o : HhOps T R) (absD : T → R) (uplo : Uplo) (A : MatV L) : M L T R := do
  let n := A.m
  let r ← (if uplo = .Upper then lassqCols o A 1 n (fun _ => 0) (fun j => j) (0, 1)
    else lassqCols o A 0 (n - 1) (fun j => j + 1) (fun _ => n) (0, 1))
  let r ← lassqF o absD A.diagv r.1 (r.2 * (1 + 1))
  pure (r.1 * o.sqrtR r.2)

/-- lansy (lapack/lansy.hpp:43-151). -/
def lansy (o : HhOps T R) (nt : Norm) (uplo : Uplo) (A : MatV L) : M L T R :=
  lansyG o.nops (lansyFro o o.absR uplo A) nt uplo A

/-- lanhe (lapack/lanhe.hpp:43-175). -/
def lanhe (o : HhOps T R) (nt : Norm) (uplo : Uplo) (A : MatV L) : M L T R :=
  lanheG o.nops (lansyFro o (fun x => o.absR (re x)) uplo A) nt uplo A

end fro
end TLA
