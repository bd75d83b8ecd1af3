import Verif.Model.Gelqt

/-!
# Model of geqrt3: recursive QR factorization with the triangular factor
-/

namespace TLA
variable {L T : Type} [DecidableEq L]
variable [Zero T] [One T] [Add T] [Mul T] [Sub T] [Neg T] [Div T] [Star T] [ReIm T] [DecidableEq T]
variable {R : Type} [Field R] [LinearOrder R]

/-- `A12(i, j) -= T12(i, j)` over the whole block (lapack/geqrt3.hpp:143-147). -/
def subInto (W C : MatV L) : M L T Unit :=
  forUp_ 0 W.n fun j => forUp_ 0 W.m fun i => do
    let w ← W.get i j
    C.modify i j (fun c => c - w)

/-- `T12(i, j) = conj(A21(j, i))` (lapack/geqrt3.hpp:153-160). -/
def conjInto (B W : MatV L) : M L T Unit :=
  forUp_ 0 W.n fun j => forUp_ 0 W.m fun i => do
    let b ← B.get j i
    W.set i j (star b)

/-- The update of the right half by the block reflector of the left half (lapack/geqrt3.hpp:112-147). -/
def geqrt3Mid (A11 A12 A21 A22 A31 A32 T11 T12 : MatV L) : M L T Unit := do
  lacpy .General A12 T12
  trmm .Left .Lower .ConjTrans .Unit 1 A11 T12
  gemm .ConjTrans .NoTrans 1 A21 A22 (.val 1) T12
  gemm .ConjTrans .NoTrans 1 A31 A32 (.val 1) T12
  trmm .Left .Upper .ConjTrans .NonUnit 1 T11 T12
  gemm .NoTrans .NoTrans (-1) A21 T12 (.val 1) A22
  gemm .NoTrans .NoTrans (-1) A31 T12 (.val 1) A32
  trmm .Left .Lower .NoTrans .Unit 1 A11 T12
  subInto T12 A12

/-- The off-diagonal block of the triangular factor (lapack/geqrt3.hpp:151-176). -/
def geqrt3Last (A21 A22 A31 A32 T11 T12 T22 : MatV L) : M L T Unit := do
  conjInto A21 T12
  trmm .Right .Lower .NoTrans .Unit 1 A22 T12
  gemm .ConjTrans .NoTrans 1 A31 A32 (.val 1) T12
  trmm .Left .Upper .NoTrans .NonUnit (-1) T11 T12
  trmm .Right .Upper .NoTrans .NonUnit 1 T22 T12

/-- geqrt3 (lapack/geqrt3.hpp:53-178).  `fuel` bounds the depth of the recursion (out of fuel would be an endless
recursion; the theorems show that `ncols(A)` is enough); `nb` is the block size and `work` the workspace geqrf chooses
and allocates itself. -/
def geqrt3F (o : HhOps T R) (nb nx : Nat) (work : VecV L) : Nat → Bool → MatV L → MatV L → M L T Unit
  | 0, _, _, _ => M.fail .diverge
  | fuel + 1, isw, A, Tm =>
    let m := A.m
    let n := A.n
    if m < n then pure ()
    else if n = 1 then do
      let v ← A.sliceCol 0 m 0
      let t ← larfgV o .Forward .Columnwise v
      Tm.set 0 0 t
    else if n ≤ nx then do
      let _ ← geqrf o nb A Tm.tdiag work
      let _ ← larft .Forward .Columnwise A Tm.tdiag Tm
      pure ()
    else do
      let n1 := n / 2
      let A1 ← A.slice 0 m 0 n1
      let A11 ← A.slice 0 n1 0 n1
      let A12 ← A.slice 0 n1 n1 n
      let A21 ← A.slice n1 n 0 n1
      let A22 ← A.slice n1 n n1 n
      let A2 ← A.slice n1 m n1 n
      let A31 ← A.slice n m 0 n1
      let A32 ← A.slice n m n1 n
      let T11 ← Tm.slice 0 n1 0 n1
      let T12 ← Tm.slice 0 n1 n1 n
      let T22 ← Tm.slice n1 n n1 n
      geqrt3F o nb nx work fuel false A1 T11
      geqrt3Mid A11 A12 A21 A22 A31 A32 T11 T12
      geqrt3F o nb nx work fuel isw A2 T22
      (if isw then pure () else geqrt3Last A21 A22 A31 A32 T11 T12 T22)

/-- The call: the recursion has depth at most `ncols(A) + 1`. -/
def geqrt3 (o : HhOps T R) (nb nx : Nat) (isw : Bool) (A Tm : MatV L) (work : VecV L) : M L T Unit :=
  geqrt3F o nb nx work (A.n + 1) isw A Tm

end TLA
