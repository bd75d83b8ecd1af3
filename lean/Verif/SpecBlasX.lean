import Verif.Spec

/-!
# Specification: admissible arguments of the level-3 kernels that extend the BLAS
-/

namespace TLA
variable {L T : Type}

/-- The arguments of trmm_out with `op(B)`, `C` of size `m × n` and a triangular `A` of order `k`. -/
structure TrmmOutOK (uplo : Uplo) (transB : Op) (A B C : MatV L) (m n k : Nat) : Prop where
  tri : uplo = .Upper ∨ uplo = .Lower
  hop : transB ≠ .Conj
  Am : A.m = k
  An : A.n = k
  Bm : (if transB = .NoTrans then B.m else B.n) = m
  Bn : (if transB = .NoTrans then B.n else B.m) = n
  Cm : C.m = m
  Cn : C.n = n
  inj : C.Inj
  AC : A.Disj C
  BC : B.Disj C

/-- Admissible arguments of hemm2; `C` has the shape of `op(B)`. -/
structure Hemm2OK (side : Side) (transB : Op) (A B C : MatV L) (m n : Nat) : Prop where
  hop : transB ≠ .Conj
  Bm : (if transB = .NoTrans then B.m else B.n) = m
  Bn : (if transB = .NoTrans then B.n else B.m) = n
  Am : A.m = if side = .Left then m else n
  An : A.n = if side = .Left then m else n
  Cm : C.m = m
  Cn : C.n = n
  inj : C.Inj
  AC : A.Disj C
  BC : B.Disj C

/-- Admissible arguments of the blocked trmm. -/
structure TrmmBlkOK (nb : Nat) (A B : MatV L) (work : VecV L) : Prop where
  Am : A.m = B.m
  An : A.n = B.m
  inj : B.Inj
  winj : work.Inj
  AB : A.Disj B
  Aw : A.DisjV work
  Bw : B.DisjV work
  wn : min nb B.m * B.n ≤ work.n

end TLA
