import Verif.Model.Gehrd
import Verif.Model.Gebrd

/-! The variant dispatchers: householder_qr, householder_lq, householder_ql, householder_rq,
householder_q_mul, gen_householder_q, hessenberg and bidiag. -/

namespace TLA
variable {L T : Type} [DecidableEq L]
variable [Zero T] [One T] [Add T] [Mul T] [Sub T] [Neg T] [Div T] [Star T] [ReIm T] [DecidableEq T]
variable {R : Type} [Field R] [LinearOrder R]

/-- `enum class HouseholderQRVariant/…QL/…LQ/…RQ/HouseholderQMulVariant/GenHouseholderQVariant/HessenbergVariant/
BidiagVariant { Level2, Blocked }` (lapack/householder_qr.hpp 20 and the same enum in the seven other files); one
type stands for all of them. -/
inductive HVariant | Level2 | Blocked
  deriving DecidableEq

/-- lapack/householder_qr.hpp 41-50. -/
def householderQrWorksize (v : HVariant) (A : MatV L) (nb : Nat) : WorkInfo :=
  if v = .Level2 then .ofSize (geqr2Worksize A) else geqrfWorksize A nb

/-- lapack/householder_lq.hpp 41-50. -/
def householderLqWorksize (v : HVariant) (A : MatV L) (nb : Nat) : WorkInfo :=
  if v = .Level2 then .ofSize (gelq2Worksize A) else gelqfWorksize A nb

/-- lapack/householder_ql.hpp 41-50. -/
def householderQlWorksize (v : HVariant) (A : MatV L) (nb : Nat) : WorkInfo :=
  if v = .Level2 then .ofSize (geql2Worksize A) else geqlfWorksize A nb

/-- lapack/householder_rq.hpp 41-50. -/
def householderRqWorksize (v : HVariant) (A : MatV L) (nb : Nat) : WorkInfo :=
  if v = .Level2 then .ofSize (gerq2Worksize A) else gerqfWorksize A nb

/-- lapack/householder_q_mul.hpp 80-96. -/
def householderQMulWorksize (v : HVariant) (side : Side) (C : MatV L) (k nb : Nat) : WorkInfo :=
  if v = .Level2 then .ofSize (unmqWorksize side C) else unmqBlkWorksize side C k nb

/-- lapack/gen_householder_q.hpp 50-61. -/
def genHouseholderQWorksize (v : HVariant) (dir : Direction) (store : StoreV) (A : MatV L) (k nb : Nat) : WorkInfo :=
  if v = .Level2 then .ofSize (ungqWorksize store A) else ungqBlkWorksize dir store A k nb

/-- lapack/hessenberg.hpp 43-54. -/
def hessenbergWorksize (v : HVariant) (nb nxs ilo ihi : Nat) (A : MatV L) : WorkInfo :=
  if v = .Level2 then gehd2Worksize ilo ihi A else gehrdWorksize nb nxs ilo ihi A

/-- lapack/bidiag.hpp 43-53. -/
def bidiagWorksize (v : HVariant) (nb : Nat) (A : MatV L) : WorkInfo :=
  if v = .Level2 then gebd2Worksize A else gebrdWorksize nb A

/-- householder_qr_work, lapack/householder_qr.hpp 63-73. -/
def householderQr (o : HhOps T R) (v : HVariant) (nb : Nat) (A : MatV L) (tau work : VecV L) : M L T Nat :=
  if v = .Level2 then geqr2 o A tau work else geqrf o nb A tau work

/-- householder_lq_work, lapack/householder_lq.hpp 63-73. -/
def householderLq (o : HhOps T R) (v : HVariant) (nb : Nat) (A : MatV L) (tau work : VecV L) : M L T Nat :=
  if v = .Level2 then gelq2 o A tau work else gelqf o nb A tau work

/-- householder_ql_work, lapack/householder_ql.hpp 63-73. -/
def householderQl (o : HhOps T R) (v : HVariant) (nb : Nat) (A : MatV L) (tau work : VecV L) : M L T Nat :=
  if v = .Level2 then geql2 o A tau work else geqlf o nb A tau work

/-- householder_rq_work, lapack/householder_rq.hpp 63-73. -/
def householderRq (o : HhOps T R) (v : HVariant) (nb : Nat) (A : MatV L) (tau work : VecV L) : M L T Nat :=
  if v = .Level2 then gerq2 o A tau work else gerqf o nb A tau work

/-- householder_q_mul_work, lapack/householder_q_mul.hpp 114-130. -/
def householderQMul (isReal : Bool) (v : HVariant) (nb : Nat) (side : Side) (trans : Op) (dir : Direction)
    (store : StoreV) (V : MatV L) (tau : VecV L) (C : MatV L) (work : VecV L) : M L T Nat :=
  if v = .Level2 then unmq isReal side trans dir store V tau C work
  else unmqBlk isReal nb side trans dir store V tau C work

/-- gen_householder_q_work, lapack/gen_householder_q.hpp 77-88. -/
def genHouseholderQ (isReal : Bool) (v : HVariant) (nb : Nat) (dir : Direction) (store : StoreV) (A : MatV L)
    (tau work : VecV L) : M L T Nat :=
  if v = .Level2 then ungq dir store A tau work else ungqBlk isReal nb dir store A tau work

/-- hessenberg_work, lapack/hessenberg.hpp 67-79. -/
def hessenberg (o : HhOps T R) (v : HVariant) (nb nxs ilo ihi : Nat) (A : MatV L) (tau work : VecV L) : M L T Nat :=
  if v = .Level2 then gehd2 o ilo ihi A tau work else gehrd o nb nxs ilo ihi A tau work

/-- bidiag_work, lapack/bidiag.hpp 66-77. -/
def bidiag (o : HhOps T R) (v : HVariant) (nb : Nat) (A : MatV L) (tauv tauw work : VecV L) : M L T Nat :=
  if v = .Level2 then gebd2 o A tauv tauw work else gebrd o nb A tauv tauw work

end TLA
