import Verif.Props.BlockRefl
import Verif.Props.Gehrd
import Verif.Props.Gebrd
import Verif.Model.Dispatch
set_option linter.unusedTactic false
set_option linter.unusedVariables false
set_option linter.unreachableTactic false
set_option linter.unusedSectionVars false

/-! # C77: the variant dispatchers -/

namespace TLA
open Finset
variable {L 𝕜 : Type} [DecidableEq L] [RCLike 𝕜] [DecidableEq 𝕜] {p : HhPar}

/-- **C77** householder_qr, both variants: the QR factorization of C39/C46, with the workspace size the
dispatcher reports; the block size matters for the blocked variant only. -/
theorem C77_householder_qr (hl : HhLaws 𝕜 p)
    (hreal : (hhOps (𝕜 := 𝕜) p).isReal = true → ∀ z : 𝕜, star z = z) (A : MatV L) (tau work : VecV L) (ok : QrOK A tau work)
    (ht : min A.m A.n ≤ tau.n) (v : HVariant) (nb : Nat) (hnb : v = .Blocked → 0 < nb) (hw : (householderQrWorksize v A nb).size ≤ work.n) (μ : Store L 𝕜)
    (hb : ∀ c, c < A.n → ∑ r ∈ range A.m, ‖entry μ A r c‖ ^ 2 ≤ p.tbig ^ 2) :
    ∃ ν, householderQr (hhOps p) v nb A tau work μ = (.ok 0, ν) ∧
      (let Q := houseQ .Forward .Columnwise A.m (min A.m A.n) (entry ν A) (ventry ν tau)
       mat A.m A.n (entry μ A) = Q * mat A.m A.n (triF .Upper .NonUnit (entry ν A)) ∧
       Q.conjTranspose * Q = 1) ∧
      (∀ i, i < min A.m A.n → RCLike.im (entry ν A i i) = 0) ∧
      ∀ l, ¬ A.Owns l → ¬ (tau.sub 0 (min A.m A.n)).Owns l → ¬ work.Owns l → ν l = μ l := by
  cases v with
  | Level2 =>
    have hw' : geqr2Worksize A ≤ work.n := by simpa [householderQrWorksize, WorkInfo.ofSize, WorkInfo.size] using hw
    simpa [householderQr] using C39_geqr2 hl A tau work ok ht hw' μ hb
  | Blocked =>
    have hw' : (geqrfWorksize A nb).size ≤ work.n := by simpa [householderQrWorksize] using hw
    simpa [householderQr] using C46_geqrf hl hreal A tau work ok ht nb (hnb rfl) hw' μ hb

/-- **C77** householder_ql, both variants: the QL factorization of C39/C46, with the workspace size the
dispatcher reports; the block size matters for the blocked variant only. -/
theorem C77_householder_ql (hl : HhLaws 𝕜 p)
    (hreal : (hhOps (𝕜 := 𝕜) p).isReal = true → ∀ z : 𝕜, star z = z) (A : MatV L) (tau work : VecV L) (ok : QrOK A tau work)
    (ht : min A.m A.n ≤ tau.n) (v : HVariant) (nb : Nat) (hnb : v = .Blocked → 0 < nb) (hw : (householderQlWorksize v A nb).size ≤ work.n) (μ : Store L 𝕜)
    (hb : ∀ c, c < A.n → ∑ r ∈ range A.m, ‖entry μ A r c‖ ^ 2 ≤ p.tbig ^ 2) :
    ∃ ν, householderQl (hhOps p) v nb A tau work μ = (.ok 0, ν) ∧
      (let k := min A.m A.n
       let Q := houseQ .Backward .Columnwise A.m k (fun r i => entry ν A r (A.n - k + i)) (ventry ν tau)
       mat A.m A.n (entry μ A) =
         Q * mat A.m A.n (fun r c => if r + A.n < c + A.m then 0 else entry ν A r c) ∧
       Q.conjTranspose * Q = 1 ∧ ∀ i, i < k → RCLike.im (entry ν A (A.m - k + i) (A.n - k + i)) = 0) ∧
      ∀ l, ¬ A.Owns l → ¬ (tau.sub 0 (min A.m A.n)).Owns l → ¬ work.Owns l → ν l = μ l := by
  cases v with
  | Level2 =>
    have hw' : geql2Worksize A ≤ work.n := by simpa [householderQlWorksize, WorkInfo.ofSize, WorkInfo.size] using hw
    simpa [householderQl] using C39_geql2 hl A tau work ok ht hw' μ hb
  | Blocked =>
    have hw' : (geqlfWorksize A nb).size ≤ work.n := by simpa [householderQlWorksize] using hw
    simpa [householderQl] using C46_geqlf hl hreal A tau work ok ht nb (hnb rfl) hw' μ hb

/-- **C77** householder_lq, both variants: the LQ factorization of C39/C46, with the workspace size the
dispatcher reports; the block size matters for the blocked variant only. -/
theorem C77_householder_lq (hl : HhLaws 𝕜 p)
    (hreal : (hhOps (𝕜 := 𝕜) p).isReal = true → ∀ z : 𝕜, star z = z) (A : MatV L) (tau work : VecV L) (ok : QrOK A tau work)
    (ht : min A.m A.n ≤ tau.n) (v : HVariant) (nb : Nat) (hnb : v = .Blocked → 0 < nb) (hw : (householderLqWorksize v A nb).size ≤ work.n) (μ : Store L 𝕜)
    (hb : ∀ r, r < A.m → ∑ c ∈ range A.n, ‖entry μ A r c‖ ^ 2 ≤ p.tbig ^ 2) :
    ∃ ν, householderLq (hhOps p) v nb A tau work μ = (.ok 0, ν) ∧
      (let Q := houseQ .Forward .Rowwise A.n (min A.m A.n) (entry ν A) (ventry ν tau)
       mat A.m A.n (entry μ A) = mat A.m A.n (triF .Lower .NonUnit (entry ν A)) * Q ∧
       Q * Q.conjTranspose = 1) ∧
      (∀ i, i < min A.m A.n → RCLike.im (entry ν A i i) = 0) ∧
      ∀ l, ¬ A.Owns l → ¬ (tau.sub 0 (min A.m A.n)).Owns l → ¬ work.Owns l → ν l = μ l := by
  cases v with
  | Level2 =>
    have hw' : gelq2Worksize A ≤ work.n := by simpa [householderLqWorksize, WorkInfo.ofSize, WorkInfo.size] using hw
    simpa [householderLq] using C39_gelq2 hl A tau work ok ht hw' μ hb
  | Blocked =>
    have hw' : (gelqfWorksize A nb).size ≤ work.n := by simpa [householderLqWorksize] using hw
    simpa [householderLq] using C46_gelqf hl hreal A tau work ok ht nb (hnb rfl) hw' μ hb

/-- **C77** householder_rq, both variants: the RQ factorization of C39/C46, with the workspace size the
dispatcher reports; the block size matters for the blocked variant only. -/
theorem C77_householder_rq (hl : HhLaws 𝕜 p)
    (hreal : (hhOps (𝕜 := 𝕜) p).isReal = true → ∀ z : 𝕜, star z = z) (A : MatV L) (tau work : VecV L) (ok : QrOK A tau work)
    (ht : min A.m A.n ≤ tau.n) (v : HVariant) (nb : Nat) (hnb : v = .Blocked → 0 < nb) (hw : (householderRqWorksize v A nb).size ≤ work.n) (μ : Store L 𝕜)
    (hb : ∀ r, r < A.m → ∑ c ∈ range A.n, ‖entry μ A r c‖ ^ 2 ≤ p.tbig ^ 2) :
    ∃ ν, householderRq (hhOps p) v nb A tau work μ = (.ok 0, ν) ∧
      (let k := min A.m A.n
       let Q := houseQ .Backward .Rowwise A.n k (fun i c => entry ν A (A.m - k + i) c) (ventry ν tau)
       mat A.m A.n (entry μ A) =
         mat A.m A.n (fun r c => if c + A.m < r + A.n then 0 else entry ν A r c) * Q ∧
       Q * Q.conjTranspose = 1 ∧ ∀ i, i < k → RCLike.im (entry ν A (A.m - k + i) (A.n - k + i)) = 0) ∧
      ∀ l, ¬ A.Owns l → ¬ (tau.sub 0 (min A.m A.n)).Owns l → ¬ work.Owns l → ν l = μ l := by
  cases v with
  | Level2 =>
    have hw' : gerq2Worksize A ≤ work.n := by simpa [householderRqWorksize, WorkInfo.ofSize, WorkInfo.size] using hw
    simpa [householderRq] using C39_gerq2 hl A tau work ok ht hw' μ hb
  | Blocked =>
    have hw' : (gerqfWorksize A nb).size ≤ work.n := by simpa [householderRqWorksize] using hw
    simpa [householderRq] using C46_gerqf hl hreal A tau work ok ht nb (hnb rfl) hw' μ hb

/-- Admissible arguments of householder_q_mul: those of unmq, the workspace size being the one the dispatcher
reports, and a positive block size for the blocked variant. -/
structure QMulOK (v : HVariant) (nb : Nat) (side : Side) (store : StoreV) (V : MatV L) (tau : VecV L) (C : MatV L) (work : VecV L) : Prop where
  hside : side = .Left ∨ side = .Right
  inj : C.Inj
  winj : work.Inj
  VC : V.Disj C
  Vw : V.DisjV work
  tC : tau.DisjM C
  tw : tau.Disj work
  Cw : C.DisjV work
  vm : if store = .Columnwise then V.m = (if side = .Left then C.m else C.n) ∧ V.n = tau.n
    else V.n = (if side = .Left then C.m else C.n) ∧ V.m = tau.n
  kq : tau.n ≤ if side = .Left then C.m else C.n
  hnb : v = .Blocked → 0 < nb
  wn : (householderQMulWorksize v side C tau.n nb).size ≤ work.n

/-- **C77** householder_q_mul, both variants: `C` becomes `op(Q) C` or `C op(Q)`, as in C38/C47. -/
theorem C77_householder_q_mul (isReal : Bool) (v : HVariant) (nb : Nat) (side : Side) (trans : Op) (dir : Direction) (store : StoreV) (V : MatV L)
    (tau : VecV L) (C : MatV L) (work : VecV L) (ok : QMulOK v nb side store V tau C work)
    (ht : trans = .NoTrans ∨ trans = .ConjTrans ∨ (trans = .Trans ∧ isReal = true))
    (hreal : isReal = true → ∀ z : 𝕜, star z = z) (μ : Store L 𝕜) :
    ∃ ν, householderQMul isReal v nb side trans dir store V tau C work μ = (.ok 0, ν) ∧
      mat C.m C.n (entry ν C) = (if side = .Left then
        opQ trans (houseQ dir store C.m tau.n (entry μ V) (ventry μ tau)) * mat C.m C.n (entry μ C)
        else mat C.m C.n (entry μ C) * opQ trans (houseQ dir store C.n tau.n (entry μ V) (ventry μ tau))) ∧
      ∀ l, ¬ C.Owns l → ¬ work.Owns l → ν l = μ l := by
  obtain ⟨h1, h2, h3, h4, h5, h6, h7, h8, h9, h10, h11, h12⟩ := ok
  cases v with
  | Level2 =>
    simp only [householderQMul, if_true]
    exact C38_unmq isReal side trans dir store V tau C work
      ⟨h1, h2, h3, h4, h5, h6, h7, h8, h9, h10, by simpa [householderQMulWorksize, WorkInfo.ofSize, WorkInfo.size] using h12⟩ ht hreal μ
  | Blocked =>
    simp only [householderQMul, reduceCtorEq, if_false]
    exact C47_unmq isReal nb side trans dir store V tau C work
      ⟨h1, h2, h3, h4, h5, h6, h7, h8, h9, h10, h11 rfl, by simpa [householderQMulWorksize] using h12⟩ ht hreal μ

/-- Admissible arguments of gen_householder_q; the blocked variant wants a positive block size and, unless `A` is
empty, at least one reflector (C47_ungq_no_reflectors_violated). -/
structure GenQOK (v : HVariant) (nb : Nat) (dir : Direction) (store : StoreV) (A : MatV L) (tau work : VecV L) : Prop extends QrOK A tau work where
  shape : if store = .Columnwise then A.n ≤ A.m ∧ tau.n ≤ A.n else A.m ≤ A.n ∧ tau.n ≤ A.m
  hnb : v = .Blocked → 0 < nb
  k : v = .Blocked → 0 < tau.n ∨ A.m = 0 ∨ A.n = 0
  wn : A.m ≠ 0 ∧ A.n ≠ 0 ∨ v = .Level2 → (genHouseholderQWorksize v dir store A tau.n nb).size ≤ work.n

/-- **C77** gen_householder_q, both variants, columnwise storage: the unitary factor of C39/C47. -/
theorem C77_gen_householder_q_columnwise (isReal : Bool) (v : HVariant) (nb : Nat) (dir : Direction) (A : MatV L) (tau work : VecV L)
    (hreal : isReal = true → ∀ z : 𝕜, star z = z) (ok : GenQOK v nb dir .Columnwise A tau work) (μ : Store L 𝕜) :
    ∃ ν, genHouseholderQ isReal v nb dir .Columnwise A tau work μ = (.ok 0, ν) ∧
      mat A.m A.n (entry ν A) = houseQ dir .Columnwise A.m tau.n
        (fun r i => entry μ A r (if dir = .Forward then i else A.n - tau.n + i)) (ventry μ tau) *
          mat A.m A.n (eyeF dir A.m A.n) ∧
      ∀ l, ¬ A.Owns l → ¬ work.Owns l → ν l = μ l := by
  obtain ⟨h1, h2, h3, h4, h5⟩ := ok
  cases v with
  | Level2 =>
    simp only [genHouseholderQ, if_true]
    exact C39_ungq_columnwise dir A tau work ⟨h1, h2, by simpa [genHouseholderQWorksize, WorkInfo.ofSize, WorkInfo.size] using h5⟩ μ
  | Blocked =>
    simp only [genHouseholderQ, reduceCtorEq, if_false]
    exact C47_ungq_columnwise isReal nb dir A tau work hreal ⟨h1, h2, h3 rfl, h4 rfl, fun a b => by simpa [genHouseholderQWorksize] using h5 (.inl ⟨a, b⟩)⟩ μ

/-- **C77** gen_householder_q, both variants, rowwise storage: the unitary factor of C39/C47. -/
theorem C77_gen_householder_q_rowwise (isReal : Bool) (v : HVariant) (nb : Nat) (dir : Direction) (A : MatV L) (tau work : VecV L)
    (hreal : isReal = true → ∀ z : 𝕜, star z = z) (ok : GenQOK v nb dir .Rowwise A tau work) (μ : Store L 𝕜) :
    ∃ ν, genHouseholderQ isReal v nb dir .Rowwise A tau work μ = (.ok 0, ν) ∧
      mat A.m A.n (entry ν A) = (mat A.n A.m (eyeF dir A.n A.m)).transpose *
        houseQ dir .Rowwise A.n tau.n
          (fun i c => entry μ A (if dir = .Forward then i else A.m - tau.n + i) c) (ventry μ tau) ∧
      ∀ l, ¬ A.Owns l → ¬ work.Owns l → ν l = μ l := by
  obtain ⟨h1, h2, h3, h4, h5⟩ := ok
  cases v with
  | Level2 =>
    simp only [genHouseholderQ, if_true]
    exact C39_ungq_rowwise dir A tau work ⟨h1, h2, by simpa [genHouseholderQWorksize, WorkInfo.ofSize, WorkInfo.size] using h5⟩ μ
  | Blocked =>
    simp only [genHouseholderQ, reduceCtorEq, if_false]
    exact C47_ungq_rowwise isReal nb dir A tau work hreal ⟨h1, h2, h3 rfl, h4 rfl, fun a b => by simpa [genHouseholderQWorksize] using h5 (.inl ⟨a, b⟩)⟩ μ

/-- **C77** hessenberg, both variants: the reduction of C58/C75. -/
theorem C77_hessenberg (hl : HhLaws 𝕜 p) (v : HVariant) (nb0 nxs ilo ihi : Nat) (A : MatV L) (tau work : VecV L) (ok : QrOK A tau work)
    (hsq : A.m = A.n) (hlh : ilo < ihi) (hihi : ihi ≤ A.n) (ht : A.n - 1 ≤ tau.n) (hnb : v = .Blocked → 0 < nb0)
    (htb : v = .Blocked → max (min nb0 (ihi - ilo - 1)) nxs < ihi - ilo - 1 → ihi ≤ tau.n)
    (hw : (hessenbergWorksize v nb0 nxs ilo ihi A).size ≤ work.n) (μ : Store L 𝕜)
    (hb : frobSq A.n A.n (entry μ A) ≤ p.tbig ^ 2)
    (hh : ∀ r c, r < A.n → c < A.n → c < ilo ∨ ihi ≤ c → c + 1 < r → entry μ A r c = 0)
    (hz : ∀ r c, r < A.n → ihi ≤ r → c < ihi → entry μ A r c = 0) :
    ∃ ν, hessenberg (hhOps p) v nb0 nxs ilo ihi A tau work μ = (.ok 0, ν) ∧
      (let Q := hessQ A.n ilo ihi (entry ν A) (ventry ν tau)
       mat A.n A.n (entry μ A) = Q * mat A.n A.n (hessF (entry ν A)) * Q.conjTranspose ∧
       Q.conjTranspose * Q = 1) ∧
      (∀ i, ilo ≤ i → i < ihi - 1 → RCLike.im (entry ν A (i + 1) i) = 0) ∧
      (∀ l, ¬ A.Owns l → ¬ (tau.sub ilo (ihi - 1)).Owns l → ¬ work.Owns l → ν l = μ l) := by
  cases v with
  | Level2 =>
    simp only [hessenberg, if_true]
    exact C58_gehd2 hl ilo ihi A tau work ok hsq hlh hihi ht (by simpa [hessenbergWorksize] using hw) μ hb hh hz
  | Blocked =>
    simp only [hessenberg, reduceCtorEq, if_false]
    exact C75_gehrd hl nb0 nxs ilo ihi A tau work ok hsq hlh hihi ht (hnb rfl) (htb rfl) (by simpa [hessenbergWorksize] using hw) μ hb hh hz

/-- **C77** bidiag, both variants: the reduction of C60/C76. -/
theorem C77_bidiag_upper (hl : HhLaws 𝕜 p) (v : HVariant) (nb0 : Nat) (hnb : v = .Blocked → 0 < nb0) (A : MatV L) (tauv tauw work : VecV L) (ok : BrdOK A tauv tauw work)
    (hmn : A.n ≤ A.m) (htv : A.n ≤ tauv.n) (htw : A.n ≤ tauw.n)
    (hw : (bidiagWorksize v nb0 A).size ≤ work.n) (μ : Store L 𝕜)
    (hb : frobSq A.m A.n (entry μ A) ≤ p.tbig ^ 2) :
    ∃ ν, bidiag (hhOps p) v nb0 A tauv tauw work μ = (.ok 0, ν) ∧
      (let Q := reflProd A.m 0 A.n (ventry ν tauv) (reflCol 0 A.m (entry ν A))
       let Z := reflProd A.n 0 (A.n - 1) (ventry ν tauw) (reflRow 1 A.n (entry ν A))
       mat A.m A.n (entry μ A) = Q * mat A.m A.n (bidUF (entry ν A)) * Z.conjTranspose ∧
       Q.conjTranspose * Q = 1 ∧ Z.conjTranspose * Z = 1) ∧
      (∀ i, i < A.n → RCLike.im (entry ν A i i) = 0) ∧
      (∀ i, i + 1 < A.n → RCLike.im (entry ν A i (i + 1)) = 0) ∧
      (∀ l, ¬ A.Owns l → ¬ (tauv.sub 0 A.n).Owns l → ¬ (tauw.sub 0 A.n).Owns l → ¬ work.Owns l → ν l = μ l) := by
  cases v with
  | Level2 =>
    simp only [bidiag, if_true]
    exact C60_gebd2_upper hl A tauv tauw work ok hmn htv htw (by simpa [bidiagWorksize] using hw) μ hb
  | Blocked =>
    simp only [bidiag, reduceCtorEq, if_false]
    exact C76_gebrd_upper hl nb0 (hnb rfl) A tauv tauw work ok hmn htv htw (by simpa [bidiagWorksize] using hw) μ hb

/-- **C77** bidiag, both variants: the reduction of C60/C76. -/
theorem C77_bidiag_lower (hl : HhLaws 𝕜 p) (v : HVariant) (nb0 : Nat) (hnb : v = .Blocked → 0 < nb0) (A : MatV L) (tauv tauw work : VecV L) (ok : BrdOK A tauv tauw work)
    (hmn : A.m < A.n) (htv : A.m ≤ tauv.n) (htw : A.m ≤ tauw.n)
    (hw : (bidiagWorksize v nb0 A).size ≤ work.n) (μ : Store L 𝕜)
    (hb : frobSq A.m A.n (entry μ A) ≤ p.tbig ^ 2) :
    ∃ ν, bidiag (hhOps p) v nb0 A tauv tauw work μ = (.ok 0, ν) ∧
      (let Q := reflProd A.m 0 (A.m - 1) (ventry ν tauv) (reflCol 1 A.m (entry ν A))
       let Z := reflProd A.n 0 A.m (ventry ν tauw) (reflRow 0 A.n (entry ν A))
       mat A.m A.n (entry μ A) = Q * mat A.m A.n (bidLF (entry ν A)) * Z.conjTranspose ∧
       Q.conjTranspose * Q = 1 ∧ Z.conjTranspose * Z = 1) ∧
      (∀ i, i < A.m → RCLike.im (entry ν A i i) = 0) ∧
      (∀ i, i + 1 < A.m → RCLike.im (entry ν A (i + 1) i) = 0) ∧
      (∀ l, ¬ A.Owns l → ¬ (tauv.sub 0 A.m).Owns l → ¬ (tauw.sub 0 A.m).Owns l → ¬ work.Owns l → ν l = μ l) := by
  cases v with
  | Level2 =>
    simp only [bidiag, if_true]
    exact C60_gebd2_lower hl A tauv tauw work ok hmn htv htw (by simpa [bidiagWorksize] using hw) μ hb
  | Blocked =>
    simp only [bidiag, reduceCtorEq, if_false]
    exact C76_gebrd_lower hl nb0 (hnb rfl) A tauv tauw work ok hmn htv htw (by simpa [bidiagWorksize] using hw) μ hb

/-- The hypotheses are met, by either variant. -/
example (v : HVariant) : QrOK (mkM 0 4 3) (mkV 1 3) (mkV 2 30) ∧ (householderQrWorksize v (mkM 0 4 3) 2).size ≤ (mkV 2 30).n ∧
    (householderLqWorksize v (mkM 0 4 3) 2).size ≤ (mkV 2 30).n ∧ (householderQlWorksize v (mkM 0 4 3) 2).size ≤ (mkV 2 30).n ∧
    (householderRqWorksize v (mkM 0 4 3) 2).size ≤ (mkV 2 30).n ∧
    GenQOK v 2 .Forward .Columnwise (mkM 0 4 3) (mkV 1 3) (mkV 2 30) ∧
    QMulOK v 2 .Left .Columnwise (mkM 0 4 3) (mkV 1 3) (mkM 3 4 2) (mkV 2 30) ∧
    (hessenbergWorksize v 2 0 0 4 (mkM 0 4 4)).size ≤ (mkV 2 30).n ∧ (bidiagWorksize v 2 (mkM 0 4 3)).size ≤ (mkV 2 30).n ∧
    HhLaws ℂ (doublePar false) := by
  cases v <;>
  refine ⟨⟨?_, ?_, ?_, ?_, ?_, ?_⟩, by decide, by decide, by decide, by decide,
    ⟨⟨?_, ?_, ?_, ?_, ?_, ?_⟩, by decide, by decide, by decide, fun _ => by decide⟩,
    ⟨.inl rfl, ?_, ?_, ?_, ?_, ?_, ?_, ?_, by decide, by decide, by decide, by decide⟩, by decide, by decide, doublePar_laws _ (by simp)⟩ <;> adm

end TLA
