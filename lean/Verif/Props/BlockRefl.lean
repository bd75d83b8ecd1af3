import Verif.Props.House
import Verif.Proofs.UngqBlk2
set_option linter.unusedTactic false
set_option linter.unusedVariables false
set_option linter.unreachableTactic false
set_option linter.unusedSectionVars false

/-! # C45, C46, C47: the blocked Householder routines -/

namespace TLA
open Finset
variable {L 𝕜 : Type} [DecidableEq L] [RCLike 𝕜] [DecidableEq 𝕜] {p : HhPar}

/-! ### C45: block reflectors -/

theorem blockRefl_eq (dir : Direction) (store : StoreV) (q k : Nat) (V Tf : Nat → Nat → 𝕜) :
    blockRefl dir store q k V Tf = blkH dir store q k V Tf := by
  unfold blockRefl blkH
  simp only []
  rw [mat_mul, mat_conjTranspose, mat_mul, ← mat_idF]
  cases dir <;> simp only [duplo, reduceCtorEq, if_true, if_false]
  all_goals
    ext r c
    simp only [Matrix.sub_apply, mat, Matrix.of_apply, idF, blkF]
    congr 1
    rw [Finset.sum_comm]
    refine Finset.sum_congr rfl fun b _ => ?_
    rw [Finset.sum_mul]

theorem houseProd_eq (dir : Direction) (store : StoreV) (q k : Nat) (V : Nat → Nat → 𝕜) (t : Nat → 𝕜) :
    houseProd dir store q k V t = houseP dir store q k V t := by
  unfold houseProd houseP
  cases dir with
  | Forward => rfl
  | Backward => simp only [reverse_range_map, qidx, reduceCtorEq, if_false]

/-- **C45** larft computes the triangular factor of the block reflector: `I - U T U^H` is the product
of the `k` reflectors stored in `V` and `tau`, for every direction and storage. Only the triangle of
`T` is written. -/
theorem C45_larft (dir : Direction) (store : StoreV) (V : MatV L) (tau : VecV L) (Tm : MatV L)
    (ok : LarftOK store V tau Tm) (μ : Store L 𝕜) :
    ∃ ν, larft dir store V tau Tm μ = (.ok 0, ν) ∧
      (∀ q, q = (if store = .Columnwise then V.m else V.n) →
        blockRefl dir store q tau.n (entry μ V) (entry ν Tm) =
          houseProd dir store q tau.n (entry μ V) (ventry μ tau)) ∧
      ∀ l, (∀ a b, a < tau.n → b < tau.n → (if dir = .Forward then a ≤ b else b ≤ a) → Tm.cell a b ≠ l) → ν l = μ l := by
  obtain ⟨_, ν, e, rfl, h⟩ := wp_iff.1 (wp_larft (dir := dir) ok μ)
  refine ⟨ν, e, ?_, fun l hl => h.frame l (fun a b ha hb hi => hl a b ha hb ?_)⟩
  · rintro q rfl
    rw [blockRefl_eq, houseProd_eq]
    exact mat_rel_q h.trel
  · cases dir <;> simpa [inTri, duplo] using hi

/-- **C45** larfb overwrites `C` by `op(H) C` or `C op(H)`, `H = I - U T U^H` the block reflector given by `V`
and the triangular factor `T`; only `C` and the workspace are written. -/
theorem C45_larfb (isReal : Bool) (side : Side) (trans : Op) (dir : Direction) (store : StoreV) (V Tm C : MatV L)
    (work : VecV L) (ok : LarfbOK side store V Tm C work)
    (ht : trans = .NoTrans ∨ trans = .ConjTrans ∨ (trans = .Trans ∧ isReal = true))
    (hreal : isReal = true → ∀ z : 𝕜, star z = z) (μ : Store L 𝕜) :
    ∃ ν, larfb isReal side trans dir store V Tm C work μ = (.ok 0, ν) ∧
      mat C.m C.n (entry ν C) = (if side = .Left then
        opQ trans (blockRefl dir store C.m Tm.m (entry μ V) (entry μ Tm)) * mat C.m C.n (entry μ C)
        else mat C.m C.n (entry μ C) * opQ trans (blockRefl dir store C.n Tm.m (entry μ V) (entry μ Tm))) ∧
      ∀ l, ¬ C.Owns l → ¬ work.Owns l → ν l = μ l := by
  obtain ⟨_, ν, e, rfl, h⟩ := wp_iff.1 (wp_larfb (dir := dir) ok ht hreal μ)
  rw [blockRefl_eq, blockRefl_eq]
  exact ⟨ν, e, h⟩

/-- **C45** (deviation) The shape check of larfb is mis-parsed (`ncols(V) == k && (side == Left) ? .. : ..`):
on the right, the number of columns of `V` is not checked at all. -/
theorem C45_larfb_shape_violated (V Tm C : MatV L) (hV : V.m = C.n) :
    larfbCheck .Right .Columnwise V C.m C.n Tm.m = true := by
  simp [larfbCheck, hV]

/-- Two reflectors of length three, stored by columns and by rows. -/
example : LarftOK .Columnwise (mkM 0 3 2) (mkV 1 2) (mkM 2 2 2) ∧ LarftOK .Rowwise (mkM 0 2 3) (mkV 1 2) (mkM 2 2 2) ∧
    LarfbOK .Left .Columnwise (mkM 0 3 2) (mkM 1 2 2) (mkM 2 3 4) (mkV 3 8) ∧
    LarfbOK .Right .Rowwise (mkM 0 2 3) (mkM 1 2 2) (mkM 2 4 3) (mkV 3 8) := by
  refine ⟨⟨?_, ?_, ?_, ?_, ?_, ?_, ?_⟩, ⟨?_, ?_, ?_, ?_, ?_, ?_, ?_⟩, ⟨?_, ?_, ?_, ?_, ?_, ?_, ?_, ?_, ?_, ?_, ?_, ?_, ?_⟩,
    ⟨?_, ?_, ?_, ?_, ?_, ?_, ?_, ?_, ?_, ?_, ?_, ?_, ?_⟩⟩ <;> adm

/-! ### C46: blocked factorizations -/

/-- **C46** geqrf: `A = Q R`, `Q` the unitary product of the reflectors stored below the diagonal,
`R` upper trapezoidal with real diagonal; only `A`, the first `min(m,n)` entries of `tau` and the
workspace are written. -/
theorem C46_geqrf (hl : HhLaws 𝕜 p)
    (hreal : (hhOps (𝕜 := 𝕜) p).isReal = true → ∀ z : 𝕜, star z = z) (A : MatV L) (tau work : VecV L) (ok : QrOK A tau work)
    (ht : min A.m A.n ≤ tau.n) (nb : Nat) (hnb : 0 < nb) (hw : (geqrfWorksize A nb).size ≤ work.n) (μ : Store L 𝕜)
    (hb : ∀ c, c < A.n → ∑ r ∈ range A.m, ‖entry μ A r c‖ ^ 2 ≤ p.tbig ^ 2) :
    ∃ ν, geqrf (hhOps p) nb A tau work μ = (.ok 0, ν) ∧
      (let Q := houseQ .Forward .Columnwise A.m (min A.m A.n) (entry ν A) (ventry ν tau)
       mat A.m A.n (entry μ A) = Q * mat A.m A.n (triF .Upper .NonUnit (entry ν A)) ∧
       Q.conjTranspose * Q = 1) ∧
      (∀ i, i < min A.m A.n → RCLike.im (entry ν A i i) = 0) ∧
      ∀ l, ¬ A.Owns l → ¬ (tau.sub 0 (min A.m A.n)).Owns l → ¬ work.Owns l → ν l = μ l := by
  obtain ⟨_, ν, e, rfl, h⟩ := wp_iff.1 (wp_geqrf hl hreal ok hnb ht hw (μ := μ) hb)
  refine ⟨ν, e, ⟨?_, h.inv.houseQ.2⟩, fun i hi => ?_, h.frame⟩
  · rw [show mat A.m A.n (triF .Upper .NonUnit (entry ν A)) =
      mat A.m A.n (qR .Forward A.m A.n (min A.m A.n) (entry ν A)) from ?_]
    · exact h.inv.houseQ.1
    · rw [mat_ext_iff]
      intro r c hr hc
      unfold triF
      by_cases hz : qz .Forward A.m A.n (min A.m A.n) r c
      · rw [qR_of hz]
        rw [qz_fwd] at hz
        rw [if_neg (by omega), if_neg (by simp only [inTri]; omega)]
      · rw [qR_not hz]
        rw [qz_fwd] at hz
        by_cases e : r = c
        · subst e; rw [if_pos rfl]
        · rw [if_neg e, if_pos (by simp only [inTri]; omega)]
  · exact RCLike.conj_eq_iff_im.1 (h.inv.diag hi)

/-- **C46** geqlf: `A = Q L`, `L` lower trapezoidal, aligned at the bottom right corner; the
reflectors are stored in the last `min(m,n)` columns. -/
theorem C46_geqlf (hl : HhLaws 𝕜 p)
    (hreal : (hhOps (𝕜 := 𝕜) p).isReal = true → ∀ z : 𝕜, star z = z) (A : MatV L) (tau work : VecV L) (ok : QrOK A tau work)
    (ht : min A.m A.n ≤ tau.n) (nb : Nat) (hnb : 0 < nb) (hw : (geqlfWorksize A nb).size ≤ work.n) (μ : Store L 𝕜)
    (hb : ∀ c, c < A.n → ∑ r ∈ range A.m, ‖entry μ A r c‖ ^ 2 ≤ p.tbig ^ 2) :
    ∃ ν, geqlf (hhOps p) nb A tau work μ = (.ok 0, ν) ∧
      (let k := min A.m A.n
       let Q := houseQ .Backward .Columnwise A.m k (fun r i => entry ν A r (A.n - k + i)) (ventry ν tau)
       mat A.m A.n (entry μ A) =
         Q * mat A.m A.n (fun r c => if r + A.n < c + A.m then 0 else entry ν A r c) ∧
       Q.conjTranspose * Q = 1 ∧ ∀ i, i < k → RCLike.im (entry ν A (A.m - k + i) (A.n - k + i)) = 0) ∧
      ∀ l, ¬ A.Owns l → ¬ (tau.sub 0 (min A.m A.n)).Owns l → ¬ work.Owns l → ν l = μ l := by
  obtain ⟨_, ν, e, rfl, h⟩ := wp_iff.1 (wp_geqlf hl hreal ok hnb ht hw (μ := μ) hb)
  refine ⟨ν, e, ⟨?_, h.inv.houseQ.2, fun i hi => ?_⟩, h.frame⟩
  · rw [show mat A.m A.n (fun r c => if r + A.n < c + A.m then 0 else entry ν A r c) =
      mat A.m A.n (qR .Backward A.m A.n (min A.m A.n) (entry ν A)) from ?_]
    · exact h.inv.houseQ.1
    · rw [mat_ext_iff]
      intro r c hr hc
      by_cases hz : qz .Backward A.m A.n (min A.m A.n) r c
      · rw [qR_of hz]
        rw [qz_bwd] at hz
        rw [if_pos (by omega)]
      · rw [qR_not hz]
        rw [qz_bwd] at hz
        rw [if_neg (by omega)]
  · exact RCLike.conj_eq_iff_im.1 (h.inv.diag hi)

/-- **C46** gelqf: `A = L Q`, `L` lower trapezoidal with real diagonal; the reflectors are stored in
the rows above the diagonal. -/
theorem C46_gelqf (hl : HhLaws 𝕜 p)
    (hreal : (hhOps (𝕜 := 𝕜) p).isReal = true → ∀ z : 𝕜, star z = z) (A : MatV L) (tau work : VecV L) (ok : QrOK A tau work)
    (ht : min A.m A.n ≤ tau.n) (nb : Nat) (hnb : 0 < nb) (hw : (gelqfWorksize A nb).size ≤ work.n) (μ : Store L 𝕜)
    (hb : ∀ r, r < A.m → ∑ c ∈ range A.n, ‖entry μ A r c‖ ^ 2 ≤ p.tbig ^ 2) :
    ∃ ν, gelqf (hhOps p) nb A tau work μ = (.ok 0, ν) ∧
      (let Q := houseQ .Forward .Rowwise A.n (min A.m A.n) (entry ν A) (ventry ν tau)
       mat A.m A.n (entry μ A) = mat A.m A.n (triF .Lower .NonUnit (entry ν A)) * Q ∧
       Q * Q.conjTranspose = 1) ∧
      (∀ i, i < min A.m A.n → RCLike.im (entry ν A i i) = 0) ∧
      ∀ l, ¬ A.Owns l → ¬ (tau.sub 0 (min A.m A.n)).Owns l → ¬ work.Owns l → ν l = μ l := by
  obtain ⟨_, ν, e, rfl, h⟩ := wp_iff.1 (wp_gelqf hl hreal ok hnb ht hw (μ := μ)
    (fun c hc => by simpa [LG, cj, MatV.tr, entry] using hb c hc))
  obtain ⟨h1, h2, h3⟩ := lq_of_qr (m := A.m) (n := A.n) (A0 := entry μ A) (G := entry ν A) h.inv
  refine ⟨ν, e, ⟨?_, h2⟩, h3, fun l hl => h.frame l (fun ho => hl (MatV.tr_owns.1 ho))⟩
  refine h1.trans ?_
  refine congrArg₂ _ ?_ rfl
  rw [mat_ext_iff]
  intro r c hr hc
  unfold triF
  by_cases hz : qz .Forward A.n A.m (min A.m A.n) c r
  · rw [if_pos hz]
    rw [qz_fwd] at hz
    rw [if_neg (by omega), if_neg (by simp only [inTri]; omega)]
  · rw [if_neg hz]
    rw [qz_fwd] at hz
    by_cases e : r = c
    · subst e; rw [if_pos rfl]
    · rw [if_neg e, if_pos (by simp only [inTri]; omega)]

/-- **C46** gerqf: `A = R Q`, `R` upper trapezoidal, aligned at the bottom right corner; the
reflectors are stored in the last `min(m,n)` rows. -/
theorem C46_gerqf (hl : HhLaws 𝕜 p)
    (hreal : (hhOps (𝕜 := 𝕜) p).isReal = true → ∀ z : 𝕜, star z = z) (A : MatV L) (tau work : VecV L) (ok : QrOK A tau work)
    (ht : min A.m A.n ≤ tau.n) (nb : Nat) (hnb : 0 < nb) (hw : (gerqfWorksize A nb).size ≤ work.n) (μ : Store L 𝕜)
    (hb : ∀ r, r < A.m → ∑ c ∈ range A.n, ‖entry μ A r c‖ ^ 2 ≤ p.tbig ^ 2) :
    ∃ ν, gerqf (hhOps p) nb A tau work μ = (.ok 0, ν) ∧
      (let k := min A.m A.n
       let Q := houseQ .Backward .Rowwise A.n k (fun i c => entry ν A (A.m - k + i) c) (ventry ν tau)
       mat A.m A.n (entry μ A) =
         mat A.m A.n (fun r c => if c + A.m < r + A.n then 0 else entry ν A r c) * Q ∧
       Q * Q.conjTranspose = 1 ∧ ∀ i, i < k → RCLike.im (entry ν A (A.m - k + i) (A.n - k + i)) = 0) ∧
      ∀ l, ¬ A.Owns l → ¬ (tau.sub 0 (min A.m A.n)).Owns l → ¬ work.Owns l → ν l = μ l := by
  obtain ⟨_, ν, e, rfl, h⟩ := wp_iff.1 (wp_gerqf hl hreal ok hnb ht hw (μ := μ)
    (fun c hc => by simpa [LG, cj, MatV.tr, entry] using hb c hc))
  obtain ⟨h1, h2, h3⟩ := lq_of_qr (m := A.m) (n := A.n) (A0 := entry μ A) (G := entry ν A) h.inv
  refine ⟨ν, e, ⟨?_, h2, h3⟩, fun l hl => h.frame l (fun ho => hl (MatV.tr_owns.1 ho))⟩
  refine h1.trans ?_
  refine congrArg₂ _ ?_ rfl
  rw [mat_ext_iff]
  intro r c hr hc
  by_cases hz : qz .Backward A.n A.m (min A.m A.n) c r
  · rw [if_pos hz]
    rw [qz_bwd] at hz
    rw [if_pos (by omega)]
  · rw [if_neg hz]
    rw [qz_bwd] at hz
    rw [if_neg (by omega)]

/-- A 3×2 matrix of ones, block size one, double precision constants. -/
example : QrOK (mkM 0 3 2) (mkV 1 2) (mkV 2 3) ∧ min (mkM 0 3 2).m (mkM 0 3 2).n ≤ (mkV 1 2).n ∧
    (geqrfWorksize (mkM 0 3 2) 1).size ≤ (mkV 2 3).n ∧
    HhLaws ℂ (doublePar false) ∧ ((hhOps (𝕜 := ℂ) (doublePar false)).isReal = true → ∀ z : ℂ, star z = z) ∧
    (∀ c, c < (mkM 0 3 2).n → ∑ r ∈ range (mkM 0 3 2).m,
      ‖entry (fun _ => (1 : ℂ)) (mkM 0 3 2) r c‖ ^ 2 ≤ (doublePar false).tbig ^ 2) := by
  refine ⟨⟨?_, ?_, ?_, ?_, ?_, ?_⟩, ?_, ?_, doublePar_laws _ (by simp), by simp [hhOps, doublePar, luOps], fun c _ => ?_⟩ <;> try adm
  simp only [entry, norm_one, mkM, doublePar]
  simp only [one_pow, Finset.sum_const, Finset.card_range, nsmul_eq_mul, mul_one]
  rw [← pow_mul]
  refine le_trans ?_ (pow_le_pow_right₀ (by norm_num : (1 : ℝ) ≤ 2) (by norm_num : 2 ≤ 486 * 2))
  norm_num

/-- **C46** (deviation) With a block size of zero, geqrf never returns on a non-empty matrix. -/
theorem C46_geqrf_nb0_violated (A : MatV L) (tau work : VecV L) (hm : 0 < A.m) (hn : 0 < A.n)
    (ht : min A.m A.n ≤ tau.n) (μ : Store L 𝕜) :
    ∃ ν, geqrf (hhOps p) 0 A tau work μ = (.error .diverge, ν) := by
  have key : wp (geqrf (hhOps p) 0 A tau work) μ (fun _ _ => False) (fun e _ => e = .diverge) := by
    unfold geqrf
    generalize hk : min A.m A.n = k at ht ⊢
    simp only [wp_bind, wp_check, Nat.zero_min]
    rw [if_pos (by simpa using ht)]
    refine wp_blockWork (by split <;> simp) ?_
    rw [if_pos (show A.n > 0 from hn)]
    rw [forStep, dif_pos (by omega)]
    simp only [wp_bind]
    unfold geqrfStep
    simp only [wp_bind, Nat.zero_min, Nat.add_zero]
    refine wp_slice (by omega) (by omega) (by omega) (by omega) ?_
    refine wp_vslice (by omega) (by omega) ?_
    unfold geqr2
    simp only [wp_bind, wp_check]
    rw [if_pos (by simp [MatV.sub]), if_pos (by simp [MatV.sub]), wp_pure, if_pos hn]
    simp only [wp_bind]
    refine wp_slice (by omega) (by omega) (by omega) (by omega) ?_
    unfold blockApply larft larfb
    simp only [wp_bind]
    refine wp_slice (by simp [VecV.sub]) (by simp [VecV.sub]) (by simp [VecV.sub]) (by simp [VecV.sub]) ?_
    simp only [wp_check]
    rw [if_pos (by simp [MatV.sub, VecV.sub]), if_pos (by simp [MatV.sub, VecV.sub]), if_pos (by simp [VecV.sub]), wp_pure,
      if_pos (by simp), if_pos (by simp), if_pos (by simp [larfbCheck, MatV.sub, VecV.sub]), if_pos (by simp [MatV.sub]),
      if_pos (by simp [MatV.sub, VecV.sub])]
    simp
  unfold wp at key
  rcases h : geqrf (hhOps p) 0 A tau work μ with ⟨r, ν⟩
  rw [h] at key
  cases r with
  | ok a => exact key.elim
  | error e => exact ⟨ν, by rw [key]⟩

/-! ### C47: application and generation of Q, blocked -/

/-- **C47** unmq (unmqr, unmlq, unmql, unmrq), for every block size: `C` is overwritten by `op(Q) C` or
`C op(Q)`; only `C` and the workspace are written. -/
theorem C47_unmq (isReal : Bool) (nb : Nat) (side : Side) (trans : Op) (dir : Direction) (store : StoreV) (V : MatV L)
    (tau : VecV L) (C : MatV L) (work : VecV L) (ok : UnmqBlkOK nb side store V tau C work)
    (ht : trans = .NoTrans ∨ trans = .ConjTrans ∨ (trans = .Trans ∧ isReal = true))
    (hreal : isReal = true → ∀ z : 𝕜, star z = z) (μ : Store L 𝕜) :
    ∃ ν, unmqBlk isReal nb side trans dir store V tau C work μ = (.ok 0, ν) ∧
      mat C.m C.n (entry ν C) = (if side = .Left then
        opQ trans (houseQ dir store C.m tau.n (entry μ V) (ventry μ tau)) * mat C.m C.n (entry μ C)
        else mat C.m C.n (entry μ C) * opQ trans (houseQ dir store C.n tau.n (entry μ V) (ventry μ tau))) ∧
      ∀ l, ¬ C.Owns l → ¬ work.Owns l → ν l = μ l := by
  obtain ⟨_, ν, e, rfl, h⟩ := wp_iff.1 (wp_unmqBlk (dir := dir) ok ht hreal (μ := μ))
  exact ⟨ν, e, h⟩

/-- **C47** The block size does not matter: two block sizes, or the unblocked routine, leave the same `C`. -/
theorem C47_unmq_nb (isReal : Bool) (nb nb' : Nat) (side : Side) (trans : Op) (dir : Direction) (store : StoreV) (V : MatV L)
    (tau : VecV L) (C : MatV L) (work : VecV L) (ok : UnmqBlkOK nb side store V tau C work)
    (ok' : UnmqBlkOK nb' side store V tau C work) (ok2 : UnmqOK side store V tau C work)
    (ht : trans = .NoTrans ∨ trans = .ConjTrans ∨ (trans = .Trans ∧ isReal = true))
    (hreal : isReal = true → ∀ z : 𝕜, star z = z) (μ : Store L 𝕜) :
    ∃ ν ν' ν2, unmqBlk isReal nb side trans dir store V tau C work μ = (.ok 0, ν) ∧
      unmqBlk isReal nb' side trans dir store V tau C work μ = (.ok 0, ν') ∧
      unmq isReal side trans dir store V tau C work μ = (.ok 0, ν2) ∧
      ∀ i j, i < C.m → j < C.n → entry ν C i j = entry ν' C i j ∧ entry ν C i j = entry ν2 C i j := by
  obtain ⟨ν, e, h, -⟩ := C47_unmq isReal nb side trans dir store V tau C work ok ht hreal μ
  obtain ⟨ν', e', h', -⟩ := C47_unmq isReal nb' side trans dir store V tau C work ok' ht hreal μ
  obtain ⟨ν2, e2, h2, -⟩ := C38_unmq isReal side trans dir store V tau C work ok2 ht hreal μ
  refine ⟨ν, ν', ν2, e, e', e2, fun i j hi hj => ⟨?_, ?_⟩⟩
  · exact mat_ext_iff.1 (h.trans h'.symm) i j hi hj
  · exact mat_ext_iff.1 (h.trans h2.symm) i j hi hj

/-- Three reflectors in blocks of two. -/
example : UnmqBlkOK 2 .Left .Columnwise (mkM 0 4 3) (mkV 1 3) (mkM 2 4 2) (mkV 3 8) ∧
    UnmqBlkOK 2 .Right .Rowwise (mkM 0 3 4) (mkV 1 3) (mkM 2 2 4) (mkV 3 8) := by
  refine ⟨⟨?_, ?_, ?_, ?_, ?_, ?_, ?_, ?_, ?_, ?_, ?_, ?_⟩, ⟨?_, ?_, ?_, ?_, ?_, ?_, ?_, ?_, ?_, ?_, ?_, ?_⟩⟩ <;> adm

/-- **C47** The blocked ungq by columns (ungqr, ungql): `A`, holding `k` reflectors in its first (Forward)
or last (Backward) `k` columns, is overwritten by the first resp. last `n` columns of their product
`Q`; only `A` and the workspace are written. -/
theorem C47_ungq_columnwise (isReal : Bool) (nb : Nat) (dir : Direction) (A : MatV L) (tau work : VecV L)
    (hreal : isReal = true → ∀ z : 𝕜, star z = z) (ok : UngqBlkOK nb dir .Columnwise A tau work) (μ : Store L 𝕜) :
    ∃ ν, ungqBlk isReal nb dir .Columnwise A tau work μ = (.ok 0, ν) ∧
      mat A.m A.n (entry ν A) = houseQ dir .Columnwise A.m tau.n
        (fun r i => entry μ A r (if dir = .Forward then i else A.n - tau.n + i)) (ventry μ tau) *
          mat A.m A.n (eyeF dir A.m A.n) ∧
      ∀ l, ¬ A.Owns l → ¬ work.Owns l → ν l = μ l := by
  have hsh := ok.shape
  simp only [if_true] at hsh
  have emp : A.m = 0 ∨ A.n = 0 → ∀ M : Matrix (Fin A.m) (Fin A.n) 𝕜, ∀ N, M = N := by
    intro h M N
    ext i j
    have := i.2; have := j.2
    omega
  have fin : ∀ r ν, (r = 0 ∧ (A.m ≠ 0 ∧ A.n ≠ 0 →
      UState dir .Columnwise A tau work μ (if dir = .Forward then 0 else tau.n) ν) ∧ (A.m = 0 ∨ A.n = 0 → ν = μ)) →
      r = 0 ∧ mat A.m A.n (entry ν A) = houseQ dir .Columnwise A.m tau.n
        (fun r i => entry μ A r (if dir = .Forward then i else A.n - tau.n + i)) (ventry μ tau) *
          mat A.m A.n (eyeF dir A.m A.n) ∧ ∀ l, ¬ A.Owns l → ¬ work.Owns l → ν l = μ l := by
    rintro r ν ⟨rfl, h1, h2⟩
    by_cases h0 : A.m = 0 ∨ A.n = 0
    · refine ⟨rfl, emp h0 _ _, ?_⟩
      rw [h2 h0]
      exact fun _ _ _ => rfl
    · have := h1 (by omega)
      exact ⟨rfl, this.inv.houseQ hsh.2 rfl, this.frame⟩
  obtain ⟨r, ν, e, h⟩ := wp_iff.1 (wp_ungqBlk_c hreal ok (μ := μ))
  obtain ⟨rfl, h'⟩ := fin r ν h
  exact ⟨ν, e, h'⟩

/-- **C47** The blocked ungq by rows (ungl2, ungr2): `A`, holding `k` reflectors in its first (Forward) or
last (Backward) `k` rows, is overwritten by the first resp. last `m` rows of `Q`. -/
theorem C47_ungq_rowwise (isReal : Bool) (nb : Nat) (dir : Direction) (A : MatV L) (tau work : VecV L)
    (hreal : isReal = true → ∀ z : 𝕜, star z = z) (ok : UngqBlkOK nb dir .Rowwise A tau work) (μ : Store L 𝕜) :
    ∃ ν, ungqBlk isReal nb dir .Rowwise A tau work μ = (.ok 0, ν) ∧
      mat A.m A.n (entry ν A) = (mat A.n A.m (eyeF dir A.n A.m)).transpose *
        houseQ dir .Rowwise A.n tau.n
          (fun i c => entry μ A (if dir = .Forward then i else A.m - tau.n + i) c) (ventry μ tau) ∧
      ∀ l, ¬ A.Owns l → ¬ work.Owns l → ν l = μ l := by
  have hsh := ok.shape
  simp only [reduceCtorEq, if_false] at hsh
  have emp : A.m = 0 ∨ A.n = 0 → ∀ M : Matrix (Fin A.m) (Fin A.n) 𝕜, ∀ N, M = N := by
    intro h M N
    ext i j
    have := i.2; have := j.2
    omega
  have fin : ∀ r ν, (r = 0 ∧ (A.m ≠ 0 ∧ A.n ≠ 0 →
      UState dir .Rowwise A.tr tau work μ (if dir = .Forward then 0 else tau.n) ν) ∧ (A.m = 0 ∨ A.n = 0 → ν = μ)) →
      r = 0 ∧ mat A.m A.n (entry ν A) = (mat A.n A.m (eyeF dir A.n A.m)).transpose *
        houseQ dir .Rowwise A.n tau.n
          (fun i c => entry μ A (if dir = .Forward then i else A.m - tau.n + i) c) (ventry μ tau) ∧
        ∀ l, ¬ A.Owns l → ¬ work.Owns l → ν l = μ l := by
    rintro r ν ⟨rfl, h1, h2⟩
    by_cases h0 : A.m = 0 ∨ A.n = 0
    · refine ⟨rfl, emp h0 _ _, ?_⟩
      rw [h2 h0]
      exact fun _ _ _ => rfl
    · have := h1 (by omega)
      refine ⟨rfl, ?_, fun l hl => this.frame l (fun ho => hl (MatV.tr_owns.1 ho))⟩
      have hLG : ∀ ν : Store L 𝕜, LG .Rowwise ν A.tr = fun r c => star (entry ν A c r) := fun ν => by
        funext r c
        unfold LG cj
        rw [if_neg (by simp)]
        rfl
      have h3 : mat A.n A.m (fun r c => star (entry ν A c r)) = houseQ dir .Columnwise A.n tau.n
          (fun r i => star (entry μ A (if dir = .Forward then i else A.m - tau.n + i) r)) (ventry μ tau) *
            mat A.n A.m (eyeF dir A.n A.m) := by
        have inv := this.inv.houseQ hsh.2 rfl
        rw [hLG μ, hLG ν] at inv
        simp only [qcol] at inv
        exact inv
      have h4 := congrArg Matrix.conjTranspose h3
      rw [Matrix.conjTranspose_mul, mat_conjTranspose] at h4
      simp only [star_star] at h4
      rw [houseQ_rows, h4]
      refine congrArg₂ _ ?_ rfl
      rw [mat_conjTranspose, mat_transpose, mat_ext_iff]
      intro r c _ _
      unfold eyeF
      simp only [apply_ite star, star_one, star_zero]
  obtain ⟨r, ν, e, h⟩ := wp_iff.1 (wp_ungqBlk_r hreal ok (μ := μ))
  obtain ⟨rfl, h'⟩ := fin r ν h
  exact ⟨ν, e, h'⟩

/-- **C47** (deviation) ungq with an empty `tau` (no reflectors) on a non-empty matrix divides by zero, Forward,
whatever the block size; the unblocked routine returns columns of the identity. -/
theorem C47_ungq_no_reflectors_violated (isReal : Bool) (nb : Nat) (A : MatV L) (tau work : VecV L)
    (hA : A.Inj) (hn : A.n ≤ A.m) (hn0 : 0 < A.n) (hk : tau.n = 0) (μ : Store L 𝕜) :
    ∃ ν, ungqBlk isReal nb .Forward .Columnwise A tau work μ = (.error .ub, ν) := by
  have key : wp (ungqBlk isReal nb .Forward .Columnwise A tau work) μ (fun _ _ => False) (fun e _ => e = .ub) := by
    unfold ungqBlk
    simp only [wp_bind, wp_check]
    rw [if_pos (by simp; omega), if_neg (by omega)]
    simp only [wp_bind]
    rw [hk, Nat.min_zero]
    refine wp_blockWork (by split <;> simp) ?_
    refine wp_slice (by omega) (by omega) (by omega) (by omega) ?_
    refine wp_slice (by omega) (by omega) (by omega) (by omega) ?_
    refine wp_conseq (wp_lasetG (hA.sub (by omega) (le_refl _))) fun _ ν1 h1 => ?_
    refine wp_conseq (wp_lasetG (hA.sub (by omega) (le_refl _))) fun _ ν2 h2 => ?_
    unfold ungqLoop
    rw [if_pos rfl]
    simp
  unfold wp at key
  rcases h : ungqBlk isReal nb .Forward .Columnwise A tau work μ with ⟨r, ν⟩
  rw [h] at key
  cases r with
  | ok a => exact key.elim
  | error e => exact ⟨ν, by rw [key]⟩

/-- Three reflectors in blocks of two, four columns of a 5×4 matrix; four rows of a 4×5 one. -/
example : UngqBlkOK 2 .Forward .Columnwise (mkM 0 5 4) (mkV 1 3) (mkV 2 10) ∧
    UngqBlkOK 2 .Backward .Rowwise (mkM 0 4 5) (mkV 1 3) (mkV 2 10) := by
  refine ⟨⟨⟨?_, ?_, ?_, ?_, ?_, ?_⟩, ?_, ?_, ?_, ?_⟩, ⟨⟨?_, ?_, ?_, ?_, ?_, ?_⟩, ?_, ?_, ?_, ?_⟩⟩ <;> adm

end TLA
