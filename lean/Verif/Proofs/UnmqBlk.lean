import Verif.Proofs.Geqrf
import Verif.Proofs.HouseApply
set_option linter.unusedTactic false
set_option linter.unusedVariables false
set_option linter.unreachableTactic false
set_option linter.unusedSectionVars false

/-! # unmq (blocked) -/

namespace TLA
open Finset
variable {L 𝕜 : Type} [DecidableEq L] [RCLike 𝕜] [DecidableEq 𝕜]

theorem mat_mul_emb {m n r0 q : Nat} (hq : r0 + q ≤ n) (M : Matrix (Fin q) (Fin q) 𝕜) (X : Nat → Nat → 𝕜) :
    mat m n X * emb n r0 M = mat m n fun r c => if r0 ≤ c ∧ c < r0 + q then ∑ s ∈ range q, X r (r0 + s) * toF M s (c - r0)
      else X r c := by
  have h := emb_mul_mat (m := n) (n := m) hq M.conjTranspose (fun r c => star (X c r))
  have h' := congrArg Matrix.conjTranspose h
  rw [Matrix.conjTranspose_mul, mat_conjTranspose, emb_conjTranspose, Matrix.conjTranspose_conjTranspose, mat_conjTranspose] at h'
  simp only [star_star] at h'
  refine Eq.trans h' ?_
  rw [mat_ext_iff]
  intro r c hr hc
  by_cases e : r0 ≤ c ∧ c < r0 + q
  · rw [if_pos e, if_pos e, star_sum]
    refine Finset.sum_congr rfl fun s hs => ?_
    rw [mem_range] at hs
    have : star (toF M.conjTranspose (c - r0) s) = toF M s (c - r0) := by
      have h1 : c - r0 < q := by omega
      simp [toF, h1, hs, Matrix.conjTranspose_apply]
    rw [star_mul', star_star, this, mul_comm]
  · rw [if_neg e, if_neg e, star_star]

/-- A product of consecutive reflectors, increasing or decreasing. -/
def segP {q : Nat} (inc : Bool) (H : Nat → Matrix (Fin q) (Fin q) 𝕜) (i len : Nat) : Matrix (Fin q) (Fin q) 𝕜 :=
  if inc then ((List.range' i len).reverse.map H).prod else ((List.range' i len).map H).prod

theorem segP_zero {q : Nat} (inc : Bool) (H : Nat → Matrix (Fin q) (Fin q) 𝕜) (i : Nat) : segP inc H i 0 = 1 := by
  unfold segP; split <;> simp

theorem segP_add {q : Nat} (inc : Bool) (H : Nat → Matrix (Fin q) (Fin q) 𝕜) (i a b : Nat) :
    segP inc H i (a + b) = if inc then segP inc H (i + a) b * segP inc H i a else segP inc H i a * segP inc H (i + a) b := by
  have h : List.range' i (a + b) = List.range' i a ++ List.range' (i + a) b := by
    have := List.range'_append (s := i) (m := a) (n := b) (step := 1)
    rw [← this, Nat.one_mul]
  cases inc <;> simp only [segP, h, List.reverse_append, List.map_append, List.prod_append, if_true, Bool.false_eq_true, if_false]

/-- `op` of the reflectors of a block, from the local factor. -/
theorem opQ_blockP {isReal : Bool} {trans : Op} (dir : Direction) (store : StoreV) (q k : Nat) (V : Nat → Nat → 𝕜) (t : Nat → 𝕜)
    (ht : trans = .NoTrans ∨ trans = .ConjTrans ∨ (trans = .Trans ∧ isReal = true))
    (hreal : isReal = true → ∀ z : 𝕜, star z = z) :
    opQ (if store = .Columnwise then trans else (if trans = .NoTrans then .ConjTrans else .NoTrans)) (houseP dir store q k V t) =
      segP (unmqInc .Left trans dir store) (unmqH trans dir store q k V t) 0 k := by
  have e : opQ (if store = .Columnwise then trans else (if trans = .NoTrans then .ConjTrans else .NoTrans)) (houseP dir store q k V t)
      = opQ trans (houseQ dir store q k V t) := by
    cases store with
    | Columnwise => rw [if_pos rfl, houseP_cols]
    | Rowwise =>
      rw [if_neg (by simp), houseP_rows]
      rcases ht with rfl | rfl | ⟨rfl, hr⟩
      · rfl
      · simp [opQ]
      · have : ∀ M : Matrix (Fin q) (Fin q) 𝕜, M.conjTranspose.transpose = M := by
          intro M; ext i j; simp [Matrix.conjTranspose_apply, hreal hr]
        simp [opQ, this]
  rw [e, opQ_eq (isReal := isReal) dir store q k V t ht hreal, segP, List.range_eq_range']

/-- The embedded block. -/
theorem emb_block {trans : Op} {dir : Direction} {store : StoreV} {q k i ib : Nat} {V V' : Nat → Nat → 𝕜} {t t' : Nat → 𝕜}
    (hk : k ≤ q) (hi : i + ib ≤ k) {r0 q' : Nat} (hr0 : r0 = if dir = .Forward then i else 0)
    (hq' : r0 + q' = if dir = .Forward then q else q - k + i + ib)
    (ht : ∀ j, j < ib → t' j = t (i + j))
    (hV : ∀ r j, r < q' → j < ib → (if store = .Columnwise then V' r j = V (r0 + r) (i + j) else V' j r = V (i + j) (r0 + r)))
    (inc : Bool) :
    emb q r0 (segP inc (unmqH trans dir store q' ib V' t') 0 ib) = segP inc (unmqH trans dir store q k V t) i ib := by
  have hle : r0 + q' ≤ q := by rw [hq']; split <;> omega
  have hH : ∀ j, j < ib → emb q r0 (unmqH trans dir store q' ib V' t' j) = unmqH trans dir store q k V t (i + j) := by
    intro j hj
    unfold unmqH
    rw [ht j hj]
    symm
    refine emb_refl _ _ _ (fun r hr hrm => ?_) (fun r hr hr' => ?_)
    · unfold houseVec
      have e3 : hpiv dir q k (i + j) = r0 + hpiv dir q' ib j := by
        rw [hr0] at hq' ⊢; unfold hpiv; cases dir <;> simp at hq' ⊢ <;> omega
      have e4 := hV r j hr hj
      cases store with
      | Columnwise =>
        simp only [if_true] at e4
        simp only [e3, e4, Nat.add_right_inj, Nat.add_lt_add_iff_left]
      | Rowwise =>
        simp only [reduceCtorEq, if_false] at e4
        simp only [e3, e4, Nat.add_right_inj, Nat.add_lt_add_iff_left]
    · unfold houseVec
      rw [if_neg, if_pos]
      · rw [hq', hr0] at hr'; unfold hpiv; cases dir <;> simp at hr' ⊢ <;> omega
      · rw [hq', hr0] at hr'; unfold hpiv; cases dir <;> simp at hr' ⊢ <;> omega
  have hr : List.range' i ib = (List.range' 0 ib).map (fun j => i + j) := by
    rw [List.map_add_range']; simp
  unfold segP
  split
  · rw [emb_list hle, hr, ← List.map_reverse, List.map_map]
    congr 1
    refine List.map_congr_left fun j hj => ?_
    simp at hj
    exact hH j hj
  · rw [emb_list hle, hr, List.map_map]
    congr 1
    refine List.map_congr_left fun j hj => ?_
    simp at hj
    exact hH j hj

theorem wp_unmqBlkStep {isReal : Bool} {side : Side} {trans : Op} {dir : Direction} {store : StoreV} {V : MatV L} {tau : VecV L}
    {C : MatV L} {work : VecV L} {nb0 nb : Nat} (hnb : nb = min nb0 tau.n) (ok : UnmqBlkOK nb0 side store V tau C work)
    (ht : trans = .NoTrans ∨ trans = .ConjTrans ∨ (trans = .Trans ∧ isReal = true))
    (hreal : isReal = true → ∀ z : 𝕜, star z = z) {i ib : Nat} (hi : i < tau.n) (hib : ib = min nb (tau.n - i)) {μ0 μ : Store L 𝕜}
    (hfr : ∀ l, ¬ C.Owns l → ¬ work.Owns l → μ l = μ0 l) :
    wp (unmqBlkStep isReal side trans dir store V tau C (wview work nb nb) (work.sub (nb * nb) work.n) nb i) μ (fun _ ν =>
      (∀ l, ¬ C.Owns l → ¬ work.Owns l → ν l = μ0 l) ∧
      (if side = .Left then mat C.m C.n (entry ν C) =
        segP (unmqInc .Left trans dir store) (unmqH trans dir store C.m tau.n (entry μ0 V) (ventry μ0 tau)) i ib *
          mat C.m C.n (entry μ C)
       else mat C.m C.n (entry ν C) = mat C.m C.n (entry μ C) *
        segP (unmqInc .Left trans dir store) (unmqH trans dir store C.n tau.n (entry μ0 V) (ventry μ0 tau)) i ib)) := by
  have htau : ∀ j, j < tau.n → ventry μ tau j = ventry μ0 tau j := fun j hj => hfr _ (ok.tC j hj) (ok.tw j hj)
  have hVe : ∀ r c, r < V.m → c < V.n → entry μ V r c = entry μ0 V r c := fun r c hr hc =>
    hfr _ (ok.VC r c hr hc) (ok.Vw r c hr hc)
  have hq := ok.kq
  have hvm := ok.vm
  have wn := ok.wn
  unfold unmqBlkStep
  simp only [wp_bind, ← hib]
  obtain ⟨q, hqd⟩ : ∃ q, q = (if side = .Left then C.m else C.n) := ⟨_, rfl⟩
  simp only [← hqd] at hq hvm ⊢
  obtain ⟨r0, hr0⟩ : ∃ r0, r0 = (if dir = .Forward then i else 0) := ⟨_, rfl⟩
  obtain ⟨r1, hr1⟩ : ∃ r1, r1 = (if dir = .Forward then q else q - tau.n + i + ib) := ⟨_, rfl⟩
  simp only [← hr0, ← hr1]
  have hlt : r0 ≤ r1 := by rw [hr0, hr1]; split <;> omega
  have hle : r1 ≤ q := by rw [hr1]; split <;> omega
  have hib' : ib ≤ r1 - r0 := by rw [hr0, hr1]; split <;> omega
  have hwpV : wp (if store = .Columnwise then V.slice r0 r1 i (i + ib) else V.slice i (i + ib) r0 r1) μ (fun Vi ν =>
      ν = μ ∧ Vi = if store = .Columnwise then V.sub r0 r1 i (i + ib) else V.sub i (i + ib) r0 r1) := by
    by_cases e : store = .Columnwise
    · simp only [e, if_true] at hvm ⊢
      exact wp_slice hlt (by omega) (by omega) (by omega) ⟨rfl, rfl⟩
    · simp only [e, if_false] at hvm ⊢
      exact wp_slice (by omega) (by omega) hlt (by omega) ⟨rfl, rfl⟩
  refine wp_conseq hwpV ?_
  rintro Vi μ' ⟨hμ', hVi⟩
  subst μ'
  refine wp_vslice (by omega) (by omega) ?_
  have hVo : ∀ l, Vi.Owns l → V.Owns l := by
    intro l ho
    rw [hVi] at ho
    split at ho <;> rename_i e <;> simp only [e, if_true, if_false] at hvm
    · exact ho.sub (by omega) (by omega)
    · exact ho.sub (by omega) (by omega)
  have dVi : ∀ B : MatV L, V.Disj B → Vi.Disj B := by
    intro B hd a b ha hb ho
    obtain ⟨a', b', ha', hb', e⟩ := hVo _ ⟨a, b, ha, hb, rfl⟩
    exact hd a' b' ha' hb' (e ▸ ho)
  have dViw : Vi.DisjV work := by
    intro a b ha hb ho
    obtain ⟨a', b', ha', hb', e⟩ := hVo _ ⟨a, b, ha, hb, rfl⟩
    exact ok.Vw a' b' ha' hb' (e ▸ ho)
  have hvc : vcnt store Vi = ib := by rw [hVi]; cases store <;> simp [vcnt, MatV.sub]
  have hvl : vlen store Vi = r1 - r0 := by rw [hVi]; cases store <;> simp [vlen, MatV.sub]
  have htn : (tau.sub i (i + ib)).n = ib := by simp [VecV.sub]
  have hle2 : nb * nb ≤ work.n := by
    refine le_trans ?_ wn
    unfold unmqBlkWorksize
    rw [C05_add_size _ _ (by simp [WorkInfo.Valid, WorkInfo.ofMat]) (by unfold larfbWorksize; split <;> simp [WorkInfo.Valid, WorkInfo.ofMat])]
    rw [← hnb]
    exact Nat.le_add_right _ _
  unfold unmqBlkWorksize at wn
  rw [C05_add_size _ _ (by simp [WorkInfo.Valid, WorkInfo.ofMat]) (by unfold larfbWorksize; split <;> simp [WorkInfo.Valid, WorkInfo.ofMat]),
    ← hnb] at wn
  have hVloc : ∀ r j, r < r1 - r0 → j < ib → (if store = .Columnwise then entry μ Vi r j = entry μ0 V (r0 + r) (i + j)
      else entry μ Vi j r = entry μ0 V (i + j) (r0 + r)) := by
    intro r j hr hj
    rw [hVi]
    by_cases e : store = .Columnwise
    · simp only [e, if_true] at hvm ⊢
      exact hVe _ _ (by omega) (by omega)
    · simp only [e, if_false] at hvm ⊢
      exact hVe _ _ (by omega) (by omega)
  have hseg := emb_block (trans := trans) (dir := dir) (store := store) (q := q) (k := tau.n) (i := i) (ib := ib)
    (V := entry μ0 V) (V' := entry μ Vi) (t := ventry μ0 tau) (t' := ventry μ (tau.sub i (i + ib))) hq (by omega)
    (r0 := r0) (q' := r1 - r0) hr0 (by rw [← hr1]; omega) (fun j hj => htau (i + j) (by omega)) hVloc (unmqInc .Left trans dir store)
  have ht' : ∀ tr, tr = (if store = .Columnwise then trans else (if trans = .NoTrans then .ConjTrans else .NoTrans)) →
      (tr = .NoTrans ∨ tr = .ConjTrans ∨ (tr = .Trans ∧ isReal = true)) := by
    intro tr e
    cases store
    · simp only [if_true] at e; rw [e]; exact ht
    · simp only [reduceCtorEq, if_false] at e
      split at e <;> simp [e]
  unfold unmqPart
  rcases ok.hside with rfl | rfl
  · simp only [if_true] at hqd ⊢
    subst hqd
    refine wp_slice hlt hle (by omega) (by omega) ?_
    have bok : BlkOK .Left store Vi (tau.sub i (i + ib)) (wview work nb nb) (C.sub r0 r1 0 C.n) (work.sub (nb * nb) work.n) := by
      refine blkOK_of (Or.inl rfl) (ok.inj.sub hle (le_refl _)) ok.winj (dVi _ (ok.VC.sub_right hle (le_refl _))) dViw
        (vec_sub_disj ok.tw (by omega)) (ok.Cw.rows hle (le_refl _)) (by rw [htn]; omega) (by rw [hvc, htn]) ?_ (by rw [htn, hvl]; omega) ?_
      · rw [hvl]; simp [MatV.sub]
      · simp only [larfbWorksize, if_true, WorkInfo.size, WorkInfo.ofMat, htn, MatV.sub_n] at wn ⊢
        have : ib * (C.n - 0) ≤ nb * C.n := Nat.mul_le_mul (by omega) (by omega)
        omega
    refine wp_conseq (wp_blockApplyD bok (ht' _ rfl) hreal (m := r1 - r0) (n := C.n) (k := ib) (by simp [MatV.sub]) (by simp [MatV.sub]) htn μ) ?_
    rintro _ ν ⟨e, fr⟩
    have hfr2 : ∀ l, ¬ (C.sub r0 r1 0 C.n).Owns l → ¬ work.Owns l → ν l = μ l := fun l h1 h2 =>
      fr l h1 (fun ho => h2 (ho.sub (le_refl _))) (fun ho => h2 (wview_owns hle2 ho))
    refine ⟨fun l h1 h2 => (hfr2 l (fun ho => h1 (ho.sub hle (le_refl _))) h2).trans (hfr l h1 h2), ?_⟩
    simp only [if_true] at e
    rw [opQ_blockP (isReal := isReal) dir store _ _ _ _ ht hreal] at e
    rw [← hseg, emb_mul_mat (by omega), mat_ext_iff]
    intro r c hr hc
    by_cases h1 : r0 ≤ r ∧ r < r0 + (r1 - r0)
    · rw [if_pos h1]
      have e1 := congrArg (fun M => toF M (r - r0) c) e
      simp only [toF_mul _ _ (show r - r0 < r1 - r0 by omega) hc, toF_mat _ (show r - r0 < r1 - r0 by omega) hc] at e1
      have e2 : entry ν (C.sub r0 r1 0 C.n) (r - r0) c = entry ν C r c := by
        show ν (C.cell _ _) = ν (C.cell _ _)
        rw [show r0 + (r - r0) = r by omega, Nat.zero_add]
      rw [← e2, e1]
      refine Finset.sum_congr rfl fun l hl => ?_
      rw [toF_mat _ (mem_range.1 hl) hc]
      congr 1
      show μ (C.cell _ _) = μ (C.cell _ _)
      rw [Nat.zero_add]
    · rw [if_neg h1]
      refine hfr2 _ ?_ (ok.Cw r c hr hc)
      rintro ⟨a, b, ha, hb, e'⟩
      simp only [MatV.sub] at ha hb e'
      have := ok.inj _ _ _ _ (by omega) (by omega) hr hc e'
      omega
  · simp only [reduceCtorEq, if_false] at hqd ⊢
    subst hqd
    refine wp_slice (by omega) (by omega) hlt hle ?_
    have bok : BlkOK .Right store Vi (tau.sub i (i + ib)) (wview work nb nb) (C.sub 0 C.m r0 r1) (work.sub (nb * nb) work.n) := by
      refine blkOK_of (Or.inr rfl) (ok.inj.sub (le_refl _) hle) ok.winj (dVi _ (ok.VC.sub_right (le_refl _) hle)) dViw
        (vec_sub_disj ok.tw (by omega)) (ok.Cw.rows (le_refl _) hle) (by rw [htn]; omega) (by rw [hvc, htn]) ?_ (by rw [htn, hvl]; omega) ?_
      · rw [hvl]; simp [MatV.sub]
      · simp only [larfbWorksize, reduceCtorEq, if_false, WorkInfo.size, WorkInfo.ofMat, htn, MatV.sub_m] at wn ⊢
        have : (C.m - 0) * ib ≤ C.m * nb := Nat.mul_le_mul (by omega) (by omega)
        omega
    refine wp_conseq (wp_blockApplyD bok (ht' _ rfl) hreal (m := C.m) (n := r1 - r0) (k := ib) (by simp [MatV.sub]) (by simp [MatV.sub]) htn μ) ?_
    rintro _ ν ⟨e, fr⟩
    have hfr2 : ∀ l, ¬ (C.sub 0 C.m r0 r1).Owns l → ¬ work.Owns l → ν l = μ l := fun l h1 h2 =>
      fr l h1 (fun ho => h2 (ho.sub (le_refl _))) (fun ho => h2 (wview_owns hle2 ho))
    refine ⟨fun l h1 h2 => (hfr2 l (fun ho => h1 (ho.sub (le_refl _) hle)) h2).trans (hfr l h1 h2), ?_⟩
    simp only [reduceCtorEq, if_false] at e
    rw [opQ_blockP (isReal := isReal) dir store _ _ _ _ ht hreal] at e
    rw [← hseg, mat_mul_emb (by omega), mat_ext_iff]
    intro r c hr hc
    by_cases h1 : r0 ≤ c ∧ c < r0 + (r1 - r0)
    · rw [if_pos h1]
      have e1 := congrArg (fun M => toF M r (c - r0)) e
      simp only [toF_mul _ _ hr (show c - r0 < r1 - r0 by omega), toF_mat _ hr (show c - r0 < r1 - r0 by omega)] at e1
      have e2 : entry ν (C.sub 0 C.m r0 r1) r (c - r0) = entry ν C r c := by
        show ν (C.cell _ _) = ν (C.cell _ _)
        rw [show r0 + (c - r0) = c by omega, Nat.zero_add]
      rw [← e2, e1]
      refine Finset.sum_congr rfl fun l hl => ?_
      rw [toF_mat _ hr (mem_range.1 hl)]
      congr 1
      show μ (C.cell _ _) = μ (C.cell _ _)
      rw [Nat.zero_add]
    · rw [if_neg h1]
      refine hfr2 _ ?_ (ok.Cw r c hr hc)
      rintro ⟨a, b, ha, hb, e'⟩
      simp only [MatV.sub] at ha hb e'
      have := ok.inj _ _ _ _ (by omega) (by omega) hr hc e'
      omega

theorem wp_unmqBlk {isReal : Bool} {side : Side} {trans : Op} {dir : Direction} {store : StoreV} {V : MatV L} {tau : VecV L}
    {C : MatV L} {work : VecV L} {nb0 : Nat} (ok : UnmqBlkOK nb0 side store V tau C work)
    (ht : trans = .NoTrans ∨ trans = .ConjTrans ∨ (trans = .Trans ∧ isReal = true))
    (hreal : isReal = true → ∀ z : 𝕜, star z = z) {μ : Store L 𝕜} :
    wp (unmqBlk isReal nb0 side trans dir store V tau C work) μ (fun r ν => r = 0 ∧
      mat C.m C.n (entry ν C) = (if side = .Left then
        opQ trans (houseQ dir store C.m tau.n (entry μ V) (ventry μ tau)) * mat C.m C.n (entry μ C)
        else mat C.m C.n (entry μ C) * opQ trans (houseQ dir store C.n tau.n (entry μ V) (ventry μ tau))) ∧
      ∀ l, ¬ C.Owns l → ¬ work.Owns l → ν l = μ l) := by
  have hvm := ok.vm
  have hnb0 := ok.nb
  unfold unmqBlk
  simp only [wp_bind, wp_check]
  rw [if_pos (by rcases ok.hside with h | h <;> simp [h]),
    if_pos (by rcases ht with h | h | h <;> simp [h]), if_pos (by
      cases store
      · simp only [if_true] at hvm; simp only [decide_eq_true_eq]; exact ⟨hvm.2, hvm.1⟩
      · simp only [reduceCtorEq, if_false] at hvm; simp only [decide_eq_true_eq]; exact ⟨hvm.2, hvm.1⟩)]
  have eQ : ∀ q, opQ trans (houseQ dir store q tau.n (entry μ V) (ventry μ tau)) =
      segP (unmqInc .Left trans dir store) (unmqH trans dir store q tau.n (entry μ V) (ventry μ tau)) 0 tau.n := by
    intro q
    rw [opQ_eq (isReal := isReal) dir store q tau.n _ _ ht hreal, segP, List.range_eq_range']
  rw [eQ, eQ]
  by_cases h0 : C.m = 0 ∨ C.n = 0 ∨ tau.n = 0
  · rw [if_pos h0, wp_pure]
    refine ⟨rfl, ?_, fun _ _ _ => rfl⟩
    by_cases h1 : C.m = 0
    · funext i; exact absurd i.2 (by omega)
    by_cases h2 : C.n = 0
    · funext i j; exact absurd j.2 (by omega)
    · have h3 : tau.n = 0 := by omega
      rw [h3, segP_zero, segP_zero]
      simp
  rw [if_neg h0]
  simp only [wp_bind]
  obtain ⟨nb, hnb⟩ : ∃ nb, nb = min nb0 tau.n := ⟨_, rfl⟩
  rw [← hnb]
  have hle2 : nb * nb ≤ work.n := by
    refine le_trans ?_ ok.wn
    unfold unmqBlkWorksize
    rw [C05_add_size _ _ (by simp [WorkInfo.Valid, WorkInfo.ofMat]) (by unfold larfbWorksize; split <;> simp [WorkInfo.Valid, WorkInfo.ofMat])]
    rw [← hnb]
    exact Nat.le_add_right _ _
  refine wp_reshapeWM hle2 ?_
  have hnbp : 0 < nb := by omega
  rw [if_neg (by omega)]
  have hblk : ∀ b, b < (tau.n - 1) / nb + 1 → b * nb < tau.n := by
    intro b hb
    have h1 : b ≤ (tau.n - 1) / nb := by omega
    have h2 := (Nat.le_div_iff_mul_le hnbp).1 h1
    omega
  have hend : tau.n ≤ ((tau.n - 1) / nb + 1) * nb := by
    have := Nat.lt_div_mul_add (a := tau.n - 1) hnbp
    rw [Nat.add_mul, Nat.one_mul]
    omega
  have hneg : unmqInc .Right trans dir store = !(unmqInc .Left trans dir store) := by
    simp [unmqInc]
  rcases ok.hside with rfl | rfl
  · simp only [if_true]
    obtain ⟨H, hH⟩ : ∃ H, H = unmqH trans dir store C.m tau.n (entry μ V) (ventry μ tau) := ⟨_, rfl⟩
    rw [← hH]
    by_cases hinc : unmqInc .Left trans dir store = true
    · rw [if_pos hinc, hinc]
      simp only [wp_bind]
      refine wp_forUp_ (fun s ν => (∀ l, ¬ C.Owns l → ¬ work.Owns l → ν l = μ l) ∧
        mat C.m C.n (entry ν C) = segP true H 0 (min (s * nb) tau.n) * mat C.m C.n (entry μ C)) (Nat.zero_le _)
        ⟨fun _ _ _ => rfl, by rw [Nat.zero_mul, Nat.zero_min, segP_zero]; simp⟩ ?_ ?_
      · rintro b ν _ hb ⟨hfr, hp⟩
        have hbk : b * nb < tau.n := hblk b hb
        refine wp_conseq (wp_unmqBlkStep hnb ok ht hreal hbk rfl hfr) ?_
        rintro _ ν' ⟨hfr', hp'⟩
        simp only [if_true, hinc, ← hH] at hp'
        refine ⟨hfr', ?_⟩
        rw [hp', hp, show min ((b + 1) * nb) tau.n = min (b * nb) tau.n + min nb (tau.n - b * nb) by
          rw [Nat.succ_mul]; omega, segP_add, show min (b * nb) tau.n = b * nb by omega, Nat.zero_add]
        simp only [if_true, Matrix.mul_assoc]
      · rintro ν ⟨hfr, hp⟩
        rw [show min (((tau.n - 1) / nb + 1) * nb) tau.n = tau.n by omega] at hp
        rw [wp_pure]
        exact ⟨rfl, hp, hfr⟩
    · rw [if_neg hinc]
      rw [Bool.not_eq_true] at hinc
      rw [hinc]
      simp only [wp_bind]
      refine wp_forDown_ (fun s ν => (∀ l, ¬ C.Owns l → ¬ work.Owns l → ν l = μ l) ∧
        mat C.m C.n (entry ν C) = segP false H (min (s * nb) tau.n) (tau.n - min (s * nb) tau.n) * mat C.m C.n (entry μ C)) (Nat.zero_le _)
        ⟨fun _ _ _ => rfl, by
          rw [show tau.n - min (((tau.n - 1) / nb + 1) * nb) tau.n = 0 by omega, segP_zero]; simp⟩ ?_ ?_
      · rintro b ν _ hb ⟨hfr, hp⟩
        have hbk : b * nb < tau.n := hblk b hb
        refine wp_conseq (wp_unmqBlkStep hnb ok ht hreal hbk rfl hfr) ?_
        rintro _ ν' ⟨hfr', hp'⟩
        simp only [if_true, hinc, ← hH] at hp'
        refine ⟨hfr', ?_⟩
        have e1 : tau.n - min (b * nb) tau.n = min nb (tau.n - b * nb) + (tau.n - min ((b + 1) * nb) tau.n) := by
          rw [Nat.succ_mul]; omega
        have e2 : b * nb + min nb (tau.n - b * nb) = min ((b + 1) * nb) tau.n := by rw [Nat.succ_mul]; omega
        rw [hp', hp, e1, segP_add, show min (b * nb) tau.n = b * nb by omega, e2]
        simp only [Bool.false_eq_true, if_false, Matrix.mul_assoc]
      · rintro ν ⟨hfr, hp⟩
        rw [Nat.zero_mul, Nat.zero_min, Nat.sub_zero] at hp
        rw [wp_pure]
        exact ⟨rfl, hp, hfr⟩
  · simp only [reduceCtorEq, if_false]
    obtain ⟨H, hH⟩ : ∃ H, H = unmqH trans dir store C.n tau.n (entry μ V) (ventry μ tau) := ⟨_, rfl⟩
    rw [← hH, hneg]
    by_cases hinc : unmqInc .Left trans dir store = true
    · rw [hinc]
      simp only [Bool.not_true, Bool.false_eq_true, if_false]
      simp only [wp_bind]
      refine wp_forDown_ (fun s ν => (∀ l, ¬ C.Owns l → ¬ work.Owns l → ν l = μ l) ∧
        mat C.m C.n (entry ν C) = mat C.m C.n (entry μ C) * segP true H (min (s * nb) tau.n) (tau.n - min (s * nb) tau.n)) (Nat.zero_le _)
        ⟨fun _ _ _ => rfl, by
          rw [show tau.n - min (((tau.n - 1) / nb + 1) * nb) tau.n = 0 by omega, segP_zero]; simp⟩ ?_ ?_
      · rintro b ν _ hb ⟨hfr, hp⟩
        have hbk : b * nb < tau.n := hblk b hb
        refine wp_conseq (wp_unmqBlkStep hnb ok ht hreal hbk rfl hfr) ?_
        rintro _ ν' ⟨hfr', hp'⟩
        simp only [reduceCtorEq, if_false, hinc, ← hH] at hp'
        refine ⟨hfr', ?_⟩
        have e1 : tau.n - min (b * nb) tau.n = min nb (tau.n - b * nb) + (tau.n - min ((b + 1) * nb) tau.n) := by
          rw [Nat.succ_mul]; omega
        have e2 : b * nb + min nb (tau.n - b * nb) = min ((b + 1) * nb) tau.n := by rw [Nat.succ_mul]; omega
        rw [hp', hp, e1, segP_add, show min (b * nb) tau.n = b * nb by omega, e2]
        simp only [if_true, Matrix.mul_assoc]
      · rintro ν ⟨hfr, hp⟩
        rw [Nat.zero_mul, Nat.zero_min, Nat.sub_zero] at hp
        rw [wp_pure]
        exact ⟨rfl, hp, hfr⟩
    · rw [Bool.not_eq_true] at hinc
      rw [hinc]
      simp only [Bool.not_false, if_true]
      simp only [wp_bind]
      refine wp_forUp_ (fun s ν => (∀ l, ¬ C.Owns l → ¬ work.Owns l → ν l = μ l) ∧
        mat C.m C.n (entry ν C) = mat C.m C.n (entry μ C) * segP false H 0 (min (s * nb) tau.n)) (Nat.zero_le _)
        ⟨fun _ _ _ => rfl, by rw [Nat.zero_mul, Nat.zero_min, segP_zero]; simp⟩ ?_ ?_
      · rintro b ν _ hb ⟨hfr, hp⟩
        have hbk : b * nb < tau.n := hblk b hb
        refine wp_conseq (wp_unmqBlkStep hnb ok ht hreal hbk rfl hfr) ?_
        rintro _ ν' ⟨hfr', hp'⟩
        simp only [reduceCtorEq, if_false, hinc, ← hH] at hp'
        refine ⟨hfr', ?_⟩
        rw [hp', hp, show min ((b + 1) * nb) tau.n = min (b * nb) tau.n + min nb (tau.n - b * nb) by
          rw [Nat.succ_mul]; omega, segP_add, show min (b * nb) tau.n = b * nb by omega, Nat.zero_add]
        simp only [Bool.false_eq_true, if_false, Matrix.mul_assoc]
      · rintro ν ⟨hfr, hp⟩
        rw [show min (((tau.n - 1) / nb + 1) * nb) tau.n = tau.n by omega] at hp
        rw [wp_pure]
        exact ⟨rfl, hp, hfr⟩

end TLA
