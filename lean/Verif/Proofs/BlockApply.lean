import Verif.Proofs.Larfb
set_option linter.unusedTactic false
set_option linter.unusedVariables false
set_option linter.unreachableTactic false

/-! # larfb and larft + larfb -/

namespace TLA
open Finset
variable {L : Type} [DecidableEq L]

section ok
omit [DecidableEq L]

theorem LarfbOK.check {side : Side} {store : StoreV} {V Tm C : MatV L} {work : VecV L}
    (ok : LarfbOK side store V Tm C work) : larfbCheck side store V C.m C.n Tm.m = true := by
  have hV := ok.Vk
  have hq := ok.Vq
  unfold larfbCheck
  cases store <;> rcases ok.hside with rfl | rfl <;> simp [vcnt, vlen] at hV hq ⊢ <;> simp [hV, hq]

end ok

variable {𝕜 : Type} [RCLike 𝕜] [DecidableEq 𝕜]

theorem wp_larfbCases {side : Side} {trans : Op} {dir : Direction} {store : StoreV} {V Tm C : MatV L} {work : VecV L}
    (ok : LarfbOK side store V Tm C work) (W : MatV L) {r1 r2 : Nat}
    (h1 : r1 = if dir = .Forward then 0 else vlen store V - Tm.m) (h2 : r2 = if dir = .Forward then Tm.m else 0)
    (μ : Store L 𝕜) (Q : Unit → Store L 𝕜 → Prop)
    (h : wp (larfbCore side trans dir store V Tm C W r1 r2 Tm.m (vlen store V - Tm.m)) μ Q) :
    wp (larfbCases side trans dir store V Tm C W C.m C.n Tm.m) μ Q := by
  have hV := ok.Vk
  have hq := ok.Vq
  have kq := ok.kq
  have hd : ∀ a b : Nat, decide (0 < a - b) = decide (a > b) := by intro a b; simp
  unfold larfbCore at h
  unfold larfbCases
  rcases ok.hside with rfl | rfl <;> cases store <;> cases dir <;>
    simp [vcnt, vlen] at hV hq kq h1 h2 <;> subst h1 h2 <;>
    simp only [if_true, if_false, reduceCtorEq, vlen, vpart, lbU, duplo, lbH, lbN, wp_bind, hq, zero_add] at h kq ⊢ <;>
    (repeat' (refine wp_slice (by omega) (by omega) (by omega) (by omega) ?_)) <;>
    (try rw [hd] at h) <;>
    first
    | (rw [show Tm.m + (C.m - Tm.m) = C.m by omega] at h; exact h)
    | (rw [show Tm.m + (C.n - Tm.m) = C.n by omega] at h; exact h)
    | (rw [show C.m - Tm.m + Tm.m = C.m by omega] at h; exact h)
    | (rw [show C.n - Tm.m + Tm.m = C.n by omega] at h; exact h)
    | skip

/-- The block reflector given by `V` and the triangular factor. -/
def blkH (dir : Direction) (store : StoreV) (q k : Nat) (V Tf : Nat → Nat → 𝕜) : Matrix (Fin q) (Fin q) 𝕜 :=
  mat q q (blkF (range k) (houseVec dir store q k V) (triF (duplo dir) .NonUnit Tf))

theorem wp_larfb {isReal : Bool} {side : Side} {trans : Op} {dir : Direction} {store : StoreV} {V Tm C : MatV L} {work : VecV L}
    (ok : LarfbOK side store V Tm C work)
    (ht : trans = .NoTrans ∨ trans = .ConjTrans ∨ (trans = .Trans ∧ isReal = true))
    (hreal : isReal = true → ∀ z : 𝕜, star z = z) (μ : Store L 𝕜) :
    wp (larfb isReal side trans dir store V Tm C work) μ (fun r ν => r = 0 ∧
      mat C.m C.n (entry ν C) = (if side = .Left then
        opQ trans (blkH dir store C.m Tm.m (entry μ V) (entry μ Tm)) * mat C.m C.n (entry μ C)
        else mat C.m C.n (entry μ C) * opQ trans (blkH dir store C.n Tm.m (entry μ V) (entry μ Tm))) ∧
      ∀ l, ¬ C.Owns l → ¬ work.Owns l → ν l = μ l) := by
  have ht' : trans = .NoTrans ∨ trans = .ConjTrans ∨ (trans = .Trans ∧ ∀ z : 𝕜, star z = z) := by
    rcases ht with h | h | ⟨h, h'⟩
    · exact Or.inl h
    · exact Or.inr (Or.inl h)
    · exact Or.inr (Or.inr ⟨h, hreal h'⟩)
  unfold larfb
  simp only [wp_bind, wp_check]
  rw [if_pos (by rcases ok.hside with h | h <;> simp [h]),
    if_pos (by rcases ht with h | h | h <;> simp [h]), if_pos ok.check, if_pos (by simp [ok.Tsq])]
  by_cases h0 : C.m = 0 ∨ C.n = 0 ∨ Tm.m = 0
  · rw [if_pos h0, wp_pure]
    refine ⟨rfl, ?_, fun _ _ _ => rfl⟩
    by_cases h1 : C.m = 0
    · funext i; exact absurd i.2 (by omega)
    by_cases h2 : C.n = 0
    · funext i j; exact absurd j.2 (by omega)
    · have h3 : Tm.m = 0 := by omega
      have e : ∀ q, opQ trans (blkH dir store q Tm.m (entry μ V) (entry μ Tm)) = 1 := by
        intro q
        have : blkH dir store q Tm.m (entry μ V) (entry μ Tm) = 1 := by
          rw [h3, ← mat_idF, blkH, mat_ext_iff]; intro i j _ _; simp [blkF, idF]
        rw [this]
        cases trans <;> simp [opQ]
      rw [e, e]
      simp
  rw [if_neg h0]
  have wn := ok.wn
  simp only [wp_bind]
  have Vq := ok.Vq
  rcases hs : ok.hside with rfl | rfl
  · simp only [larfbWorksize, if_true, WorkInfo.size, WorkInfo.ofMat] at wn Vq ⊢
    refine wp_reshapeWM wn ?_
    simp only []
    refine wp_larfbCases ok _ rfl rfl _ _ ?_
    have := wp_larfbCore (dir := dir) ok ht' (q := C.m) Vq.symm rfl rfl μ
    simp only [if_true] at this
    rw [Vq]
    refine wp_conseq this fun _ ν h => ?_
    exact ⟨rfl, h⟩
  · simp only [larfbWorksize, if_false, reduceCtorEq, WorkInfo.size, WorkInfo.ofMat] at wn Vq ⊢
    refine wp_reshapeWM wn ?_
    simp only []
    refine wp_larfbCases ok _ rfl rfl _ _ ?_
    have := wp_larfbCore (dir := dir) ok ht' (q := C.n) Vq.symm rfl rfl μ
    simp only [if_false, reduceCtorEq] at this
    rw [Vq]
    refine wp_conseq this fun _ ν h => ?_
    exact ⟨rfl, h⟩

/-- Admissible call of larft followed by larfb. -/
structure BlkOK (side : Side) (store : StoreV) (V : MatV L) (tau : VecV L) (TT C : MatV L) (work : VecV L) : Prop where
  hside : side = .Left ∨ side = .Right
  inj : C.Inj
  winj : work.Inj
  tinj : TT.Inj
  VC : V.Disj C
  Vw : V.DisjV work
  VT : V.Disj TT
  tT : tau.DisjM TT
  TC : TT.Disj C
  Tw : TT.DisjV work
  Cw : C.DisjV work
  km : tau.n ≤ TT.m
  kn : tau.n ≤ TT.n
  Vk : vcnt store V = tau.n
  Vq : vlen store V = if side = .Left then C.m else C.n
  kq : tau.n ≤ vlen store V
  wn : (larfbWorksize side C.m C.n tau.n).size ≤ work.n

theorem mat_rel_q {dir : Direction} {store : StoreV} {q k : Nat} {V : Nat → Nat → 𝕜} {t : Nat → 𝕜} {Tf : Nat → Nat → 𝕜}
    (h : TRel dir k (gramF q (houseVec dir store q k V)) t (triF (duplo dir) .NonUnit Tf)) :
    blkH dir store q k V Tf = houseP dir store q k V t := by
  unfold blkH houseP houseH
  exact h.prod

theorem wp_blockApply {isReal : Bool} {side : Side} {trans : Op} {dir : Direction} {store : StoreV} {V : MatV L} {tau : VecV L}
    {TT C : MatV L} {work : VecV L} (ok : BlkOK side store V tau TT C work)
    (ht : trans = .NoTrans ∨ trans = .ConjTrans ∨ (trans = .Trans ∧ isReal = true))
    (hreal : isReal = true → ∀ z : 𝕜, star z = z) (μ : Store L 𝕜) :
    wp (blockApply isReal side trans dir store V tau TT C work) μ (fun _ ν =>
      mat C.m C.n (entry ν C) = (if side = .Left then
        opQ trans (houseP dir store C.m tau.n (entry μ V) (ventry μ tau)) * mat C.m C.n (entry μ C)
        else mat C.m C.n (entry μ C) * opQ trans (houseP dir store C.n tau.n (entry μ V) (ventry μ tau))) ∧
      ∀ l, ¬ C.Owns l → ¬ work.Owns l → ¬ TT.Owns l → ν l = μ l) := by
  unfold blockApply
  have km := ok.km
  have kn := ok.kn
  simp only [wp_bind]
  refine wp_slice (by omega) km (by omega) kn ?_
  have lok : LarftOK store V tau (TT.sub 0 tau.n 0 tau.n) :=
    ⟨ok.tinj.sub km kn, ok.VT.sub_right km kn, fun i hi ho => ok.tT i hi (ho.sub km kn), ok.Vk.ge, ok.kq,
      by simp [MatV.sub], by simp [MatV.sub]⟩
  refine wp_conseq (wp_larft (dir := dir) lok μ) fun _ ν1 ⟨_, h1⟩ => ?_
  have fr1 : ∀ l, ¬ TT.Owns l → ν1 l = μ l := by
    intro l hl
    refine h1.frame l fun a b ha hb _ e => hl ⟨0 + a, 0 + b, by omega, by omega, e⟩
  have lbok : LarfbOK side store V (TT.sub 0 tau.n 0 tau.n) C work :=
    ⟨ok.hside, ok.inj, ok.winj, ok.VC, ok.Vw, ok.TC.sub_left km kn,
      fun i j hi hj => ok.Tw (0 + i) (0 + j) (by simp [MatV.sub] at hi; omega) (by simp [MatV.sub] at hj; omega), ok.Cw,
      by simp [MatV.sub], by simpa [MatV.sub] using ok.Vk, ok.Vq, by simpa [MatV.sub] using ok.kq,
      by simpa [MatV.sub] using ok.wn⟩
  refine wp_conseq (wp_larfb (dir := dir) lbok ht hreal ν1) fun _ ν ⟨_, e, fr⟩ => ?_
  refine ⟨?_, fun l hC hw hT => by rw [fr l hC hw, fr1 l hT]⟩
  have rel := h1.trel
  have eC : mat C.m C.n (entry ν1 C) = mat C.m C.n (entry μ C) := by
    rw [mat_ext_iff]
    intro i j hi hj
    exact fr1 _ fun ho => by
      obtain ⟨a, b, ha, hb, e'⟩ := ho
      exact ok.TC a b ha hb ⟨i, j, hi, hj, e'.symm⟩
  have eV : ∀ i j, i < V.m → j < V.n → entry ν1 V i j = entry μ V i j := by
    intro i j hi hj
    exact fr1 _ (ok.VT i j hi hj)
  have eq' : ∀ q, vlen store V = q → blkH dir store q tau.n (entry ν1 V) (entry ν1 (TT.sub 0 tau.n 0 tau.n)) =
      houseP dir store q tau.n (entry μ V) (ventry μ tau) := by
    intro q hq
    rw [← hq]
    rw [← mat_rel_q rel]
    unfold blkH
    rw [mat_ext_iff]
    intro i j hi hj
    unfold blkF
    congr 1
    have hV : ∀ a i, a < tau.n → i < vlen store V → houseVec dir store (vlen store V) tau.n (entry ν1 V) a i =
        houseVec dir store (vlen store V) tau.n (entry μ V) a i := by
      intro a i ha hi
      have hk := ok.Vk
      unfold houseVec
      cases store with
      | Columnwise => simp only [vlen, vcnt, if_true] at hi hk ⊢; rw [eV i a hi (by omega)]
      | Rowwise => simp only [vlen, vcnt, if_false, reduceCtorEq] at hi hk ⊢; rw [eV a i (by omega) hi]
    refine Finset.sum_congr rfl fun a ha => Finset.sum_congr rfl fun b hb => ?_
    simp only [mem_range] at ha hb
    rw [hV _ _ ha hi, hV _ _ hb hj]
  simp only [MatV.sub_m, Nat.sub_zero] at e
  rw [e, eC]
  have Vq := ok.Vq
  rcases ok.hside with rfl | rfl
  · simp only [if_true] at Vq ⊢; rw [eq' _ Vq]
  · simp only [if_false, reduceCtorEq] at Vq ⊢; rw [eq' _ Vq]

/-- The same with the dimensions as variables. -/
theorem wp_blockApplyD {isReal : Bool} {side : Side} {trans : Op} {dir : Direction} {store : StoreV} {V : MatV L} {tau : VecV L}
    {TT C : MatV L} {work : VecV L} (ok : BlkOK side store V tau TT C work)
    (ht : trans = .NoTrans ∨ trans = .ConjTrans ∨ (trans = .Trans ∧ isReal = true))
    (hreal : isReal = true → ∀ z : 𝕜, star z = z) {m n k : Nat} (hm : C.m = m) (hn : C.n = n) (hk : tau.n = k) (μ : Store L 𝕜) :
    wp (blockApply isReal side trans dir store V tau TT C work) μ (fun _ ν =>
      mat m n (entry ν C) = (if side = .Left then
        opQ trans (houseP dir store m k (entry μ V) (ventry μ tau)) * mat m n (entry μ C)
        else mat m n (entry μ C) * opQ trans (houseP dir store n k (entry μ V) (ventry μ tau))) ∧
      ∀ l, ¬ C.Owns l → ¬ work.Owns l → ¬ TT.Owns l → ν l = μ l) := by
  subst hm hn hk
  exact wp_blockApply ok ht hreal μ

end TLA
