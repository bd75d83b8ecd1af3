import Verif.Proofs.Hess
import Verif.Proofs.Embed
import Verif.Proofs.HouseFinal
import Verif.Proofs.HouseApply
import Verif.Proofs.UngqBlk2

/-! unghr and unmhr. -/

set_option linter.unusedSectionVars false
set_option linter.unusedTactic false
set_option linter.unreachableTactic false

namespace TLA
open Finset
variable {L 𝕜 : Type} [DecidableEq L] [RCLike 𝕜] [DecidableEq 𝕜] {p : HhPar}

theorem emb_transpose {m r0 q : Nat} (M : Matrix (Fin q) (Fin q) 𝕜) :
    emb m r0 M.transpose = (emb m r0 M).transpose := by
  unfold emb
  rw [mat_transpose, mat_ext_iff]
  intro r c hr hc
  beta_reduce
  by_cases h : (r0 ≤ r ∧ r < r0 + q) ∧ r0 ≤ c ∧ c < r0 + q
  · rw [if_pos h, if_pos ⟨h.2, h.1⟩]
    have h1 : r - r0 < q := by omega
    have h2 : c - r0 < q := by omega
    simp [toF, h1, h2, Matrix.transpose_apply]
  · have h2 : ¬ ((r0 ≤ c ∧ c < r0 + q) ∧ r0 ≤ r ∧ r < r0 + q) := fun h' => h ⟨h'.2, h'.1⟩
    rw [if_neg h, if_neg h2]
    by_cases e : r = c
    · rw [if_pos e, if_pos e.symm]
    · rw [if_neg e, if_neg (fun h => e h.symm)]

theorem emb_opQ {m r0 q : Nat} {trans : Op} (ht : trans ≠ .Conj) (M : Matrix (Fin q) (Fin q) 𝕜) :
    emb m r0 (opQ trans M) = opQ trans (emb m r0 M) := by
  cases trans with
  | NoTrans => rfl
  | Trans => exact emb_transpose M
  | ConjTrans => exact emb_conjTranspose M
  | Conj => exact absurd rfl ht

/-- The product of the reflectors of gehd2 acts on the rows `ilo+1..ihi`. -/
theorem hessQ_emb {n ilo ihi : Nat} (h0 : ilo < ihi) (h1 : ihi ≤ n) (V : Nat → Nat → 𝕜) (t : Nat → 𝕜) :
    hessQ n ilo ihi V t = emb n (ilo + 1) (houseQ .Forward .Columnwise (ihi - 1 - ilo) (ihi - 1 - ilo)
      (fun r i => V (ilo + 1 + r) (ilo + i)) (fun i => t (ilo + i))) := by
  unfold hessQ reflProd houseQ
  simp only []
  rw [emb_list (by omega)]
  congr 1
  refine List.map_congr_left fun i hi => ?_
  rw [List.mem_range] at hi
  unfold houseH
  refine emb_refl _ _ _ (fun r hr hr' => ?_) (fun r hr hr' => ?_)
  · unfold reflCol houseVec hpiv
    simp only [if_true]
    by_cases e : r = i
    · rw [if_pos (by omega), if_pos e]
    · rw [if_neg (by omega), if_neg e]
      by_cases e2 : r < i
      · rw [if_neg (by omega), if_pos e2]
      · rw [if_pos (by omega), if_neg e2]
  · exact reflCol_out (by omega) (by omega)

/-- The blocked ungq on a square matrix with a full set of reflectors. -/
theorem wp_ungqBlk_sq {isReal : Bool} (hreal : isReal = true → ∀ z : 𝕜, star z = z) {dir : Direction} {A : MatV L}
    {tau work : VecV L} {nb0 q : Nat} (hm : A.m = q) (hn : A.n = q) (hk : tau.n = q)
    (ok : UngqBlkOK nb0 dir .Columnwise A tau work) {μ : Store L 𝕜} :
    wp (ungqBlk isReal nb0 dir .Columnwise A tau work) μ (fun r ν => r = 0 ∧
      mat q q (entry ν A) = houseQ dir .Columnwise q q (entry μ A) (ventry μ tau) ∧
      ∀ l, ¬ A.Owns l → ¬ work.Owns l → ν l = μ l) := by
  refine wp_conseq (wp_ungqBlk_c hreal ok) ?_
  rintro r ν ⟨h0, h1, h2⟩
  refine ⟨h0, ?_⟩
  by_cases hq : q = 0
  · subst hq
    rw [h2 (by omega)]
    refine ⟨?_, fun _ _ _ => rfl⟩
    ext i; exact i.elim0
  have u := h1 (by omega)
  refine ⟨?_, u.frame⟩
  have e := u.inv.houseQ (by omega) rfl
  rw [hm, hn, hk] at e
  have hid : mat q q (eyeF (T := 𝕜) dir q q) = 1 := by
    rw [← mat_idF, mat_ext_iff]
    intro i j _ _
    unfold eyeF idF
    by_cases e : i = j
    · rw [if_pos e, if_pos (by split <;> omega)]
    · rw [if_neg e, if_neg (by split <;> omega)]
  rw [hid, Matrix.mul_one] at e
  have hc : ∀ i, qcol dir q q i = i := by
    intro i; unfold qcol; split <;> omega
  simp only [hc] at e
  exact e

/-! ### The data movement of unghr -/

/-- After the shift of column `j`. -/
def shiftF (ihi j : Nat) (G : Nat → Nat → 𝕜) : Nat → Nat → 𝕜 := fun r c =>
  if c = j then (if r < j then 0 else if r = j then G r j else if r < ihi then G r (j - 1) else 0) else G r c

theorem wp_unghrShift {A : MatV L} (hA : A.Inj) (hsq : A.m = A.n) {ihi j : Nat} (hj : 0 < j) (hj1 : j < ihi) (hi : ihi ≤ A.n)
    {μ0 ν : Store L 𝕜} {G : Nat → Nat → 𝕜} (h : MState A μ0 G ν) :
    wp (unghrShift A ihi j) ν (fun _ ν' => MState A μ0 (shiftF ihi j G) ν') := by
  unfold unghrShift
  simp only [wp_bind]
  refine wp_conseq (wp_colLoop (j := j) (fun _ => 0) h hA (by omega) (by omega) (Nat.zero_le _) ?_) ?_
  · intro i ν1 _ hi1 _
    rw [wp_set]
    exact ⟨⟨by omega, by omega⟩, rfl⟩
  intro _ ν1 h1
  refine wp_conseq (wp_colLoop (j := j) (fun r => G r (j - 1)) h1 hA (by omega) (by omega) (by omega) ?_) ?_
  · intro i ν2 hi0 hi1 hν
    simp only [wp_bind]
    rw [wp_get]
    refine ⟨⟨by omega, by omega⟩, ?_⟩
    rw [wp_set]
    refine ⟨⟨by omega, by omega⟩, ?_⟩
    rw [hν.val i (j - 1) (by omega) (by omega), if_neg (by omega), if_neg (by omega)]
  intro _ ν2 h2
  refine wp_conseq (wp_colLoop (j := j) (fun _ => 0) h2 hA (by omega) (by omega) (by omega) ?_) ?_
  · intro i ν3 _ hi1 _
    rw [wp_set]
    exact ⟨⟨by omega, by omega⟩, rfl⟩
  intro _ ν3 h3
  refine h3.congr fun r c hr hc => ?_
  unfold shiftF
  by_cases e : c = j
  · subst e
    rw [if_pos rfl]
    by_cases a : r < c
    · rw [if_pos a, if_neg (by omega), if_neg (by omega), if_pos (by omega)]
    · rw [if_neg a]
      by_cases b : r = c
      · rw [if_pos b, if_neg (by omega), if_neg (by omega), if_neg (by omega)]
      · rw [if_neg b]
        by_cases d : r < ihi
        · rw [if_pos d, if_neg (by omega), if_pos (by omega)]
        · rw [if_neg d, if_pos (by omega)]
  · rw [if_neg e, if_neg (by omega), if_neg (by omega), if_neg (by omega)]

/-- After column `j` has become a column of the identity. -/
def unitF (j : Nat) (G : Nat → Nat → 𝕜) : Nat → Nat → 𝕜 := fun r c =>
  if c = j then (if r = j then 1 else 0) else G r c

theorem wp_unghrUnit {A : MatV L} (hA : A.Inj) (hsq : A.m = A.n) {j : Nat} (hj : j < A.n)
    {μ0 ν : Store L 𝕜} {G : Nat → Nat → 𝕜} (h : MState A μ0 G ν) :
    wp (unghrUnit A j) ν (fun _ ν' => MState A μ0 (unitF j G) ν') := by
  unfold unghrUnit
  simp only [wp_bind]
  refine wp_conseq (wp_colLoop (j := j) (fun _ => 0) h hA hj (by omega) (Nat.zero_le _) ?_) ?_
  · intro i ν1 _ hi1 _
    rw [wp_set]
    exact ⟨⟨by omega, by omega⟩, rfl⟩
  intro _ ν1 h1
  rw [wp_set]
  refine ⟨⟨by omega, by omega⟩, ?_⟩
  refine h1.upd hA (by omega) hj fun r c hr hc => ?_
  unfold unitF
  by_cases e : c = j
  · subst e
    by_cases b : r = c
    · subst b; simp
    · rw [if_pos rfl, if_neg b, if_neg (by omega), if_pos (by omega)]
  · rw [if_neg e, if_neg (by omega), if_neg (by omega)]

/-- The matrix before the call of ungq. -/
def unghrF (ilo ihi : Nat) (G : Nat → Nat → 𝕜) : Nat → Nat → 𝕜 := fun r c =>
  if ilo < c ∧ c < ihi then (if r < c then 0 else if r = c then G r c else if r < ihi then G r (c - 1) else 0)
  else if r = c then 1 else 0

theorem wp_unghr {isReal : Bool} (hreal : isReal = true → ∀ z : 𝕜, star z = z) {ilo ihi : Nat} {A : MatV L}
    {tau work : VecV L} (ok : QrOK A tau work) (hsq : A.m = A.n) (hlh : ilo < ihi) (hihi : ihi ≤ A.n)
    (ht : A.n ≤ tau.n + 1) (hw : (unghrWorksize ilo ihi A).size ≤ work.n) {μ : Store L 𝕜} :
    wp (unghr isReal ilo ihi A tau work) μ (fun r ν => r = 0 ∧
      mat A.n A.n (entry ν A) = hessQ A.n ilo ihi (entry μ A) (ventry μ tau) ∧
      ∀ l, ¬ A.Owns l → ¬ work.Owns l → ν l = μ l) := by
  unfold unghr
  simp only [wp_bind, wp_check]
  rw [if_pos (by simp; omega), if_neg (by omega)]
  simp only [wp_bind]
  refine wp_forDown_ (fun k ν => MState A μ (fun r c => if k ≤ c ∧ c < ihi then
      (if r < c then 0 else if r = c then entry μ A r c else if r < ihi then entry μ A r (c - 1) else 0)
      else entry μ A r c) ν) (show ilo + 1 ≤ ihi by omega) ?_ ?_ ?_
  · exact (MState.start A μ).congr fun r c _ _ => by rw [if_neg (by omega)]
  · intro j ν h0 h1 hν
    refine wp_conseq (wp_unghrShift ok.inj hsq (by omega) h1 hihi hν) ?_
    intro _ ν' h'
    refine h'.congr fun r c hr hc => ?_
    unfold shiftF
    by_cases e : c = j
    · subst e
      rw [if_pos rfl]
      simp only []
      rw [if_neg (show ¬ (c + 1 ≤ c ∧ c < ihi) by omega), if_neg (show ¬ (c + 1 ≤ c - 1 ∧ c - 1 < ihi) by omega),
        if_pos (by omega)]
    · rw [if_neg e]
      beta_reduce
      by_cases b : j ≤ c ∧ c < ihi
      · rw [if_pos b, if_pos (show j + 1 ≤ c ∧ c < ihi by omega)]
      · rw [if_neg b, if_neg (show ¬ (j + 1 ≤ c ∧ c < ihi) by omega)]
  intro ν1 h1
  refine wp_forUp_ (fun k ν => MState A μ (fun r c => if c < k then (if r = c then 1 else 0) else
      if ilo + 1 ≤ c ∧ c < ihi then
      (if r < c then 0 else if r = c then entry μ A r c else if r < ihi then entry μ A r (c - 1) else 0)
      else entry μ A r c) ν) (show 0 ≤ ilo + 1 by omega) ?_ ?_ ?_
  · exact h1.congr fun r c _ _ => by rw [if_neg (by omega)]
  · intro j ν _ hj hν
    refine wp_conseq (wp_unghrUnit ok.inj hsq (by omega) hν) ?_
    intro _ ν' h'
    refine h'.congr fun r c hr hc => ?_
    unfold unitF
    by_cases e : c = j
    · subst e
      rw [if_pos rfl, if_pos (by omega)]
    · rw [if_neg e]
      beta_reduce
      by_cases b : c < j
      · rw [if_pos b, if_pos (by omega)]
      · rw [if_neg b, if_neg (by omega)]
  intro ν2 h2
  refine wp_forUp_ (fun k ν => MState A μ (fun r c => if c < ilo + 1 ∨ (ihi ≤ c ∧ c < k) then (if r = c then 1 else 0) else
      if ilo + 1 ≤ c ∧ c < ihi then
      (if r < c then 0 else if r = c then entry μ A r c else if r < ihi then entry μ A r (c - 1) else 0)
      else entry μ A r c) ν) (show ihi ≤ A.n by omega) ?_ ?_ ?_
  · refine h2.congr fun r c _ _ => ?_
    by_cases e : c < ilo + 1
    · rw [if_pos (by omega), if_pos e]
    · rw [if_neg (by omega), if_neg e]
  · intro j ν _ hj hν
    refine wp_conseq (wp_unghrUnit ok.inj hsq (by omega) hν) ?_
    intro _ ν' h'
    refine h'.congr fun r c hr hc => ?_
    unfold unitF
    by_cases e : c = j
    · subst e
      rw [if_pos rfl, if_pos (by omega)]
    · rw [if_neg e]
      beta_reduce
      by_cases b : c < ilo + 1 ∨ (ihi ≤ c ∧ c < j)
      · rw [if_pos b, if_pos (by omega)]
      · rw [if_neg b, if_neg (by omega)]
  intro ν3 h3
  have h3' : MState A μ (unghrF ilo ihi (entry μ A)) ν3 := by
    refine h3.congr fun r c hr hc => ?_
    unfold unghrF
    by_cases b : ilo < c ∧ c < ihi
    · rw [if_pos b, if_neg (show ¬ (c < ilo + 1 ∨ (ihi ≤ c ∧ c < A.n)) by omega),
        if_pos (show ilo + 1 ≤ c ∧ c < ihi by omega)]
    · rw [if_neg b, if_pos (show c < ilo + 1 ∨ (ihi ≤ c ∧ c < A.n) by omega)]
  unfold unghrGen
  have t3 : ∀ i, i < tau.n → ventry ν3 tau i = ventry μ tau i := by
    intro i hi
    refine h3'.frame _ ?_
    rintro ⟨r, c, hr, hc, e⟩
    exact ok.At r c hr hc ⟨i, hi, e.symm⟩
  by_cases hq : ihi > ilo + 1
  · rw [if_pos hq]
    simp only [wp_bind]
    refine wp_slice (by omega) (by omega) (by omega) (by omega) ?_
    refine wp_vslice (by omega) (by omega) ?_
    have hwn : (ungqBlkWorksize .Forward .Columnwise (A.sub (ilo + 1) ihi (ilo + 1) ihi) (ihi - 1 - ilo) 32).size ≤ work.n := by
      unfold unghrWorksize at hw
      rwa [if_pos (by omega)] at hw
    refine wp_conseq (wp_ungqBlk_sq (q := ihi - 1 - ilo) hreal (by simp [MatV.sub]; omega) (by simp [MatV.sub]; omega)
      (by simp [VecV.sub]) ⟨⟨ok.inj.sub (by omega) (by omega), ok.tinj.sub (by omega), ok.winj, ?_, ?_, ?_⟩,
        by simp [MatV.sub, VecV.sub]; omega, by omega, Or.inl (by simp [VecV.sub]; omega), fun _ _ => by simpa [VecV.sub] using hwn⟩) ?_
    · rintro i j hi hj ⟨k, hk, e⟩
      simp only [MatV.sub, VecV.sub] at hi hj hk e
      exact ok.At _ _ (by omega) (by omega) ⟨_, (by omega), e⟩
    · rintro i j hi hj ho
      simp only [MatV.sub] at hi hj ho
      exact ok.Aw _ _ (by omega) (by omega) ho
    · rintro i hi ho
      simp only [VecV.sub] at hi ho
      exact ok.tw _ (by omega) ho
    rintro r ν4 ⟨h0, hQ, h4⟩
    refine ⟨h0, ?_, fun l hA hW => ?_⟩
    · rw [hessQ_emb hlh hihi]
      have e1 : houseQ .Forward .Columnwise (ihi - 1 - ilo) (ihi - 1 - ilo) (entry ν3 (A.sub (ilo + 1) ihi (ilo + 1) ihi))
          (ventry ν3 (tau.sub ilo (ihi - 1))) = houseQ .Forward .Columnwise (ihi - 1 - ilo) (ihi - 1 - ilo)
          (fun r i => entry μ A (ilo + 1 + r) (ilo + i)) (fun i => ventry μ tau (ilo + i)) := by
        unfold houseQ
        simp only []
        congr 1
        refine List.map_congr_left fun i hi => ?_
        rw [List.mem_range] at hi
        unfold houseH
        have ht : ventry ν3 (tau.sub ilo (ihi - 1)) i = ventry μ tau (ilo + i) := t3 (ilo + i) (by omega)
        rw [ht, mat_ext_iff]
        have hv : ∀ r, r < ihi - 1 - ilo → houseVec .Forward .Columnwise (ihi - 1 - ilo) (ihi - 1 - ilo)
            (entry ν3 (A.sub (ilo + 1) ihi (ilo + 1) ihi)) i r = houseVec .Forward .Columnwise (ihi - 1 - ilo) (ihi - 1 - ilo)
            (fun r i => entry μ A (ilo + 1 + r) (ilo + i)) i r := by
          intro r hr
          unfold houseVec hpiv
          simp only [if_true]
          by_cases e : r = i
          · rw [if_pos e, if_pos e]
          · rw [if_neg e, if_neg e]
            by_cases e2 : r < i
            · rw [if_pos e2, if_pos e2]
            · rw [if_neg e2, if_neg e2]
              have := h3'.val (ilo + 1 + r) (ilo + 1 + i) (by omega) (by omega)
              unfold unghrF at this
              rw [if_pos (by omega), if_neg (by omega), if_neg (by omega), if_pos (by omega),
                show ilo + 1 + i - 1 = ilo + i by omega] at this
              exact this
        intro r c hr hc
        unfold reflF
        rw [hv r hr, hv c hc]
      rw [← e1, ← hQ]
      unfold emb
      rw [mat_ext_iff]
      intro r c hr hc
      by_cases b : (ilo + 1 ≤ r ∧ r < ilo + 1 + (ihi - 1 - ilo)) ∧ ilo + 1 ≤ c ∧ c < ilo + 1 + (ihi - 1 - ilo)
      · rw [if_pos b, toF_mat _ (by omega) (by omega)]
        show _ = ν4 (A.cell (ilo + 1 + (r - (ilo + 1))) (ilo + 1 + (c - (ilo + 1))))
        rw [show ilo + 1 + (r - (ilo + 1)) = r by omega, show ilo + 1 + (c - (ilo + 1)) = c by omega]
        rfl
      · rw [if_neg b]
        have hr' : r < A.m := by omega
        have : entry ν4 A r c = unghrF ilo ihi (entry μ A) r c := by
          refine (h4 _ ?_ (ok.Aw r c hr' hc)).trans (h3'.val r c hr' hc)
          rintro ⟨i, j, hi, hj, e⟩
          simp only [MatV.sub] at hi hj e
          have := ok.inj _ _ _ _ (by omega) (by omega) hr' hc e
          omega
        rw [this]
        unfold unghrF
        by_cases d : ilo < c ∧ c < ihi
        · rw [if_pos d]
          by_cases x : r < c
          · rw [if_pos x, if_neg (by omega)]
          · rw [if_neg x, if_neg (by omega), if_neg (by omega), if_neg (by omega)]
        · rw [if_neg d]
    · rw [h4 l (fun ho => hA (ho.sub (by omega) (by omega))) hW, h3'.frame l hA]
  · rw [if_neg hq, wp_pure]
    refine ⟨rfl, ?_, fun l hA _ => h3'.frame l hA⟩
    unfold hessQ
    rw [show ihi - 1 - ilo = 0 by omega]
    simp only [reflProd, List.range_zero, List.map_nil, List.prod_nil]
    rw [← mat_idF, mat_ext_iff]
    intro r c hr hc
    have := h3'.val r c (by omega) hc
    unfold unghrF at this
    rw [if_neg (by omega)] at this
    exact this

theorem wp_unmhr {isReal : Bool} {side : Side} {trans : Op} {ilo ihi : Nat} {A : MatV L} {tau : VecV L}
    {C : MatV L} {work : VecV L} (hlh : ilo < ihi) (hm : ihi ≤ A.m) (hn : ihi ≤ A.n) (ht : ihi ≤ tau.n + 1)
    (hC : ihi ≤ if side = .Left then C.m else C.n) (hside : side = .Left ∨ side = .Right)
    (inj : C.Inj) (winj : work.Inj) (AC : A.Disj C) (Aw : A.DisjV work) (tC : tau.DisjM C) (tw : tau.Disj work)
    (Cw : C.DisjV work) (hw : unmhrWorksize side ilo ihi C ≤ work.n)
    (hop : trans = .NoTrans ∨ trans = .ConjTrans ∨ (trans = .Trans ∧ isReal = true))
    (hreal : isReal = true → ∀ z : 𝕜, star z = z) {μ : Store L 𝕜} :
    wp (unmhr isReal side trans ilo ihi A tau C work) μ (fun r ν => r = 0 ∧
      mat C.m C.n (entry ν C) = (if side = .Left then
        opQ trans (hessQ C.m ilo ihi (entry μ A) (ventry μ tau)) * mat C.m C.n (entry μ C)
        else mat C.m C.n (entry μ C) * opQ trans (hessQ C.n ilo ihi (entry μ A) (ventry μ tau))) ∧
      ∀ l, ¬ C.Owns l → ¬ work.Owns l → ν l = μ l) := by
  have hconj : trans ≠ .Conj := by rcases hop with h | h | h <;> simp [h]
  unfold unmhr
  simp only [wp_bind]
  refine wp_slice (by omega) (by omega) (by omega) (by omega) ?_
  refine wp_vslice (by omega) (by omega) ?_
  unfold unmqPart
  unfold unmhrWorksize at hw
  have hVs : ∀ i j, i < (A.sub (ilo + 1) ihi ilo (ihi - 1)).m → j < (A.sub (ilo + 1) ihi ilo (ihi - 1)).n →
      ilo + 1 + i < A.m ∧ ilo + j < A.n := by
    intro i j hi hj
    simp only [MatV.sub] at hi hj
    omega
  have eV : ∀ q, houseQ .Forward .Columnwise q (ihi - 1 - ilo) (entry μ (A.sub (ilo + 1) ihi ilo (ihi - 1)))
      (ventry μ (tau.sub ilo (ihi - 1))) = houseQ .Forward .Columnwise q (ihi - 1 - ilo)
      (fun r i => entry μ A (ilo + 1 + r) (ilo + i)) (fun i => ventry μ tau (ilo + i)) := fun q => rfl
  rcases hside with rfl | rfl
  · simp only [if_true] at hC hw ⊢
    refine wp_slice (by omega) (by omega) (by omega) (by omega) ?_
    have hs : ∀ i j, i < (C.sub (ilo + 1) ihi 0 C.n).m → j < (C.sub (ilo + 1) ihi 0 C.n).n → ilo + 1 + i < C.m ∧ 0 + j < C.n := by
      intro i j hi hj
      simp only [MatV.sub] at hi hj
      omega
    refine wp_conseq (wp_unmq ⟨Or.inl rfl, inj.sub (by omega) (by omega), winj, ?_, ?_, ?_, ?_, ?_, ?_, ?_, hw⟩ hop hreal) ?_
    · rintro i j hi hj ⟨i', j', hi', hj', e⟩
      have a := hs i' j' hi' hj'
      exact AC _ _ (hVs i j hi hj).1 (hVs i j hi hj).2 ⟨_, _, a.1, a.2, e⟩
    · intro i j hi hj ho
      exact Aw _ _ (hVs i j hi hj).1 (hVs i j hi hj).2 ho
    · rintro i hi ⟨i', j', hi', hj', e⟩
      simp only [VecV.sub] at hi
      have a := hs i' j' hi' hj'
      exact tC _ (by omega) ⟨_, _, a.1, a.2, e⟩
    · intro i hi ho
      simp only [VecV.sub] at hi
      exact tw _ (by omega) ho
    · intro i j hi hj ho
      have a := hs i j hi hj
      exact Cw _ _ a.1 a.2 ho
    · simp [MatV.sub, VecV.sub]; try omega
    · simp [MatV.sub, VecV.sub]; try omega
    rintro r ν ⟨h0, hQ, hf⟩
    refine ⟨h0, ?_, fun l hl hwl => hf l (fun ho => hl (ho.sub (by omega) (by omega))) hwl⟩
    simp only [if_true] at hQ
    have em : (C.sub (ilo + 1) ihi 0 C.n).m = ihi - 1 - ilo := by simp [MatV.sub]; omega
    have en : (C.sub (ilo + 1) ihi 0 C.n).n = C.n := by simp [MatV.sub]
    have et : (tau.sub ilo (ihi - 1)).n = ihi - 1 - ilo := by simp [VecV.sub]
    rw [em, en, et, eV] at hQ
    rw [hessQ_emb hlh hC, ← emb_opQ hconj, emb_mul_mat (by omega), mat_ext_iff]
    intro r c hr hc
    by_cases b : ilo + 1 ≤ r ∧ r < ilo + 1 + (ihi - 1 - ilo)
    · rw [if_pos b]
      have e1 := congrArg (fun M => toF M (r - (ilo + 1)) c) hQ
      beta_reduce at e1
      rw [toF_mat _ (by omega) hc, toF_mul _ _ (by omega) hc] at e1
      have e2 : entry ν (C.sub (ilo + 1) ihi 0 C.n) (r - (ilo + 1)) c = entry ν C r c := by
        show ν (C.cell (ilo + 1 + (r - (ilo + 1))) (0 + c)) = _
        rw [show ilo + 1 + (r - (ilo + 1)) = r by omega, Nat.zero_add]; rfl
      rw [← e2, e1]
      refine Finset.sum_congr rfl fun s hs => ?_
      rw [toF_mat _ (mem_range.1 hs) hc]
      congr 1
      show μ (C.cell (ilo + 1 + s) (0 + c)) = _
      rw [Nat.zero_add]; rfl
    · rw [if_neg b]
      refine hf _ ?_ (Cw r c hr hc)
      rintro ⟨i, j, hi, hj, e⟩
      simp only [MatV.sub] at hi hj e
      have := inj _ _ _ _ (by omega) (by omega) hr hc e
      omega
  · simp only [reduceCtorEq, if_false] at hC hw ⊢
    refine wp_slice (by omega) (by omega) (by omega) (by omega) ?_
    have hs : ∀ i j, i < (C.sub 0 C.m (ilo + 1) ihi).m → j < (C.sub 0 C.m (ilo + 1) ihi).n → 0 + i < C.m ∧ ilo + 1 + j < C.n := by
      intro i j hi hj
      simp only [MatV.sub] at hi hj
      omega
    refine wp_conseq (wp_unmq ⟨Or.inr rfl, inj.sub (by omega) (by omega), winj, ?_, ?_, ?_, ?_, ?_, ?_, ?_, hw⟩ hop hreal) ?_
    · rintro i j hi hj ⟨i', j', hi', hj', e⟩
      have a := hs i' j' hi' hj'
      exact AC _ _ (hVs i j hi hj).1 (hVs i j hi hj).2 ⟨_, _, a.1, a.2, e⟩
    · intro i j hi hj ho
      exact Aw _ _ (hVs i j hi hj).1 (hVs i j hi hj).2 ho
    · rintro i hi ⟨i', j', hi', hj', e⟩
      simp only [VecV.sub] at hi
      have a := hs i' j' hi' hj'
      exact tC _ (by omega) ⟨_, _, a.1, a.2, e⟩
    · intro i hi ho
      simp only [VecV.sub] at hi
      exact tw _ (by omega) ho
    · intro i j hi hj ho
      have a := hs i j hi hj
      exact Cw _ _ a.1 a.2 ho
    · simp [MatV.sub, VecV.sub]; try omega
    · simp [MatV.sub, VecV.sub]; try omega
    rintro r ν ⟨h0, hQ, hf⟩
    refine ⟨h0, ?_, fun l hl hwl => hf l (fun ho => hl (ho.sub (by omega) (by omega))) hwl⟩
    simp only [reduceCtorEq, if_false] at hQ
    have em : (C.sub 0 C.m (ilo + 1) ihi).m = C.m := by simp [MatV.sub]
    have en : (C.sub 0 C.m (ilo + 1) ihi).n = ihi - 1 - ilo := by simp [MatV.sub]; omega
    have et : (tau.sub ilo (ihi - 1)).n = ihi - 1 - ilo := by simp [VecV.sub]
    rw [em, en, et, eV] at hQ
    rw [hessQ_emb hlh hC, ← emb_opQ hconj, mat_mul_emb (by omega), mat_ext_iff]
    intro r c hr hc
    by_cases b : ilo + 1 ≤ c ∧ c < ilo + 1 + (ihi - 1 - ilo)
    · rw [if_pos b]
      have e1 := congrArg (fun M => toF M r (c - (ilo + 1))) hQ
      beta_reduce at e1
      rw [toF_mat _ hr (by omega), toF_mul _ _ hr (by omega)] at e1
      have e2 : entry ν (C.sub 0 C.m (ilo + 1) ihi) r (c - (ilo + 1)) = entry ν C r c := by
        show ν (C.cell (0 + r) (ilo + 1 + (c - (ilo + 1)))) = _
        rw [show ilo + 1 + (c - (ilo + 1)) = c by omega, Nat.zero_add]; rfl
      rw [← e2, e1]
      refine Finset.sum_congr rfl fun s hs => ?_
      rw [toF_mat _ hr (mem_range.1 hs)]
      congr 1
      show μ (C.cell (0 + r) (ilo + 1 + s)) = _
      rw [Nat.zero_add]; rfl
    · rw [if_neg b]
      refine hf _ ?_ (Cw r c hr hc)
      rintro ⟨i, j, hi, hj, e⟩
      simp only [MatV.sub] at hi hj e
      have := inj _ _ _ _ (by omega) (by omega) hr hc e
      omega

end TLA
