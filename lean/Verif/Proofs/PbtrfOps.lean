import Verif.Proofs.PotrfBlk
import Verif.Model.Pbtrf
import Verif.Proofs.Region

set_option linter.unusedTactic false
set_option linter.unreachableTactic false
set_option linter.unusedVariables false
set_option linter.unusedSectionVars false

/-! Building blocks of pbtrf in row coordinates of the upper factor. -/

namespace TLA
variable {L 𝕜 : Type} [DecidableEq L] [RCLike 𝕜]
open Finset

/-- The cell holding entry `(i, c)` of the upper factor. -/
def rcell (uplo : Uplo) (A : MatV L) (i c : Nat) : L := if uplo = .Lower then A.cell c i else A.cell i c

/-- The block of rows `a..b` and columns `c..d` of the upper factor. -/
def rsub (uplo : Uplo) (A : MatV L) (a b c d : Nat) : MatV L := if uplo = .Lower then A.sub c d a b else A.sub a b c d

/-- The view has `p` rows and `q` columns in row coordinates. -/
def RDim (uplo : Uplo) (X : MatV L) (p q : Nat) : Prop :=
  (if uplo = .Lower then X.n else X.m) = p ∧ (if uplo = .Lower then X.m else X.n) = q

theorem rowsF_cell (uplo : Uplo) (A : MatV L) (μ : Store L 𝕜) (i c : Nat) :
    rowsF uplo (entry μ A) i c = if uplo = .Lower then star (μ (rcell uplo A i c)) else μ (rcell uplo A i c) := by
  unfold rowsF rcell
  by_cases h : uplo = .Lower
  · rw [if_pos h, if_pos h, if_pos h]; rfl
  · rw [if_neg h, if_neg h, if_neg h]; rfl

theorem rowsF_eq_of_cell {uplo : Uplo} {A : MatV L} {μ ν : Store L 𝕜} {i c : Nat}
    (h : ν (rcell uplo A i c) = μ (rcell uplo A i c)) : rowsF uplo (entry ν A) i c = rowsF uplo (entry μ A) i c := by
  rw [rowsF_cell, rowsF_cell, h]

theorem rowsF_rsub {uplo : Uplo} (hu : uplo = .Upper ∨ uplo = .Lower) (A : MatV L) (μ : Store L 𝕜)
    (a b c d i j : Nat) : rowsF uplo (entry μ (rsub uplo A a b c d)) i j = rowsF uplo (entry μ A) (a + i) (c + j) := by
  rcases hu with rfl | rfl <;> rfl

theorem rowsF_sub' (uplo : Uplo) (A : MatV L) (μ : Store L 𝕜)
    (p q i j : Nat) : rowsF uplo (entry μ (A.sub p q p q)) i j = rowsF uplo (entry μ A) (p + i) (p + j) := rfl

theorem rdim_rsub {uplo : Uplo} (hu : uplo = .Upper ∨ uplo = .Lower) (A : MatV L) (a b c d : Nat) :
    RDim uplo (rsub uplo A a b c d) (b - a) (d - c) := by
  rcases hu with rfl | rfl <;> exact ⟨rfl, rfl⟩

/-- Nothing outside `W` and outside the stored part of the band of `A` changed. -/
def BandOff (uplo : Uplo) (A W : MatV L) (n kd : Nat) (μ ν : Store L 𝕜) : Prop :=
  ∀ x, ¬ W.Owns x → (∀ i c, i ≤ c → c < n → c ≤ i + kd → rcell uplo A i c ≠ x) → ν x = μ x

theorem BandOff.refl {uplo : Uplo} {A W : MatV L} {n kd : Nat} {μ : Store L 𝕜} : BandOff uplo A W n kd μ μ :=
  fun _ _ _ => rfl

theorem BandOff.trans {uplo : Uplo} {A W : MatV L} {n kd : Nat} {μ ν ξ : Store L 𝕜} (h : BandOff uplo A W n kd μ ν)
    (h' : BandOff uplo A W n kd ν ξ) : BandOff uplo A W n kd μ ξ := fun x h1 h2 => (h' x h1 h2).trans (h x h1 h2)

theorem bandOff_only {uplo : Uplo} {A W : MatV L} {n kd : Nat} {μ ν : Store L 𝕜} (h : Only W μ ν) :
    BandOff uplo A W n kd μ ν := fun x h1 _ => h x h1

theorem rsub_owns {uplo : Uplo} (hu : uplo = .Upper ∨ uplo = .Lower) {A : MatV L} {a b c d : Nat} {x : L}
    (h : (rsub uplo A a b c d).Owns x) : ∃ i j, i < b - a ∧ j < d - c ∧ rcell uplo A (a + i) (c + j) = x := by
  rcases hu with rfl | rfl
  · obtain ⟨i, j, hi, hj, e⟩ := h
    exact ⟨i, j, hi, hj, e⟩
  · obtain ⟨i, j, hi, hj, e⟩ := h
    exact ⟨j, i, hj, hi, e⟩

theorem bandOff_rsub {uplo : Uplo} (hu : uplo = .Upper ∨ uplo = .Lower) {A W : MatV L} {n kd : Nat} {μ ν : Store L 𝕜}
    {a b c d : Nat} (h : Only (rsub uplo A a b c d) μ ν) (hb : b ≤ c + 1) (hd : d ≤ n) (hk : d ≤ a + kd + 1) :
    BandOff uplo A W n kd μ ν := by
  intro x _ h2
  refine h x fun ho => ?_
  obtain ⟨i, j, hi, hj, e⟩ := rsub_owns hu ho
  exact h2 _ _ (by omega) (by omega) (by omega) e

theorem bandOff_tri {uplo : Uplo} (hu : uplo = .Upper ∨ uplo = .Lower) {A W : MatV L} {n kd : Nat} {μ ν : Store L 𝕜}
    {p q : Nat} (h : SameOff (A.sub p q p q) uplo μ ν) (hq : q ≤ n) (hk : q ≤ p + kd + 1) :
    BandOff uplo A W n kd μ ν := by
  intro x _ h2
  refine h x fun i j hi hj ht e => ?_
  simp only [MatV.sub] at hi hj
  rcases hu with rfl | rfl
  · have ht' : i ≤ j := ht
    exact h2 (p + i) (p + j) (by omega) (by omega) (by omega) e
  · have ht' : j ≤ i := ht
    exact h2 (p + j) (p + i) (by omega) (by omega) (by omega) e

theorem rcell_inj {uplo : Uplo} (hu : uplo = .Upper ∨ uplo = .Lower) {A : MatV L} {n : Nat} (hA : A.Inj) (hm : A.m = n)
    (hn : A.n = n) {i c i' c' : Nat} (hi : i < n) (hc : c < n) (hi' : i' < n) (hc' : c' < n)
    (e : rcell uplo A i c = rcell uplo A i' c') : i = i' ∧ c = c' := by
  rcases hu with rfl | rfl
  · exact hA _ _ _ _ (by omega) (by omega) (by omega) (by omega) e
  · exact (hA _ _ _ _ (by omega) (by omega) (by omega) (by omega) e).symm

theorem rowsF_out {uplo : Uplo} (hu : uplo = .Upper ∨ uplo = .Lower) {A : MatV L} {n : Nat} {μ ν : Store L 𝕜} (hA : A.Inj)
    (hm : A.m = n) (hn : A.n = n) {a b c d : Nat} (h : Only (rsub uplo A a b c d) μ ν) (hb : b ≤ n) (hd : d ≤ n)
    {i j : Nat} (hi : i < n) (hj : j < n) (ho : i < a ∨ b ≤ i ∨ j < c ∨ d ≤ j) :
    rowsF uplo (entry ν A) i j = rowsF uplo (entry μ A) i j := by
  refine rowsF_eq_of_cell (h _ fun hw => ?_)
  obtain ⟨i', j', hi', hj', e⟩ := rsub_owns hu hw
  obtain ⟨rfl, rfl⟩ := rcell_inj hu hA hm hn (by omega) (by omega) hi hj e
  omega

theorem rowsF_outT {uplo : Uplo} (hu : uplo = .Upper ∨ uplo = .Lower) {A : MatV L} {n : Nat} {μ ν : Store L 𝕜} (hA : A.Inj)
    (hm : A.m = n) (hn : A.n = n) {p q : Nat} (h : SameOff (A.sub p q p q) uplo μ ν) (hq : q ≤ n)
    {i j : Nat} (hi : i < n) (hj : j < n) (ho : i < p ∨ q ≤ i ∨ j < p ∨ q ≤ j) :
    rowsF uplo (entry ν A) i j = rowsF uplo (entry μ A) i j := by
  refine rowsF_congr (h.only.out hA (by omega) (by omega) (by omega) (by omega) (by omega))
        (h.only.out hA (by omega) (by omega) (by omega) (by omega) (by omega))

theorem rowsF_W {uplo : Uplo} {W X : MatV L} {wm wn : Nat} {μ ν : Store L 𝕜} (h : Only X μ ν) (hd : W.Disj X)
    (hw : W.m = wm) (hw' : W.n = wm) {i j : Nat} (hi : i < wm) (hj : j < wm) :
    rowsF uplo (entry ν W) i j = rowsF uplo (entry μ W) i j :=
  rowsF_congr (h _ (hd _ _ (by omega) (by omega))) (h _ (hd _ _ (by omega) (by omega)))

/-! ### operations -/

/-- Solve with the diagonal block. -/
noncomputable def opSolve (uplo : Uplo) (D Y : MatV L) : M L 𝕜 Unit :=
  if uplo = .Upper then trsm .Left .Upper .ConjTrans .NonUnit 1 D Y else trsm .Right .Lower .ConjTrans .NonUnit 1 D Y

/-- Update of an off-diagonal block. -/
noncomputable def opGemm (uplo : Uplo) (P Q C : MatV L) : M L 𝕜 Unit :=
  if uplo = .Upper then gemm .ConjTrans .NoTrans (-1) P Q (.val 1) C else gemm .NoTrans .ConjTrans (-1) Q P (.val 1) C

/-- Update of a diagonal block. -/
noncomputable def opHerk (uplo : Uplo) (P C : MatV L) : M L 𝕜 Unit :=
  if uplo = .Upper then herk .Upper .ConjTrans (-1) P (.val 1) C else herk .Lower .NoTrans (-1) P (.val 1) C

theorem wp_opSolve {uplo : Uplo} (hu : uplo = .Upper ∨ uplo = .Lower) {D Y : MatV L} {ib q : Nat} {μ : Store L 𝕜}
    (hDm : D.m = ib) (hDn : D.n = ib) (hY : RDim uplo Y ib q) (hYi : Y.Inj) (hDY : D.Disj Y)
    (hd : ∀ i, i < ib → entry μ D i i ≠ 0) :
    wp (opSolve uplo D Y) μ (fun _ ν => Only Y μ ν ∧ ∀ i c, i < ib → c < q →
      ∑ l ∈ range (i + 1), star (rowsF uplo (entry μ D) l i) * rowsF uplo (entry ν Y) l c =
        rowsF uplo (entry μ Y) i c) := by
  rcases hu with rfl | rfl
  · obtain ⟨h1, h2⟩ := hY
    replace h1 : Y.m = ib := h1
    replace h2 : Y.n = q := h2
    refine wp_conseq (wp_trsmL ⟨Or.inl rfl, Or.inl rfl, by decide, by omega, by rw [if_pos rfl]; omega, hYi, hDY⟩
      (fun _ i hi => hd i (by omega))) ?_
    rintro _ ν ⟨o, e⟩
    refine ⟨o, fun i c hi hc => ?_⟩
    have := e i c (by omega) (by omega)
    simp only [opF] at this
    rw [one_mul, h1, upper_trunc hi] at this
    exact this
  · obtain ⟨h1, h2⟩ := hY
    replace h1 : Y.n = ib := h1
    replace h2 : Y.m = q := h2
    refine wp_conseq (wp_trsmR ⟨Or.inr rfl, Or.inr rfl, by decide, by omega, by rw [if_neg (by decide)]; omega, hYi, hDY⟩
      (fun _ i hi => hd i (by omega))) ?_
    rintro _ ν ⟨o, e⟩
    refine ⟨o, fun i c hi hc => ?_⟩
    have := e c i (by omega) (by omega)
    simp only [opF] at this
    have h2 := congrArg star this
    rw [star_sum, one_mul] at h2
    simp only [star_mul', star_star] at h2
    rw [h1, lower_trunc hi] at h2
    rw [rowsF_L]
    refine Eq.trans (Finset.sum_congr rfl (fun l hl => ?_)) h2
    rw [rowsF_L, rowsF_L, star_star, mul_comm]

theorem wp_opGemm {uplo : Uplo} (hu : uplo = .Upper ∨ uplo = .Lower) {P Q C : MatV L} {ib p q : Nat} {μ : Store L 𝕜}
    (hP : RDim uplo P ib p) (hQ : RDim uplo Q ib q) (hC : RDim uplo C p q) (hCi : C.Inj) (hPC : P.Disj C) (hQC : Q.Disj C) :
    wp (opGemm uplo P Q C) μ (fun _ ν => Only C μ ν ∧ ∀ i c, i < p → c < q →
      rowsF uplo (entry ν C) i c = rowsF uplo (entry μ C) i c -
        ∑ l ∈ range ib, star (rowsF uplo (entry μ P) l i) * rowsF uplo (entry μ Q) l c) := by
  obtain ⟨p1, p2⟩ := hP
  obtain ⟨q1, q2⟩ := hQ
  obtain ⟨c1, c2⟩ := hC
  rcases hu with rfl | rfl
  · replace p1 : P.m = ib := p1
    replace p2 : P.n = p := p2
    replace q1 : Q.m = ib := q1
    replace q2 : Q.n = q := q2
    replace c1 : C.m = p := c1
    replace c2 : C.n = q := c2
    refine wp_conseq (wp_gemm_e (m := p) (n := q) (k := ib) ⟨by decide, by decide, p2, p1, q1, q2, c1, c2, hCi, hPC, hQC⟩) ?_
    rintro _ ν ⟨o, e⟩
    refine ⟨o, fun i c hi hc => ?_⟩
    rw [rowsF_U, rowsF_U, e i c (by omega) (by omega)]
    simp only [opF, Coef.toVal, one_mul]
    rw [neg_one_mul, neg_add_eq_sub]
    rfl
  · replace p1 : P.n = ib := p1
    replace p2 : P.m = p := p2
    replace q1 : Q.n = ib := q1
    replace q2 : Q.m = q := q2
    replace c1 : C.n = p := c1
    replace c2 : C.m = q := c2
    refine wp_conseq (wp_gemm_e (m := q) (n := p) (k := ib) ⟨by decide, by decide, q2, q1, p1, p2, c2, c1, hCi, hQC, hPC⟩) ?_
    rintro _ ν ⟨o, e⟩
    refine ⟨o, fun i c hi hc => ?_⟩
    rw [rowsF_L, rowsF_L, e c i (by omega) (by omega)]
    simp only [opF, Coef.toVal, one_mul]
    rw [neg_one_mul, neg_add_eq_sub, star_sub, star_sum]
    congr 1
    refine Finset.sum_congr rfl (fun l _ => ?_)
    rw [star_mul', rowsF_L, rowsF_L, mul_comm]

theorem wp_opHerk {uplo : Uplo} (hu : uplo = .Upper ∨ uplo = .Lower) {P C : MatV L} {ib q : Nat} {μ : Store L 𝕜}
    (hP : RDim uplo P ib q) (hCm : C.m = q) (hCn : C.n = q) (hCi : C.Inj) (hPC : P.Disj C) :
    wp (opHerk uplo P C) μ (fun _ ν => SameOff C uplo μ ν ∧ ∀ i c, i ≤ c → c < q →
      hermF uplo (entry ν C) i c = hermF uplo (entry μ C) i c -
        ∑ l ∈ range ib, star (rowsF uplo (entry μ P) l i) * rowsF uplo (entry μ P) l c) := by
  obtain ⟨p1, p2⟩ := hP
  rcases hu with rfl | rfl
  · replace p1 : P.m = ib := p1
    replace p2 : P.n = q := p2
    refine wp_conseq (wp_herk_e (n := q) (k := ib) ⟨Or.inl rfl, Or.inr rfl, p2, p1, rfl, rfl, hCm, hCn, hCi, hPC, hPC⟩
      (Or.inl rfl) (by simp)) ?_
    rintro _ ν ⟨o, e⟩
    refine ⟨o, fun i c hic hc => ?_⟩
    have := e i c (by omega) hc hic
    simp only [opF, star_star, Coef.toVal, one_mul] at this
    have hs : ∑ l ∈ range ib, star (entry μ P l i) * entry μ P l c = ∑ l ∈ range ib,
        star (rowsF .Upper (entry μ P) l i) * rowsF .Upper (entry μ P) l c := rfl
    rw [hs] at this
    rw [hermF_rows (Or.inl rfl) _ hic, hermF_rows (Or.inl rfl) _ hic]
    by_cases hc' : i = c
    · subst hc'
      rw [if_pos rfl] at this
      rw [if_pos rfl, if_pos rfl, rowsF_U, rowsF_U, this]
      rw [neg_one_mul, neg_add_eq_sub, re_sub', re_re', re_sum_selfAdj]
    · rw [if_neg hc'] at this
      rw [if_neg hc', if_neg hc', rowsF_U, rowsF_U, this]
      ring
  · replace p1 : P.n = ib := p1
    replace p2 : P.m = q := p2
    refine wp_conseq (wp_herk_e (n := q) (k := ib) ⟨Or.inr (Or.inl rfl), Or.inl rfl, p2, p1, rfl, rfl, hCm, hCn, hCi, hPC, hPC⟩
      (Or.inr rfl) (by simp)) ?_
    rintro _ ν ⟨o, e⟩
    refine ⟨o, fun i c hic hc => ?_⟩
    have := e c i hc (by omega) hic
    simp only [opF, Coef.toVal, one_mul] at this
    have hs : star (∑ l ∈ range ib, entry μ P c l * star (entry μ P i l)) = ∑ l ∈ range ib,
        star (rowsF .Lower (entry μ P) l i) * rowsF .Lower (entry μ P) l c := by
      rw [star_sum]
      refine Finset.sum_congr rfl (fun l _ => ?_)
      rw [star_mul', star_star, rowsF_L, rowsF_L, star_star, mul_comm]
    rw [hermF_rows (Or.inr rfl) _ hic, hermF_rows (Or.inr rfl) _ hic]
    rw [← hs]
    by_cases hc' : i = c
    · subst hc'
      rw [if_pos rfl] at this
      rw [if_pos rfl, if_pos rfl, rowsF_L, rowsF_L, re_star', re_star', this, hs]
      rw [neg_one_mul, neg_add_eq_sub, re_sub', re_re', ← re_star' (∑ l ∈ _, _), hs, re_sum_selfAdj]
    · rw [if_neg (Ne.symm hc')] at this
      rw [if_neg hc', if_neg hc', rowsF_L, rowsF_L, this, star_add, star_mul', hs]
      simp
      ring

/-! ### the copies -/

theorem wp_pbCopyU {ib i3 : Nat} {S D : MatV L} {μ : Store L 𝕜} (hS : S.m = ib ∧ S.n = i3) (hD : D.m = ib ∧ D.n = i3)
    (hDi : D.Inj) (hSD : S.Disj D) :
    wp (pbCopy .Upper ib i3 S D) μ (fun _ ν => MState D μ (fun l c => if c ≤ l then entry μ S l c else entry μ D l c) ν) := by
  unfold pbCopy
  rw [if_pos rfl]
  refine wp_forUp_ (fun j ν => MState D μ (fun l c => if c < j ∧ c ≤ l then entry μ S l c else entry μ D l c) ν)
    (Nat.zero_le _) ?_ ?_ ?_
  · exact (MState.start D μ).congr fun l c _ _ => if_neg (by omega)
  · intro j ν _ hj h
    refine wp_forUp_' (fun i ν => MState D μ (fun l c => if (c < j ∧ c ≤ l) ∨ (c = j ∧ j ≤ l ∧ l < i) then entry μ S l c
      else entry μ D l c) ν) ?_ ?_ ?_
    · exact h.congr fun l c _ _ => if_congr (by omega) rfl rfl
    · intro i ν h1 h2 h
      simp only [wp_bind]
      refine wp_getE ⟨by omega, by omega⟩ (wp_set.2 ⟨⟨by omega, by omega⟩, ?_⟩)
      refine h.upd hDi (by omega) (by omega) fun l c hl hc => ?_
      by_cases e : l = i ∧ c = j
      · obtain ⟨rfl, rfl⟩ := e
        rw [if_pos (by omega), if_pos ⟨rfl, rfl⟩]
        exact (h.read hSD (by omega) (by omega)).symm
      · rw [if_neg e]
        exact if_congr (by omega) rfl rfl
    · intro ν h
      refine h.congr fun l c hl hc => if_congr ?_ rfl rfl
      omega
  · intro ν h
    exact h.congr fun l c hl hc => if_congr (by omega) rfl rfl

theorem wp_pbCopyL {ib i3 : Nat} {S D : MatV L} {μ : Store L 𝕜} (hS : S.m = i3 ∧ S.n = ib) (hD : D.m = i3 ∧ D.n = ib)
    (hDi : D.Inj) (hSD : S.Disj D) :
    wp (pbCopy .Lower ib i3 S D) μ (fun _ ν => MState D μ (fun c l => if c ≤ l then entry μ S c l else entry μ D c l) ν) := by
  unfold pbCopy
  rw [if_neg (by decide)]
  refine wp_forUp_ (fun j ν => MState D μ (fun c l => if l < j ∧ c ≤ l then entry μ S c l else entry μ D c l) ν)
    (Nat.zero_le _) ?_ ?_ ?_
  · exact (MState.start D μ).congr fun l c _ _ => if_neg (by omega)
  · intro j ν _ hj h
    refine wp_forUp_ (fun i ν => MState D μ (fun c l => if (l < j ∧ c ≤ l) ∨ (l = j ∧ c < i) then entry μ S c l
      else entry μ D c l) ν) (Nat.zero_le _) ?_ ?_ ?_
    · exact h.congr fun l c _ _ => if_congr (by omega) rfl rfl
    · intro i ν h1 h2 h
      simp only [wp_bind]
      refine wp_getE ⟨by omega, by omega⟩ (wp_set.2 ⟨⟨by omega, by omega⟩, ?_⟩)
      refine h.upd hDi (by omega) (by omega) fun l c hl hc => ?_
      by_cases e : l = i ∧ c = j
      · obtain ⟨rfl, rfl⟩ := e
        rw [if_pos (by omega), if_pos ⟨rfl, rfl⟩]
        exact (h.read hSD (by omega) (by omega)).symm
      · rw [if_neg e]
        exact if_congr (by omega) rfl rfl
    · intro ν h
      refine h.congr fun l c hl hc => if_congr ?_ rfl rfl
      omega
  · intro ν h
    exact h.congr fun l c hl hc => if_congr (by omega) rfl rfl

/-- The copy in row coordinates; nothing but the copied triangle changes. -/
theorem wp_pbCopy {uplo : Uplo} (hu : uplo = .Upper ∨ uplo = .Lower) {ib i3 : Nat} {S D : MatV L} {μ : Store L 𝕜}
    (hS : RDim uplo S ib i3) (hD : RDim uplo D ib i3) (hDi : D.Inj) (hSD : S.Disj D) :
    wp (pbCopy uplo ib i3 S D) μ (fun _ ν =>
      (∀ x, (∀ l c, l < ib → c < i3 → c ≤ l → rcell uplo D l c ≠ x) → ν x = μ x) ∧
      ∀ l c, l < ib → c < i3 → rowsF uplo (entry ν D) l c =
        if c ≤ l then rowsF uplo (entry μ S) l c else rowsF uplo (entry μ D) l c) := by
  obtain ⟨s1, s2⟩ := hS
  obtain ⟨d1, d2⟩ := hD
  rcases hu with rfl | rfl
  · refine wp_conseq (wp_pbCopyU ⟨s1, s2⟩ ⟨d1, d2⟩ hDi hSD) fun _ ν h => ⟨fun x hx => ?_, fun l c hl hc => ?_⟩
    · by_cases ho : D.Owns x
      · obtain ⟨l, c, hl, hc, rfl⟩ := ho
        replace d1 : D.m = ib := d1
        replace d2 : D.n = i3 := d2
        exact h.at l c hl hc (if_neg fun hcl => hx l c (by omega) (by omega) hcl rfl)
      · exact h.frame _ ho
    · replace d1 : D.m = ib := d1
      replace d2 : D.n = i3 := d2
      exact h.val l c (by omega) (by omega)
  · replace d1 : D.n = ib := d1
    replace d2 : D.m = i3 := d2
    refine wp_conseq (wp_pbCopyL ⟨s2, s1⟩ ⟨d2, d1⟩ hDi hSD) fun _ ν h => ⟨fun x hx => ?_, fun l c hl hc => ?_⟩
    · by_cases ho : D.Owns x
      · obtain ⟨c, l, hc, hl, rfl⟩ := ho
        exact h.at c l hc hl (if_neg fun hcl => hx l c (by omega) (by omega) hcl rfl)
      · exact h.frame _ ho
    · rw [rowsF_L, rowsF_L, rowsF_L, show entry ν D c l = _ from h.val c l (by omega) (by omega)]
      split <;> rfl

end TLA
