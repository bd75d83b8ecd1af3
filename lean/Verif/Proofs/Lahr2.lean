import Verif.Proofs.GehrdAlg
import Verif.Proofs.PanelView
set_option linter.unusedTactic false
set_option linter.unusedVariables false
set_option linter.unreachableTactic false
set_option linter.unusedSectionVars false

/-! # lahr2: the panel of the blocked Hessenberg reduction -/

namespace TLA
open Finset
variable {L 𝕜 : Type} [DecidableEq L] [RCLike 𝕜] [DecidableEq 𝕜] {p : HhPar}

/-- Admissible arguments of lahr2. -/
structure L2OK (k nb N : Nat) (A : MatV L) (tau : VecV L) (Tm Y : MatV L) : Prop where
  Am : A.m = N
  An : A.n = N - k
  kn : k + nb < N
  pos : 0 < nb
  Tmm : Tm.m = nb
  Tmn : Tm.n = nb
  Ym : N ≤ Y.m
  Yn : Y.n = nb
  tn : nb ≤ tau.n
  inj : A.Inj
  tinj : Tm.Inj
  yinj : Y.Inj
  vinj : tau.Inj
  AT : A.Disj Tm
  AY : A.Disj Y
  TY : Tm.Disj Y
  At : A.DisjV tau
  Tt : Tm.DisjV tau
  Yt : Y.DisjV tau

/-- Column `l` of the panel `G` (column `0` is column `k` of the matrix) as a reflector vector. -/
def panU (k N : Nat) (G : Nat → Nat → 𝕜) (l r : Nat) : 𝕜 :=
  if r = k + 1 + l then 1 else if k + 1 + l < r ∧ r < N then G r l else 0

/-- The upper triangle. -/
def upF (G : Nat → Nat → 𝕜) (a b : Nat) : 𝕜 := if a ≤ b then G a b else 0

theorem wp_copy_e {x y : VecV L} {μ : Store L 𝕜} (hy : y.Inj) (hn : x.n = y.n) (hd : x.Disj y) :
    wp (copy x y) μ (fun _ ν => OnlyV y μ ν ∧ ∀ i, i < y.n → ventry ν y i = ventry μ x i) :=
  wp_conseq (wp_copy hy hn.le hd (VState.init y μ (ventry μ y) (fun _ _ => rfl)))
    (fun _ _ h => ⟨h.frame, fun i hi => by
      have := h.val i hi
      rw [if_pos (by omega)] at this
      exact this⟩)

theorem wp_axpy_e {alpha : 𝕜} {x y : VecV L} {μ : Store L 𝕜} (hy : y.Inj) (hn : x.n = y.n) (hd : x.Disj y) :
    wp (axpy alpha x y) μ (fun _ ν => OnlyV y μ ν ∧ ∀ i, i < y.n → ventry ν y i = ventry μ y i + alpha * ventry μ x i) :=
  wp_conseq (wp_axpy hy hn.le hd (VState.init y μ (ventry μ y) (fun _ _ => rfl)))
    (fun _ _ h => ⟨h.frame, fun i hi => by
      have := h.val i hi
      rw [if_pos (by omega)] at this
      exact this⟩)

theorem wp_trmv_e {uplo : Uplo} {trans : Op} {diag : Diag} {A : MatV L} {x : VecV L} {n : Nat} {μ : Store L 𝕜} (h : TrvOK uplo A x n) :
    wp (trmv uplo trans diag A x) μ (fun _ ν => OnlyV x μ ν ∧ ∀ i, i < x.n → ventry ν x i =
      ∑ l ∈ Finset.range n, opF trans (triF uplo diag (entry μ A)) i l * ventry μ x l) :=
  wp_conseq (wp_trmv_exact h) (fun _ _ h => ⟨h.frame, h.val⟩)

set_option maxHeartbeats 2000000 in
theorem wp_lahr2Head {k nb N i : Nat} {A : MatV L} {tau : VecV L} {Tm Y : MatV L} (ok : L2OK k nb N A tau Tm Y)
    (hi0 : 0 < i) (hi : i < nb) {ν : Store L 𝕜} {ei : 𝕜} {U Tf : Nat → Nat → 𝕜} {b0 : Nat → 𝕜} {G : Nat → Nat → 𝕜}
    (hG : ∀ r c, r < N → c < i → (r, c) ≠ (k + i, i - 1) → G r c = entry ν A r c)
    (h1 : entry ν A (k + i) (i - 1) = 1)
    (hU : U = panU k N G) (hT : Tf = upF (entry ν Tm))
    (hb : ∀ r, b0 r = entry ν A r i - ∑ j ∈ range i, entry ν Y r j * star (U j (k + i))) :
    wp (lahr2Head k nb i A Tm Y ei) ν (fun _ ν' =>
      (∀ l, ¬ A.Owns l → ¬ Tm.Owns l → ν' l = ν l) ∧
      (∀ r c, r < N → c < A.n → c ≠ i ∨ r ≤ k → entry ν' A r c = if r = k + i ∧ c = i - 1 then ei else entry ν A r c) ∧
      (∀ a b, a < nb → b < nb - 1 → entry ν' Tm a b = entry ν Tm a b) ∧
      (∀ r, k < r → r < N → entry ν' A r i = b0 r - ∑ l ∈ range i, U l r * ∑ b ∈ range i, star (Tf b l) *
        ∑ x ∈ range (N - (k + 1)), star (U b (k + 1 + x)) * b0 (k + 1 + x))) := by
  obtain ⟨Am, An, kn, pos, Tmm, Tmn, Ym, Yn, tn, inj, tinj, yinj, vinj, AT, AY, TY, At, Tt, Yt⟩ := ok
  have YA := AY.symm
  have TA := AT.symm
  have YT := TY.symm
  unfold lahr2Head
  rw [if_pos hi0]
  simp only [wp_bind]
  refine wp_slice (by omega) (by omega) (by omega) (by omega) ?_
  refine wp_sliceRow (by omega) (by omega) (by omega) ?_
  refine wp_sliceCol (by omega) (by omega) (by omega) ?_
  -- the update from the right
  refine wp_conseq (wp_conjugate_e (inj.rowv (by omega) (by omega))) fun _ ν1 ⟨o1, e1⟩ => ?_
  refine wp_conseq (wp_gemv_e (m := N - (k + 1)) (n := i) ⟨by simp [MatV.sub]; omega, by simp [MatV.sub], by simp [MatV.rowv], by simp [MatV.colv]; omega,
    inj.colv (by omega) (by omega), sub_djC' YA (by omega) (by omega) (by omega) (by omega), row_djC inj (by omega) (by omega) (by omega) (by omega) (by omega)⟩ (Or.inl hi0)) fun _ ν2 ⟨o2, e2⟩ => ?_
  refine wp_conseq (wp_conjugate_e (inj.rowv (by omega) (by omega))) fun _ ν3 ⟨o3, e3⟩ => ?_
  have a3 : ∀ r c, r < N → c < A.n → c ≠ i ∨ r ≤ k → entry ν3 A r c = entry ν A r c := by
    intro r c hr hc h
    by_cases h' : r = k + i ∧ c < i
    · obtain ⟨rfl, h'⟩ := h'
      have := e3 c (by simp [MatV.rowv]; omega)
      have t1 := e1 c (by simp [MatV.rowv]; omega)
      have t2 := o2.outCol (i := k + i) (j := c) inj (by omega) (by omega) (by omega) (by omega) (by omega)
      simp only [ventry, MatV.rowv, Nat.zero_add] at this t1
      unfold entry at *
      rw [this, t2, t1, star_star]
    · rw [o3.outRow inj (by omega) (by omega) (by omega) (by omega) (by omega), o2.outCol inj (by omega) (by omega) (by omega) (by omega) (by omega),
        o1.outRow inj (by omega) (by omega) (by omega) (by omega) (by omega)]
  have b3 : ∀ r, k < r → r < N → entry ν3 A r i = b0 r := by
    intro r h h'
    rw [o3.outRow inj (by omega) (by omega) (by omega) (by omega) (by omega)]
    have := e2 (r - (k + 1)) (by simp [MatV.colv]; omega)
    simp only [ventry, MatV.colv, show k + 1 + (r - (k + 1)) = r by omega] at this
    unfold entry at *
    rw [this, hb]
    simp only [Coef.toVal, one_mul]
    rw [show ν1 (A.cell r i) = ν (A.cell r i) from o1.outRow inj (by omega) (by omega) (by omega) (by omega) (by omega), add_comm, neg_one_mul, ← sub_eq_add_neg]
    congr 1
    refine Finset.sum_congr rfl fun j hj => ?_
    have hj := mem_range.1 hj
    have t1 := e1 j (by simp [MatV.rowv]; omega)
    simp only [ventry, MatV.rowv, Nat.zero_add] at t1
    simp only [opF, MatV.sub, MatV.rowv, Nat.zero_add, show k + 1 + (r - (k + 1)) = r by omega, t1]
    rw [show ν1 (Y.cell r j) = ν (Y.cell r j) from entry_rowO YA o1 (by omega) (by omega) (by omega) (by omega)]
    congr 2
    rw [hU]
    unfold panU
    by_cases hj' : j = i - 1
    · rw [if_pos (by omega), hj', h1]
    · rw [if_neg (by omega), if_pos (by omega), hG _ _ (by omega) (by omega) (by simp; omega)]
  have f3 : ∀ l, ¬ A.Owns l → ν3 l = ν l := fun l hl => by
    rw [o3.ofRow (by omega) (by omega) l hl, o2.ofCol (by omega) (by omega) l hl, o1.ofRow (by omega) (by omega) l hl]
  -- the update from the left
  refine wp_vslice (by omega) (by simp [MatV.colv]; omega) ?_
  refine wp_vslice (by simp [MatV.colv]; omega) (by simp [MatV.colv]) ?_
  refine wp_slice (by omega) (by omega) (by omega) (by omega) ?_
  refine wp_slice (by omega) (by simp [MatV.sub]; omega) (by omega) (by simp [MatV.sub]) ?_
  refine wp_slice (by simp [MatV.sub]; omega) (by simp [MatV.sub]) (by omega) (by simp [MatV.sub]) ?_
  refine wp_sliceCol (by omega) (by omega) (by omega) ?_
  rw [colv_sub, colv_sub, sub_sub', sub_sub', show (A.colv (k + 1) A.m i).n = N - (k + 1) by simp [MatV.colv]; omega,
    show (A.sub (k + 1) A.m 0 i).m = N - (k + 1) by simp [MatV.sub]; omega]
  simp only [Nat.add_zero, Nat.zero_add, show k + 1 + (N - (k + 1)) = N by omega]
  refine wp_conseq (wp_copy_e (tinj.colv (by omega) (by omega)) (by simp [MatV.colv]) (col_djC' AT (by omega) (by omega) (by omega) (by omega))) fun _ ν4 ⟨o4, e4⟩ => ?_
  refine wp_conseq (wp_trmv_e (n := i) ⟨by simp, by simp [MatV.sub], by simp [MatV.sub], by simp [MatV.colv], tinj.colv (by omega) (by omega),
    sub_djC' AT (by omega) (by omega) (by omega) (by omega)⟩) fun _ ν5 ⟨o5, e5⟩ => ?_
  refine wp_conseq (wp_gemv_e (m := i) (n := N - (k + 1 + i)) ⟨by simp [MatV.sub], by simp [MatV.sub], by simp [MatV.colv], by simp [MatV.colv],
    tinj.colv (by omega) (by omega), sub_djC' AT (by omega) (by omega) (by omega) (by omega), col_djC' AT (by omega) (by omega) (by omega) (by omega)⟩ (Or.inr rfl)) fun _ ν6 ⟨o6, e6⟩ => ?_
  refine wp_slice (by omega) (by omega) (by omega) (by omega) ?_
  refine wp_conseq (wp_trmv_e (n := i) ⟨by simp, by simp [MatV.sub], by simp [MatV.sub], by simp [MatV.colv], tinj.colv (by omega) (by omega),
    sub_djC tinj (by omega) (by omega) (by omega) (by omega) (by omega)⟩) fun _ ν7 ⟨o7, e7⟩ => ?_
  have A7 : ∀ r c, r < N → c < A.n → entry ν7 A r c = entry ν3 A r c := fun r c hr hc => by
    rw [entry_colO AT o7 (by omega) (by omega) (by omega) hc, entry_colO AT o6 (by omega) (by omega) (by omega) hc,
      entry_colO AT o5 (by omega) (by omega) (by omega) hc, entry_colO AT o4 (by omega) (by omega) (by omega) hc]
  have A6 : ∀ r c, r < N → c < A.n → entry ν6 A r c = entry ν3 A r c := fun r c hr hc => by
    rw [entry_colO AT o6 (by omega) (by omega) (by omega) hc,
      entry_colO AT o5 (by omega) (by omega) (by omega) hc, entry_colO AT o4 (by omega) (by omega) (by omega) hc]
  have A5 : ∀ r c, r < N → c < A.n → entry ν5 A r c = entry ν3 A r c := fun r c hr hc => by
    rw [entry_colO AT o5 (by omega) (by omega) (by omega) hc, entry_colO AT o4 (by omega) (by omega) (by omega) hc]
  have A4 : ∀ r c, r < N → c < A.n → entry ν4 A r c = entry ν3 A r c := fun r c hr hc => by
    rw [entry_colO AT o4 (by omega) (by omega) (by omega) hc]
  have T7 : ∀ a b, a < nb → b < nb - 1 → entry ν7 Tm a b = entry ν Tm a b := fun a b ha hb => by
    rw [o7.outCol tinj (by omega) (by omega) (by omega) (by omega) (by omega), o6.outCol tinj (by omega) (by omega) (by omega) (by omega) (by omega),
      o5.outCol tinj (by omega) (by omega) (by omega) (by omega) (by omega), o4.outCol tinj (by omega) (by omega) (by omega) (by omega) (by omega)]
    exact f3 _ (TA _ _ (by omega) (by omega))
  have T6 : ∀ a b, a < nb → b < nb - 1 → entry ν6 Tm a b = entry ν Tm a b := fun a b ha hb => by
    rw [o6.outCol tinj (by omega) (by omega) (by omega) (by omega) (by omega),
      o5.outCol tinj (by omega) (by omega) (by omega) (by omega) (by omega), o4.outCol tinj (by omega) (by omega) (by omega) (by omega) (by omega)]
    exact f3 _ (TA _ _ (by omega) (by omega))
  have uV : ∀ x l, x < i → l < i → ∀ ξ : Store L 𝕜, (∀ r c, r < N → c < A.n → c ≠ i → entry ξ A r c = entry ν A r c) →
      triF .Lower .Unit (entry ξ (A.sub (k + 1) (k + 1 + i) 0 i)) x l = U l (k + 1 + x) := by
    intro x l hx hl ξ hξ
    rw [hU]
    unfold triF panU
    simp only [inTri]
    rcases lt_trichotomy x l with h | h | h
    · simp [show x ≠ l by omega, show ¬ l < x by omega, show k + 1 + x ≠ k + 1 + l by omega, show ¬ (k + 1 + l < k + 1 + x) by omega, show ¬ l ≤ x by omega]
    · subst h; simp
    · have : entry ξ (A.sub (k + 1) (k + 1 + i) 0 i) x l = G (k + 1 + x) l := by
        rw [hG _ _ (by omega) hl (by simp; omega), ← hξ (k + 1 + x) l (by omega) (by omega) (by omega)]
        simp [entry, MatV.sub]
      simp [show x ≠ l by omega, show k + 1 + x ≠ k + 1 + l by omega, show l < x by omega, show k + 1 + x < N by omega, this, show l ≤ x by omega]
  have uV2 : ∀ x l, k + 1 + i + x < N → l < i → U l (k + 1 + i + x) = entry ν A (k + 1 + i + x) l := by
    intro x l hx hl
    rw [hU]
    unfold panU
    rw [if_neg (by omega), if_pos (by omega), hG _ _ (by omega) hl (by simp; omega)]
  have w6 : ∀ b, b < i → entry ν6 Tm b (nb - 1) = ∑ x ∈ range (N - (k + 1)), star (U b (k + 1 + x)) * b0 (k + 1 + x) := by
    intro b hb
    have t6 := e6 b (by simp [MatV.colv]; omega)
    have t5 := e5 b (by simp [MatV.colv]; omega)
    simp only [ventry, MatV.colv, Nat.zero_add] at t6 t5
    unfold entry
    rw [t6, t5, show N - (k + 1) = i + (N - (k + 1 + i)) by omega, Finset.sum_range_add]
    simp only [Coef.toVal, one_mul]
    rw [add_comm]
    congr 1
    · refine Finset.sum_congr rfl fun x hx => ?_
      have hx := mem_range.1 hx
      have t4 := e4 x (by simp [MatV.colv]; omega)
      simp only [ventry, MatV.colv, Nat.zero_add] at t4
      rw [t4]
      unfold opF
      dsimp only
      rw [uV x b hx hb ν4 (fun r c hr hc h => (A4 r c hr hc).trans (a3 r c hr hc (Or.inl h)))]
      congr 1
      exact b3 _ (by omega) (by omega)
    · refine Finset.sum_congr rfl fun x hx => ?_
      have hx := mem_range.1 hx
      rw [← Nat.add_assoc, uV2 x b (by omega) hb]
      unfold opF
      dsimp only
      congr 1
      · congr 1
        have := (A5 (k + 1 + i + x) b (by omega) (by omega)).trans (a3 _ b (by omega) (by omega) (Or.inl (by omega)))
        simpa [entry, MatV.sub] using this
      · exact (A5 _ _ (by omega) (by omega)).trans (b3 _ (by omega) (by omega))
  have w7 : ∀ l, l < i → entry ν7 Tm l (nb - 1) = ∑ b ∈ range i, star (Tf b l) *
        ∑ x ∈ range (N - (k + 1)), star (U b (k + 1 + x)) * b0 (k + 1 + x) := by
    intro l hl
    have t7 := e7 l (by simp [MatV.colv]; omega)
    simp only [ventry, MatV.colv, Nat.zero_add] at t7
    unfold entry
    rw [t7]
    refine Finset.sum_congr rfl fun b hb => ?_
    have hb := mem_range.1 hb
    congr 1
    · unfold opF
      dsimp only
      congr 1
      rw [hT]
      unfold triF upF
      simp only [inTri]
      have : entry ν6 (Tm.sub 0 i 0 i) b l = entry ν Tm b l := by
        rw [← T6 b l (by omega) (by omega)]; simp [entry, MatV.sub]
      by_cases e : b = l
      · subst e; simp [this]
      · by_cases h : b ≤ l <;> simp [h, this, e]
    · exact w6 b hb
  refine wp_conseq (wp_gemv_e (m := N - (k + 1 + i)) (n := i) ⟨by simp [MatV.sub], by simp [MatV.sub], by simp [MatV.colv], by simp [MatV.colv],
    inj.colv (by omega) (by omega), sub_djC inj (by omega) (by omega) (by omega) (by omega) (by omega), col_djC' TA (by omega) (by omega) (by omega) (by omega)⟩ (Or.inl hi0)) fun _ ν8 ⟨o8, e8⟩ => ?_
  refine wp_conseq (wp_trmv_e (n := i) ⟨by simp, by simp [MatV.sub], by simp [MatV.sub], by simp [MatV.colv], tinj.colv (by omega) (by omega),
    sub_djC' AT (by omega) (by omega) (by omega) (by omega)⟩) fun _ ν9 ⟨o9, e9⟩ => ?_
  refine wp_conseq (wp_axpy_e (inj.colv (by omega) (by omega)) (by simp [MatV.colv]) (col_djC' TA (by omega) (by omega) (by omega) (by omega))) fun _ ν10 ⟨o10, e10⟩ => ?_
  refine wp_setE (by omega) ?_
  have A8 : ∀ r c, r < N → c < A.n → c ≠ i ∨ r ≤ k + i → entry ν8 A r c = entry ν3 A r c := fun r c hr hc h => by
    rw [o8.outCol inj (by omega) (by omega) (by omega) hc (by omega), A7 r c hr hc]
  have A9 : ∀ r c, r < N → c < A.n → entry ν9 A r c = entry ν8 A r c := fun r c hr hc => by
    rw [entry_colO AT o9 (by omega) (by omega) (by omega) hc]
  have A10 : ∀ r c, r < N → c < A.n → c ≠ i ∨ r ≤ k → entry ν10 A r c = entry ν A r c := fun r c hr hc h => by
    rw [o10.outCol inj (by omega) (by omega) (by omega) hc (by omega), A9 r c hr hc, A8 r c hr hc (by omega), a3 r c hr hc h]
  have ne : ∀ r c, r < N → c < A.n → (r ≠ k + i ∨ c ≠ i - 1) → entry (upd ν10 (A.cell (k + i) (i - 1)) ei) A r c = entry ν10 A r c := by
    intro r c hr hc h
    unfold entry upd
    rw [if_neg]
    intro e
    have := inj _ _ _ _ (by omega) (by omega) (by omega) (by omega) e
    omega
  refine ⟨fun l hA hT => ?_, fun r c hr hc h => ?_, fun a b ha hb => ?_, fun r h0 h1 => ?_⟩
  · have : A.cell (k + i) (i - 1) ≠ l := fun e => hA ⟨_, _, by omega, by omega, e⟩
    unfold upd
    rw [if_neg (by first | exact this | exact fun e => this e.symm), o10.ofCol (by omega) (by omega) l hA, o9.ofCol (by omega) (by omega) l hT, o8.ofCol (by omega) (by omega) l hA,
      o7.ofCol (by omega) (by omega) l hT, o6.ofCol (by omega) (by omega) l hT, o5.ofCol (by omega) (by omega) l hT, o4.ofCol (by omega) (by omega) l hT, f3 l hA]
  · by_cases h' : r = k + i ∧ c = i - 1
    · obtain ⟨rfl, rfl⟩ := h'
      rw [if_pos ⟨rfl, rfl⟩]
      simp [entry, upd]
    · rw [if_neg h', ne r c hr hc (by omega), A10 r c hr hc h]
  · have : ¬ A.Owns (Tm.cell a b) := TA _ _ (by omega) (by omega)
    have h' : A.cell (k + i) (i - 1) ≠ Tm.cell a b := fun e => this ⟨_, _, by omega, by omega, e⟩
    show upd _ _ _ _ = _
    unfold upd
    rw [if_neg (by first | exact h' | exact fun e => h' e.symm), o10.ofCol (by omega) (by omega) _ this]
    show entry ν9 Tm a b = _
    rw [o9.outCol tinj (by omega) (by omega) (by omega) (by omega) (by omega)]
    show ν8 _ = _
    rw [o8.ofCol (by omega) (by omega) _ this]
    exact T7 a b ha hb
  · rw [ne r i (by omega) (by omega) (by omega)]
    by_cases h : r ≤ k + i
    · have t10 := e10 (r - (k + 1)) (by simp [MatV.colv]; omega)
      simp only [ventry, MatV.colv, show k + 1 + (r - (k + 1)) = r by omega, Nat.zero_add] at t10
      have t9 := e9 (r - (k + 1)) (by simp [MatV.colv]; omega)
      simp only [ventry, MatV.colv, Nat.zero_add] at t9
      unfold entry
      rw [t10, t9, show ν9 (A.cell r i) = b0 r from (A9 r i h1 (by omega)).trans ((A8 r i h1 (by omega) (Or.inr h)).trans (b3 r h0 h1)),
        neg_one_mul, ← sub_eq_add_neg]
      congr 1
      refine Finset.sum_congr rfl fun l hl => ?_
      have hl := mem_range.1 hl
      congr 1
      · unfold opF
        dsimp only
        rw [uV (r - (k + 1)) l (by omega) hl ν8 fun r c hr hc h => (A8 r c hr hc (Or.inl h)).trans (a3 r c hr hc (Or.inl h)),
          show k + 1 + (r - (k + 1)) = r by omega]
      · refine Eq.trans ?_ (w7 l hl)
        exact o8.ofCol (by omega) (by omega) _ (TA _ _ (by omega) (by omega))
    · rw [o10.outCol inj (by omega) (by omega) (by omega) (by omega) (by omega), A9 r i h1 (by omega)]
      have t8 := e8 (r - (k + 1 + i)) (by simp [MatV.colv]; omega)
      simp only [ventry, MatV.colv, show k + 1 + i + (r - (k + 1 + i)) = r by omega, Nat.zero_add] at t8
      unfold entry
      rw [t8, show ν7 (A.cell r i) = b0 r from (A7 r i h1 (by omega)).trans (b3 r h0 h1)]
      simp only [Coef.toVal, one_mul]
      rw [add_comm, neg_one_mul, ← sub_eq_add_neg]
      congr 1
      refine Finset.sum_congr rfl fun l hl => ?_
      have hl := mem_range.1 hl
      congr 1
      · have := uV2 (r - (k + 1 + i)) l (by omega) hl
        rw [show k + 1 + i + (r - (k + 1 + i)) = r by omega] at this
        rw [this, ← a3 r l h1 (by omega) (Or.inl (by omega)), ← A7 r l h1 (by omega)]
        simp [opF, entry, MatV.sub, show k + 1 + i + (r - (k + 1 + i)) = r by omega]
      · exact w7 l hl

end TLA
