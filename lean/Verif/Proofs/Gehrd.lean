import Verif.Proofs.Lahr2Top
import Verif.Proofs.Geqrf
import Verif.Props.Region
import Verif.Props.Workspace
set_option linter.unusedTactic false
set_option linter.unusedVariables false
set_option linter.unreachableTactic false
set_option linter.unusedSectionVars false

/-! # gehrd -/

namespace TLA
open Finset
variable {L 𝕜 : Type} [DecidableEq L] [RCLike 𝕜] [DecidableEq 𝕜] {p : HhPar}

set_option maxHeartbeats 1000000 in
/-- The update of the trailing columns from the right. -/
theorem wp_gehrdRight {i nb ihi : Nat} {A Y : MatV L} (hA : A.Inj) (hAY : A.Disj Y) (hnb : 0 < nb) (h1 : i + nb < ihi) (h2 : ihi ≤ A.m)
    (h3 : ihi ≤ A.n) (h4 : ihi ≤ Y.m) (h5 : Y.n = nb) {ν : Store L 𝕜} :
    wp (gehrdRight i nb ihi A (A.sub (i + 1) ihi i (i + nb)) Y) ν (fun _ ν' => Only A ν ν' ∧
      ∀ r c, r < A.m → c < A.n → entry ν' A r c = if r < ihi ∧ i + nb ≤ c ∧ c < ihi then
        entry ν A r c - ∑ j ∈ range nb, entry ν Y r j * star (panU i ihi (fun r c => entry ν A r (i + c)) j c) else entry ν A r c) := by
  have YA := hAY.symm
  unfold gehrdRight
  rw [if_pos h1]
  simp only [wp_bind]
  refine wp_slice (by omega) (by simp [MatV.sub]; omega) (by omega) (by simp [MatV.sub]) ?_
  refine wp_getE ⟨by simp [MatV.sub]; omega, by simp [MatV.sub]; omega⟩ ?_
  refine wp_setE ⟨by simp [MatV.sub]; omega, by simp [MatV.sub]; omega⟩ ?_
  refine wp_slice (by omega) (by omega) (by omega) (by omega) ?_
  refine wp_slice (by omega) (by omega) (by omega) (by omega) ?_
  rw [sub_sub']
  have ce : (A.sub (i + 1) ihi i (i + nb)).cell (nb - 1) (nb - 1) = A.cell (i + nb) (i + nb - 1) := by
    show A.cell _ _ = _
    congr 1 <;> omega
  rw [ce]
  set ν1 := upd ν (A.cell (i + nb) (i + nb - 1)) 1 with hν1
  have A1 : ∀ r c, r < A.m → c < A.n → (r ≠ i + nb ∨ c ≠ i + nb - 1) → entry ν1 A r c = entry ν A r c := fun r c hr hc hh =>
    upd_ne_cell fun e => by have := hA _ _ _ _ (by omega) (by omega) hr hc e; omega
  have A1' : entry ν1 A (i + nb) (i + nb - 1) = 1 := by rw [hν1]; simp [entry, upd]
  have o1 : Only A ν ν1 := fun l hl => upd_ne_cell fun e => hl ⟨_, _, by omega, by omega, e⟩
  refine wp_conseq (wp_gemm_e (m := ihi) (n := ihi - (i + nb)) (k := nb) ⟨by simp, by simp, by simp [MatV.sub], by simp [MatV.sub], by simp [MatV.sub], by simp [MatV.sub]; omega, by simp [MatV.sub],
    by simp [MatV.sub], hA.sub (by omega) (by omega), (YA.sub_right (by omega) (by omega)).sub_left (by omega) (by omega), ?_⟩) fun _ ν2 ⟨o2, e2⟩ => ?_
  · exact hA.disj_sub (by omega) (by omega) (by omega) (by omega) (by omega)
  refine wp_setE ⟨by simp [MatV.sub]; omega, by simp [MatV.sub]; omega⟩ ?_
  rw [ce]
  have A2 : ∀ r c, r < A.m → c < A.n → ¬ (r < ihi ∧ i + nb ≤ c ∧ c < ihi) → entry ν2 A r c = entry ν1 A r c := fun r c hr hc hh =>
    o2.out hA (by omega) (by omega) hr hc (by omega)
  refine ⟨fun l hl => ?_, fun r c hr hc => ?_⟩
  · rw [upd_ne_cell fun e => hl ⟨_, _, by omega, by omega, e⟩, o2.sub (by omega) (by omega) l hl, o1 l hl]
  · by_cases e : r = i + nb ∧ c = i + nb - 1
    · rw [if_neg (by omega), e.1, e.2]
      simp [entry, upd]
    · rw [show entry (upd ν2 (A.cell (i + nb) (i + nb - 1)) (ν (A.cell (i + nb) (i + nb - 1)))) A r c = entry ν2 A r c from
        upd_ne_cell fun h => by have := hA _ _ _ _ (by omega) (by omega) hr hc h; omega]
      by_cases hh : r < ihi ∧ i + nb ≤ c ∧ c < ihi
      · rw [if_pos hh]
        have := e2 r (c - (i + nb)) (by simp [MatV.sub]; omega) (by simp [MatV.sub]; omega)
        rw [show entry ν2 A r c = entry ν2 (A.sub 0 ihi (i + nb) ihi) r (c - (i + nb)) by
          simp [entry, MatV.sub, show i + nb + (c - (i + nb)) = c by omega], this]
        have ca : entry ν1 (A.sub 0 ihi (i + nb) ihi) r (c - (i + nb)) = entry ν A r c := by
          rw [← A1 r c hr hc (by omega)]
          simp [entry, MatV.sub, show i + nb + (c - (i + nb)) = c by omega]
        rw [ca]
        simp only [Coef.toVal, one_mul]
        rw [add_comm, neg_one_mul, ← sub_eq_add_neg]
        congr 1
        refine Finset.sum_congr rfl fun j hj => ?_
        have hj := mem_range.1 hj
        congr 1
        · have : entry ν1 Y r j = entry ν Y r j := o1 _ (YA _ _ (by omega) (by omega))
          rw [← this]
          simp [opF, entry, MatV.sub]
        · have : entry ν1 A c (i + j) = panU i ihi (fun r c => entry ν A r (i + c)) j c := by
            unfold panU
            by_cases e' : c = i + 1 + j
            · rw [if_pos e', show c = i + nb by omega, show i + j = i + nb - 1 by omega, A1']
            · rw [if_neg e', if_pos (by omega), A1 _ _ (by omega) (by omega) (by omega)]
          rw [← this]
          unfold opF
          dsimp only
          congr 1
          show ν1 (A.cell _ _) = ν1 (A.cell _ _)
          congr 2 <;> omega
      · rw [if_neg hh, A2 r c hr hc hh, A1 r c hr hc (by omega)]

set_option maxHeartbeats 1000000 in
/-- The rows above the panel. -/
theorem wp_gehrdTop {i nb ihi : Nat} {A Y : MatV L} (hA : A.Inj) (hY : Y.Inj) (hAY : A.Disj Y) (hnb : 0 < nb) (h1 : i + nb < ihi) (h2 : ihi ≤ A.m)
    (h3 : ihi ≤ A.n) (h4 : ihi ≤ Y.m) (h5 : Y.n = nb) (hn : A.n = Y.m) {ν : Store L 𝕜} :
    wp (gehrdTop i nb A Y (Y.sub 0 A.n 0 nb)) ν (fun _ ν' => (∀ l, ¬ A.Owns l → ¬ Y.Owns l → ν' l = ν l) ∧
      ∀ r c, r < A.m → c < A.n → entry ν' A r c = if r ≤ i ∧ i < c ∧ c < i + nb then
        entry ν A r c - ∑ j ∈ range nb, entry ν Y r j * star (panU i ihi (fun r c => entry ν A r (i + c)) j c) else entry ν A r c) := by
  have YA := hAY.symm
  unfold gehrdTop
  simp only [wp_bind]
  refine wp_slice (by omega) (by omega) (by omega) (by omega) ?_
  refine wp_conseq (wp_trmmR ⟨by simp, by simp, by simp, by (simp [MatV.sub]; try omega), by (simp [MatV.sub]; try omega), hY.sub (by omega) (by omega),
    (hAY.sub_right (by omega) (by omega)).sub_left (by omega) (by omega)⟩) fun _ ν1 ⟨o1, e1⟩ => ?_
  have o1' : Only Y ν ν1 := o1.sub (by omega) (by omega)
  have y1 : ∀ r c, r ≤ i → c < nb → entry ν1 Y r c = ∑ j ∈ range nb, entry ν Y r j * star (panU i ihi (fun r c => entry ν A r (i + c)) j (i + 1 + c)) := by
    intro r c hr hc
    have := e1 r c (by simp [MatV.sub]; omega) (by simp [MatV.sub]; omega)
    rw [show entry ν1 Y r c = entry ν1 (Y.sub 0 A.n 0 nb) r c by simp [entry, MatV.sub], this, one_mul, show (Y.sub 0 A.n 0 nb).n = nb by simp [MatV.sub]]
    refine Finset.sum_congr rfl fun j hj => ?_
    have hj := mem_range.1 hj
    congr 1
    · simp [entry, MatV.sub]
    · unfold opF
      dsimp only
      congr 1
      unfold triF panU
      simp only [inTri]
      rcases lt_trichotomy c j with h | h | h
      · simp [show c ≠ j by omega, show ¬ j < c by omega, show i + 1 + c ≠ i + 1 + j by omega, show ¬ (i + 1 + j < i + 1 + c) by omega, show ¬ j ≤ c by omega]
      · subst h; simp
      · simp [show c ≠ j by omega, show i + 1 + c ≠ i + 1 + j by omega, show j < c by omega, show i + 1 + c < ihi by omega, show j ≤ c by omega, entry, MatV.sub]
  refine wp_forUp_ (fun m ν' => (∀ l, ¬ A.Owns l → ¬ Y.Owns l → ν' l = ν l) ∧ (∀ r c, r < Y.m → c < Y.n → entry ν' Y r c = entry ν1 Y r c) ∧
      ∀ r c, r < A.m → c < A.n → entry ν' A r c = if r ≤ i ∧ i < c ∧ c < i + 1 + m then
        entry ν A r c - ∑ j ∈ range nb, entry ν Y r j * star (panU i ihi (fun r c => entry ν A r (i + c)) j c) else entry ν A r c) (by omega) ?_ ?_ ?_
  · refine ⟨fun l _ h => o1' l h, fun _ _ _ _ => rfl, fun r c hr hc => ?_⟩
    rw [if_neg (by omega), entry_matO hAY o1' hr hc]
  · rintro m ν2 _ hm ⟨f2, y2, a2⟩
    simp only [wp_bind]
    refine wp_sliceCol (by omega) (by omega) (by omega) ?_
    refine wp_sliceCol (by omega) (by omega) (by omega) ?_
    refine wp_conseq (wp_axpy_e (hA.colv (by omega) (by omega)) (by simp [MatV.colv]) (col_djC' YA (by omega) (by omega) (by omega) (by omega))) fun _ ν3 ⟨o3, e3⟩ => ?_
    have o3' := o3.ofCol (by omega) (by omega)
    refine ⟨fun l hA hY => by rw [o3' l hA, f2 l hA hY], fun r c hr hc => by rw [entry_matO YA o3' hr hc, y2 r c hr hc], fun r c hr hc => ?_⟩
    by_cases e : r ≤ i ∧ c = i + m + 1
    · obtain ⟨e, rfl⟩ := e
      have := e3 r (by simp [MatV.colv]; omega)
      simp only [ventry, MatV.colv, Nat.zero_add] at this
      have a2' := a2 r (i + m + 1) hr hc
      rw [if_neg (by omega)] at a2'
      have y2' := y2 r m (by omega) (by omega)
      rw [y1 r m e (by omega)] at y2'
      unfold entry at *
      rw [if_pos (by omega), this, a2', y2', neg_one_mul, ← sub_eq_add_neg, show i + 1 + m = i + m + 1 by omega]
    · rw [o3.outCol hA (by omega) (by omega) hr hc (by omega), a2 r c hr hc]
      by_cases e' : r ≤ i ∧ i < c ∧ c < i + 1 + m
      · rw [if_pos e', if_pos (by omega)]
      · rw [if_neg e', if_neg (by omega)]
  · rintro ν' ⟨f, _, a⟩
    refine ⟨f, fun r c hr hc => ?_⟩
    rw [a r c hr hc, show i + 1 + (nb - 1) = i + nb by omega]

/-- The workspace of a blocked call: `Y`, the triangular factor and the cells of `Y`. -/
structure GhW (ihi nb : Nat) (A : MatV L) (tau : VecV L) (Y Tm : MatV L) (yw work : VecV L) : Prop where
  Ym : Y.m = A.n
  Yn : Y.n = nb
  Tmm : Tm.m = nb
  Tmn : Tm.n = nb
  yn : yw.n = A.n * nb
  yinj : Y.Inj
  tinj : Tm.Inj
  winj : yw.Inj
  TY : Tm.Disj Y
  Tw : Tm.DisjV yw
  yw_work : ∀ l, yw.Owns l → work.Owns l
  Y_work : ∀ l, Y.Owns l → work.Owns l
  T_work : ∀ l, Tm.Owns l → work.Owns l

set_option maxHeartbeats 2000000 in
theorem wp_gehrdStep (hl : HhLaws 𝕜 p) {ilo ihi nb : Nat} {A : MatV L} {tau work : VecV L} (ok : QrOK A tau work) {Y Tm : MatV L} {yw : VecV L}
    (w : GhW ihi nb A tau Y Tm yw work) (hnb : 0 < nb) (hsq : A.m = A.n) (hihi : ihi ≤ A.n) (ht : ihi ≤ tau.n) {μ ν : Store L 𝕜} {s : Nat} (hlo : ilo ≤ s)
    (hs : s + nb + 1 < ihi) (hb : frobSq A.n A.n (entry μ A) ≤ p.tbig ^ 2) (h : HessState ilo ihi A tau work μ s ν) :
    wp (gehrdStep (hhOps p) nb ihi A tau Y Tm yw s) ν (fun _ ν' => HessState ilo ihi A tau work μ (s + nb) ν') := by
  have inj := ok.inj
  have AY : A.Disj Y := fun r c hr hc ho => ok.Aw r c hr hc (w.Y_work _ ho)
  have AT : A.Disj Tm := fun r c hr hc ho => ok.Aw r c hr hc (w.T_work _ ho)
  have Ayw : A.DisjV yw := fun r c hr hc ho => ok.Aw r c hr hc (w.yw_work _ ho)
  have TA := AT.symm
  have YA := AY.symm
  have tA : ∀ j, j < tau.n → ¬ A.Owns (tau.cell j) := fun j hj ⟨r, c, hr, hc, e⟩ => ok.At r c hr hc ⟨j, hj, e.symm⟩
  have twk : ∀ j, j < tau.n → ¬ work.Owns (tau.cell j) := fun j hj => ok.tw j hj
  have hYm := w.Ym
  have hYn := w.Yn
  have hTm := w.Tmm
  have hTn := w.Tmn
  have hyn := w.yn
  unfold gehrdStep
  simp only [wp_bind]
  rw [show min nb (ihi - s - 1) = nb by omega]
  refine wp_slice (by omega) (by omega) (by omega) (by omega) ?_
  refine wp_slice (by omega) (by omega) (by omega) (by omega) ?_
  refine wp_vslice (by omega) (by omega) ?_
  refine wp_slice (by omega) (by omega) (by omega) (by omega) ?_
  refine wp_slice (by omega) (by omega) (by omega) (by omega) ?_
  set B := hz ilo ihi s (entry ν A) with hBdef
  have hB : ∀ r c, s ≤ c → B r c = entry ν A r c := fun r c hc => hz_out (by omega)
  have tsub : ∀ l, (tau.sub s ihi).Owns l → tau.Owns l := fun l ho => ho.sub ht
  have ysub : ∀ l, (Y.sub 0 A.n 0 nb).Owns l → Y.Owns l := fun l ho => ho.sub (by omega) (by omega)
  have tmsub : ∀ l, (Tm.sub 0 nb 0 nb).Owns l → Tm.Owns l := fun l ho => ho.sub (by omega) (by omega)
  have asub : ∀ l, (A.sub 0 ihi s ihi).Owns l → A.Owns l := fun l ho => ho.sub (by omega) (by omega)
  have Tt : Tm.DisjV tau := fun r c hr hc ⟨j, hj, e⟩ => twk j hj (w.T_work _ ⟨r, c, hr, hc, e.symm⟩)
  have Yt : Y.DisjV tau := fun r c hr hc ⟨j, hj, e⟩ => twk j hj (w.Y_work _ ⟨r, c, hr, hc, e.symm⟩)
  have lok : L2OK s nb ihi (A.sub 0 ihi s ihi) (tau.sub s ihi) (Tm.sub 0 nb 0 nb) (Y.sub 0 A.n 0 nb) := by
    refine ⟨by simp [MatV.sub], by simp [MatV.sub], by omega, hnb, by simp [MatV.sub], by simp [MatV.sub], by simp [MatV.sub]; omega, by simp [MatV.sub],
      by simp [VecV.sub]; omega, inj.sub (by omega) (by omega), w.tinj.sub (by omega) (by omega), w.yinj.sub (by omega) (by omega), ok.tinj.sub ht,
      (AT.sub_left (by omega) (by omega)).sub_right (by omega) (by omega), (AY.sub_left (by omega) (by omega)).sub_right (by omega) (by omega),
      (w.TY.sub_left (by omega) (by omega)).sub_right (by omega) (by omega), ?_, ?_, ?_⟩
    · intro r c hr hc ho
      simp only [MatV.sub] at hr hc
      exact ok.At (0 + r) (s + c) (by omega) (by omega) (tsub _ ho)
    · intro r c hr hc ho
      simp only [MatV.sub] at hr hc
      exact Tt (0 + r) (0 + c) (by omega) (by omega) (tsub _ ho)
    · intro r c hr hc ho
      simp only [MatV.sub] at hr hc
      exact Yt (0 + r) (0 + c) (by omega) (by omega) (tsub _ ho)
  refine wp_conseq (wp_lahr2 hl lok (n := A.n) (by omega) (B := B) (μ := ν) (fun r c hr hc => ?_) ((h.inv.frob hlo).le.trans hb)) ?_
  · rw [hB _ _ (by omega)]
    simp [entry, MatV.sub]
  rintro _ ν1 ⟨f1, a1, t1, pan, real, yt⟩
  have ve : ∀ (ξ : Store L 𝕜) r c, entry ξ (A.sub 0 ihi s ihi) r c = entry ξ A r (s + c) := fun ξ r c => by simp [entry, MatV.sub]
  have vef : ∀ ξ : Store L 𝕜, entry ξ (A.sub 0 ihi s ihi) = fun r c => entry ξ A r (s + c) := fun ξ => funext fun r => funext fun c => ve ξ r c
  have vt : ∀ (ξ : Store L 𝕜), entry ξ (Tm.sub 0 nb 0 nb) = entry ξ Tm := fun ξ => funext fun r => funext fun c => by simp [entry, MatV.sub]
  have vy : ∀ (ξ : Store L 𝕜), entry ξ (Y.sub 0 A.n 0 nb) = entry ξ Y := fun ξ => funext fun r => funext fun c => by simp [entry, MatV.sub]
  have vtau : ∀ (ξ : Store L 𝕜), ventry ξ (tau.sub s ihi) = fun j => ventry ξ tau (s + j) := fun ξ => rfl
  simp only [vef, vt, vy, vtau] at pan real yt
  set u := panU s ihi (fun r c => entry ν1 A r (s + c)) with hu
  set Tf := upF (entry ν1 Tm) with hTf
  -- entries of A after lahr2
  have A1 : ∀ r c, r < A.n → c < A.n → c < s ∨ s + nb ≤ c ∨ r ≤ s ∨ ihi ≤ r → entry ν1 A r c = entry ν A r c := by
    intro r c hr hc hh
    by_cases e : r < ihi ∧ s ≤ c ∧ c < ihi
    · have := a1 r (c - s) (by omega) (by simp [MatV.sub]; omega) (by omega)
      rw [ve, ve, show s + (c - s) = c by omega] at this
      exact this
    · refine f1 _ ?_ (fun ho => AT _ _ (by omega) hc (tmsub _ ho)) (fun ho => AY _ _ (by omega) hc (ysub _ ho)) (fun ho => ok.At _ _ (by omega) hc (tsub _ ho))
      rintro ⟨r', c', hr', hc', e'⟩
      simp only [MatV.sub] at hr' hc' e'
      have := inj _ _ _ _ (by omega) (by omega) (by omega) (by omega) e'
      omega
  have T1 : ∀ j, j < tau.n → (j < s ∨ s + nb ≤ j) → ventry ν1 tau j = ventry ν tau j := by
    intro j hj hh
    by_cases e : s ≤ j ∧ j < ihi
    · have := t1 (j - s) (by omega) (by simp [VecV.sub]; omega)
      rw [vtau, vtau] at this
      simp only [show s + (j - s) = j by omega] at this
      exact this
    · refine f1 _ (fun ho => tA j hj (asub _ ho)) (fun ho => twk j hj (w.T_work _ (tmsub _ ho))) (fun ho => twk j hj (w.Y_work _ (ysub _ ho))) ?_
      rintro ⟨j', hj', e'⟩
      simp only [VecV.sub] at hj' e'
      have := ok.tinj _ _ (by omega) hj e'
      omega
  -- the right update
  refine wp_conseq (wp_gehrdRight inj AY hnb (by omega) (by omega) hihi (by omega) hYn) ?_
  rintro _ ν2 ⟨o2, e2⟩
  have pU : ∀ (ξ : Store L 𝕜), (∀ r c, s < r → r < ihi → s ≤ c → c < s + nb → entry ξ A r c = entry ν1 A r c) →
      ∀ j r, j < nb → panU s ihi (fun r c => entry ξ A r (s + c)) j r = u j r := by
    intro ξ hξ j r hj
    rw [hu]
    unfold panU
    by_cases e : r = s + 1 + j
    · rw [if_pos e, if_pos e]
    · rw [if_neg e, if_neg e]
      by_cases e' : s + 1 + j < r ∧ r < ihi
      · rw [if_pos e', if_pos e']
        exact hξ r (s + j) (by omega) (by omega) (by omega) (by omega)
      · rw [if_neg e', if_neg e']
  have ur : ∀ (j r), j < nb → r < s + 1 + j ∨ ihi ≤ r → u j r = 0 := fun j r hj hh => panU_zero (by omega)
  have BP : ∀ r c, r < ihi → s < c → c < A.n → ∑ l ∈ range A.n, B r l * blkF (range nb) u Tf l c =
      entry ν A r c - ∑ j ∈ range nb, entry ν1 Y r j * star (u j c) := by
    intro r c hr hc hc'
    rw [blkF_right hc', hB r c (by omega)]
    congr 1
    refine Finset.sum_congr rfl fun j hj => ?_
    rw [yt r j hr (mem_range.1 hj)]
  have A2 : ∀ r c, r < A.n → c < A.n → entry ν2 A r c = if r < ihi ∧ s + nb ≤ c ∧ c < ihi then
      ∑ l ∈ range A.n, B r l * blkF (range nb) u Tf l c else entry ν1 A r c := by
    intro r c hr hc
    rw [e2 r c (by omega) hc]
    by_cases e : r < ihi ∧ s + nb ≤ c ∧ c < ihi
    · rw [if_pos e, if_pos e, BP r c e.1 (by omega) hc, A1 r c hr hc (by omega)]
    · rw [if_neg e, if_neg e]
  have A2p : ∀ r c, s < r → r < ihi → s ≤ c → c < s + nb → entry ν2 A r c = entry ν1 A r c := fun r c h0 h1 h2 h3 => by
    rw [A2 r c (by omega) (by omega), if_neg (by omega)]
  -- the rows above
  refine wp_conseq (wp_gehrdTop inj w.yinj AY hnb (ihi := ihi) (by omega) (by omega) hihi (by omega) hYn (by omega)) ?_
  rintro _ ν3 ⟨f3, e3⟩
  have Y2 : ∀ r c, r < Y.m → c < Y.n → entry ν2 Y r c = entry ν1 Y r c := fun r c hr hc => entry_matO YA o2 hr hc
  have A3 : ∀ r c, r < A.n → c < A.n → entry ν3 A r c = if r < ihi ∧ s + nb ≤ c ∧ c < ihi ∨ r ≤ s ∧ s < c ∧ c < s + nb then
      ∑ l ∈ range A.n, B r l * blkF (range nb) u Tf l c else entry ν1 A r c := by
    intro r c hr hc
    rw [e3 r c (by omega) hc]
    by_cases e : r ≤ s ∧ s < c ∧ c < s + nb
    · rw [if_pos e, if_pos (Or.inr e), BP r c (by omega) (by omega) hc, A2 r c hr hc, if_neg (by omega), A1 r c hr hc (by omega)]
      congr 1
      refine Finset.sum_congr rfl fun j hj => ?_
      have hj := mem_range.1 hj
      rw [Y2 r j (by omega) (by omega), pU ν2 A2p j c hj]
    · rw [if_neg e, A2 r c hr hc]
      by_cases e' : r < ihi ∧ s + nb ≤ c ∧ c < ihi
      · rw [if_pos e', if_pos (Or.inl e')]
      · rw [if_neg e', if_neg (by tauto)]
  have A3BP : ∀ r c, s < r → r < ihi → s + nb ≤ c → c < A.n → entry ν3 A r c = ∑ l ∈ range A.n, B r l * blkF (range nb) u Tf l c := by
    intro r c h0 h1 h2 h3
    rw [A3 r c (by omega) h3]
    by_cases e : c < ihi
    · rw [if_pos (Or.inl ⟨h1, h2, e⟩)]
    · rw [if_neg (by omega), BP r c h1 (by omega) h3, A1 r c (by omega) h3 (by omega), Finset.sum_eq_zero, sub_zero]
      intro j hj
      rw [ur j c (mem_range.1 hj) (by omega), star_zero, mul_zero]
  -- the left update
  refine wp_slice (by omega) (by omega) (by omega) (by omega) ?_
  have YT := w.TY.symm
  have dA : (A.sub (s + 1) ihi s (s + nb)).Disj (A.sub (s + 1) ihi (s + nb) A.n) :=
    inj.disj_sub (by omega) (by omega) (by omega) (by omega) (by omega)
  refine wp_conseq (wp_larfb (μ := ν3) ⟨by simp, inj.sub (by omega) (by omega), w.winj, dA, ?_, ?_, ?_, ?_,
    by simp [MatV.sub], by simp [MatV.sub, vcnt], by simp [MatV.sub, vlen], by simp [MatV.sub, vlen]; omega, ?_⟩ (by simp) (fun h z => RCLike.conj_eq_iff_im.2 (hl.real h z))) ?_
  · intro r c hr hc ho
    simp only [MatV.sub] at hr hc
    exact Ayw _ _ (by omega) (by omega) ho
  · exact (TA.sub_left (by omega) (by omega)).sub_right (by omega) (by omega)
  · intro r c hr hc ho
    simp only [MatV.sub] at hr hc
    exact w.Tw _ _ (by omega) (by omega) ho
  · intro r c hr hc ho
    simp only [MatV.sub] at hr hc
    exact Ayw _ _ (by omega) (by omega) ho
  · rw [hyn]
    simp only [larfbWorksize, MatV.sub, WorkInfo.ofMat, WorkInfo.size, if_true]
    rw [Nat.mul_comm, Nat.sub_zero]
    exact Nat.mul_le_mul_right _ (by omega)
  rintro _ ν4 ⟨rfl, e4, f4⟩
  rw [wp_pure]
  rw [if_pos rfl] at e4
  have T3 : ∀ a b, a < nb → b < nb → entry ν3 Tm a b = entry ν1 Tm a b := fun a b ha hb => by
    show ν3 _ = ν1 _
    rw [f3 _ (TA _ _ (by omega) (by omega)) (w.TY _ _ (by omega) (by omega)), o2 _ (TA _ _ (by omega) (by omega))]
  -- entries after larfb
  have A4 : ∀ r c, r < A.n → c < A.n → ¬ (s < r ∧ r < ihi ∧ s + nb ≤ c) → entry ν4 A r c = entry ν3 A r c := by
    intro r c hr hc hh
    refine f4 _ ?_ (Ayw _ _ (by omega) hc)
    rintro ⟨r', c', hr', hc', e'⟩
    simp only [MatV.sub] at hr' hc' e'
    have := inj _ _ _ _ (by omega) (by omega) (by omega) (by omega) e'
    omega
  have A4' : ∀ r c, s < r → r < ihi → s + nb ≤ c → c < A.n → entry ν4 A r c =
      panM A.n B (fun j => ventry ν1 tau (s + j)) u nb r c := by
    intro r c h0 h1 h2 h3
    rw [panM_entry pan.rel (by omega) h3]
    have hh : ∀ j x, j < nb → x < ihi - (s + 1) → houseVec .Forward .Columnwise (ihi - (s + 1)) nb (entry ν3 (A.sub (s + 1) ihi s (s + nb))) j x = u j (s + 1 + x) := by
      intro j x hj hx
      rw [hu]
      unfold houseVec hpiv panU
      simp only [if_true]
      by_cases e : x = j
      · rw [if_pos e, if_pos (by omega)]
      · rw [if_neg e, if_neg (show ¬ s + 1 + x = s + 1 + j by omega)]
        by_cases e' : x < j
        · rw [if_pos e', if_neg (by omega)]
        · rw [if_neg e', if_pos (by omega)]
          show entry ν3 A (s + 1 + x) (s + j) = _
          rw [A3 _ _ (by omega) (by omega), if_neg (by omega)]
    have tt : ∀ a b, a < nb → b < nb → triF (duplo .Forward) .NonUnit (entry ν3 (Tm.sub 0 nb 0 nb)) a b = Tf a b := by
      intro a b ha hb
      rw [show duplo .Forward = .Upper from rfl, triF_upper, vt, hTf]
      unfold upF
      rw [T3 a b ha hb]
    rw [show opQ Op.ConjTrans = fun M : Matrix (Fin (A.sub (s + 1) ihi (s + nb) A.n).m) (Fin (A.sub (s + 1) ihi (s + nb) A.n).m) 𝕜 => M.conjTranspose from rfl] at e4
    unfold blkH at e4
    dsimp only at e4
    rw [mat_conjTranspose, mat_mul, mat_ext_iff] at e4
    have e := e4 (r - (s + 1)) (c - (s + nb)) (by simp [MatV.sub]; omega) (by simp [MatV.sub]; omega)
    rw [blkF_left (𝕜 := 𝕜) (W := entry ν3 (A.sub (s + 1) ihi (s + nb) A.n)) (by simp [MatV.sub]; omega)] at e
    have hm : (A.sub (s + 1) ihi (s + nb) A.n).m = ihi - (s + 1) := rfl
    have hk : (Tm.sub 0 nb 0 nb).m = nb := by simp [MatV.sub]
    have w3 : ∀ x, x < ihi - (s + 1) → entry ν3 (A.sub (s + 1) ihi (s + nb) A.n) x (c - (s + nb)) = ∑ l ∈ range A.n, B (s + 1 + x) l * blkF (range nb) u Tf l c := by
      intro x hx
      rw [← A3BP (s + 1 + x) c (by omega) (by omega) h2 h3]
      simp [entry, MatV.sub, show s + nb + (c - (s + nb)) = c by omega]
    have lhs : entry ν4 A r c = entry ν4 (A.sub (s + 1) ihi (s + nb) A.n) (r - (s + 1)) (c - (s + nb)) := by
      simp [entry, MatV.sub, show s + nb + (c - (s + nb)) = c by omega, show s + 1 + (r - (s + 1)) = r by omega]
    rw [lhs, e, w3 _ (by omega), show s + 1 + (r - (s + 1)) = r by omega, hm, hk]
    congr 1
    refine Finset.sum_congr rfl fun l hl => ?_
    have hl := mem_range.1 hl
    rw [hh l _ hl (by omega), show s + 1 + (r - (s + 1)) = r by omega]
    congr 1
    refine Finset.sum_congr rfl fun b hb => ?_
    have hb := mem_range.1 hb
    rw [tt b l hb hl]
    congr 1
    rw [sum_window (n := A.n) (a := s + 1) (N := ihi) (by omega) hihi fun x _ hx => by rw [ur b x hb (by omega), star_zero, zero_mul]]
    refine Finset.sum_congr rfl fun x hx => ?_
    have hx := mem_range.1 hx
    rw [hh b x hb hx, w3 x hx]
  have P4 : ∀ r c, s < r → r < ihi → s ≤ c → c < s + nb → entry ν4 A r c = entry ν1 A r c := fun r c h0 h1 h2 h3 => by
    rw [A4 r c (by omega) (by omega) (by omega), A3 r c (by omega) (by omega), if_neg (by omega)]
  have rc : ∀ j r, j < nb → reflCol 1 ihi (entry ν4 A) (s + j) r = u j r := by
    intro j r hj
    rw [← pU ν4 P4 j r hj]
    unfold reflCol panU
    rw [show s + j + 1 = s + 1 + j by omega]
  have tau4 : ∀ j, j < tau.n → ventry ν4 tau j = ventry ν1 tau j := fun j hj => by
    show ν4 _ = ν1 _
    rw [f4 _ (fun ho => tA j hj (ho.sub (by omega) (by omega))) (fun ho => twk j hj (w.yw_work _ ho)), f3 _ (tA j hj) (fun ho => twk j hj (w.Y_work _ ho)), o2 _ (tA j hj)]
  have bc : ∀ l c, blkF (range nb) (fun j => reflCol 1 ihi (entry ν4 A) (s + j)) Tf l c = blkF (range nb) u Tf l c := by
    intro l c
    unfold blkF
    congr 1
    refine Finset.sum_congr rfl fun a ha => Finset.sum_congr rfl fun b hb => ?_
    dsimp only
    rw [rc a l (mem_range.1 ha), rc b c (mem_range.1 hb)]
  refine ⟨HessInv.block (Tf := Tf) (Y := entry ν1 Y) h.inv hlo (by omega) hihi ?_ ?_ ?_ ?_ ?_ ?_, fun j hj hh => ?_, fun l hA hT hW => ?_⟩
  · exact pan.congr hihi (by omega) rc (fun j hj => tau4 (s + j) (by omega)) (fun _ _ _ _ => rfl) (fun _ _ _ _ _ => rfl)
      (fun r j h0 h1 hj => P4 r (s + j) h0 h1 (by omega) (by omega))
  · intro r c hr hc hh
    rw [A4 r c hr hc (by omega), A3 r c hr hc, if_neg (by omega), A1 r c hr hc (by omega)]
  · intro r c h0 h1 h2
    rw [A4 r c (by omega) h2 (by omega), A3 r c (by omega) h2]
    simp only [bc]
    by_cases e : c < ihi
    · rw [if_pos (by omega)]
    · rw [if_neg (by omega), BP r c (by omega) h1 h2, A1 r c (by omega) h2 (by omega), Finset.sum_eq_zero, sub_zero]
      intro j hj
      rw [ur j c (mem_range.1 hj) (by omega), star_zero, mul_zero]
  · intro r c h0 h1 h2 h3
    rw [A4' r c h0 h1 h2 h3]
    exact (panM_congr (fun j hj => tau4 (s + j) (by omega)) (fun j r hj _ => rc j r hj) r c (by omega) h3).symm
  · intro j hj
    rw [P4 _ _ (by omega) (by omega) (by omega) (by omega)]
    have := real j hj
    rw [show s + 1 + j = s + j + 1 by omega] at this
    exact this
  · intro j hj
    rw [tau4 j (by omega), T1 j (by omega) (by omega)]
  · rw [tau4 j hj, T1 j hj (by omega), h.tn j hj (by omega)]
  · rw [f4 l (fun ho => hA (ho.sub (by omega) (by omega))) (fun ho => hW (w.yw_work _ ho)), f3 l hA (fun ho => hW (w.Y_work _ ho)), o2 l hA,
      f1 l (fun ho => hA (asub _ ho)) (fun ho => hW (w.T_work _ (tmsub _ ho))) (fun ho => hW (w.Y_work _ (ysub _ ho))) (fun ho => hT (tsub _ ho)), h.frame l hA hT hW]

theorem gehd2Worksize_le {ilo i ihi : Nat} {A : MatV L} (h : ilo ≤ i) : (gehd2Worksize i ihi A).size ≤ (gehd2Worksize ilo ihi A).size := by
  unfold gehd2Worksize
  by_cases e : i + 1 < ihi ∧ 0 < A.n
  · rw [if_pos e, if_pos ⟨by omega, e.2⟩, minMax_ofSize, minMax_ofSize]
    refine max_le_max ?_ ?_
    · exact larfWorksize_right (by omega) (by omega)
    · exact larfWorksize_left (by omega) (by omega)
  · rw [if_neg e]
    simp [WorkInfo.ofSize, WorkInfo.size]

theorem wp_gehrdLoop (hl : HhLaws 𝕜 p) {ilo ihi nb nx : Nat} {A : MatV L} {tau work : VecV L} (ok : QrOK A tau work) {Y Tm : MatV L} {yw : VecV L}
    (hx : nb ≤ nx) (hsq : A.m = A.n) (hihi : ihi ≤ A.n)
    {μ : Store L 𝕜} (hb : frobSq A.n A.n (entry μ A) ≤ p.tbig ^ 2) :
    ∀ (fuel s : Nat) (ν : Store L 𝕜), (s + nx < ihi - 1 → 0 < nb ∧ ihi ≤ tau.n ∧ GhW ihi nb A tau Y Tm yw work) → ihi ≤ s + fuel → ilo ≤ s → (ilo < ihi → s < ihi) →
    HessState ilo ihi A tau work μ s ν →
    wp (gehrdLoop (hhOps p) nb nx ihi A tau Y Tm yw fuel s) ν (fun s' ν' => ilo ≤ s' ∧ s' ≤ max s (ihi - 1) ∧ HessState ilo ihi A tau work μ s' ν') := by
  intro fuel
  induction fuel with
  | zero =>
    intro s ν w hf hlo hs h
    unfold gehrdLoop
    rw [if_neg (by omega), wp_pure]
    exact ⟨hlo, by omega, h⟩
  | succ f ih =>
    intro s ν w hf hlo hs h
    unfold gehrdLoop
    by_cases e : s + nx < ihi - 1
    · rw [if_pos e]
      simp only [wp_bind]
      obtain ⟨hnb, ht, w'⟩ := w e
      refine wp_conseq (wp_gehrdStep hl ok w' hnb hsq hihi ht hlo (by omega) hb h) fun _ ν' h' => ?_
      refine wp_conseq (ih (s + nb) ν' (fun _ => ⟨hnb, ht, w'⟩) (by omega) (by omega) (fun _ => by omega) h') fun s' ν'' ⟨h0, h1, h2⟩ => ⟨h0, ?_, h2⟩
      omega
    · rw [if_neg e, wp_pure]
      exact ⟨hlo, by omega, h⟩

/-- gehrd; `blk` says that the blocked code runs. -/
theorem wp_gehrd (hl : HhLaws 𝕜 p) {nb0 nxs ilo ihi : Nat} {A : MatV L} {tau work : VecV L} (ok : QrOK A tau work)
    (hsq : A.m = A.n) (hlh : ilo < ihi) (hihi : ihi ≤ A.n) (hlon : ilo < A.n) (ht : A.n - 1 ≤ tau.n) (hnb0 : 0 < nb0)
    (htb : max (min nb0 (ihi - ilo - 1)) nxs < ihi - ilo - 1 → ihi ≤ tau.n)
    (hw : (gehrdWorksize nb0 nxs ilo ihi A).size ≤ work.n) {μ : Store L 𝕜}
    (hb : frobSq A.n A.n (entry μ A) ≤ p.tbig ^ 2) (hsh : HessShape A.n ilo ihi (entry μ A)) :
    wp (gehrd (hhOps p) nb0 nxs ilo ihi A tau work) μ (fun r ν => r = 0 ∧ HessState ilo ihi A tau work μ (ihi - 1) ν) := by
  unfold gehrd
  simp only [wp_bind, wp_check]
  rw [if_pos (by simp; omega), if_pos (by simp; omega), if_pos (by simp [hsq]), if_pos (by simp; omega)]
  rw [if_pos hlh]
  unfold gehrdWorksize at hw
  rw [if_pos hlh, if_pos (by omega)] at hw
  set nb := min nb0 (ihi - ilo - 1) with hnb
  set nx := max nb nxs with hnx
  have wmax : ∀ a b : WorkInfo, a.size ≤ (a.minMax b).size ∧ b.size ≤ (a.minMax b).size := C05_minMax_size
  have start : HessState ilo ihi A tau work μ ilo μ := by
    refine ⟨⟨?_, fun i h0 h1 => by omega, fun i h0 h1 => by omega, hsh, fun _ _ _ _ _ => rfl⟩, fun _ _ _ => rfl, fun _ _ _ _ => rfl⟩
    rw [Nat.sub_self]
    simp only [reflProd, List.range_zero, List.map_nil, List.prod_nil, Matrix.conjTranspose_one, Matrix.one_mul, Matrix.mul_one]
    rw [mat_ext_iff]
    intro r c _ _
    rw [hz_out (by omega)]
  have fin : ∀ s ν, ilo ≤ s → s ≤ max ilo (ihi - 1) → (gehd2Worksize ilo ihi A).size ≤ work.n → HessState ilo ihi A tau work μ s ν →
      wp (gehd2 (hhOps p) s ihi A tau work) ν (fun r ν => r = 0 ∧ HessState ilo ihi A tau work μ (ihi - 1) ν) := by
    intro s ν hlo hs hw' h
    unfold gehd2
    simp only [wp_bind, wp_check]
    rw [if_pos (by simp [hsq]), if_pos (by simp; omega), if_neg (by omega)]
    simp only [wp_bind]
    refine wp_forUp_ (fun s ν => HessState ilo ihi A tau work μ s ν) (by omega) h ?_ ?_
    · intro s' ν h0 hs hν
      exact wp_gehd2Step hl ok hsq hihi ht hw' (by omega) hs hb hν
    · intro ν hν
      rw [wp_pure]
      exact ⟨rfl, hν⟩
  have hw2 : (gehd2Worksize ilo ihi A).size ≤ work.n := le_trans (wmax _ _).2 hw
  by_cases blk : nx < ihi - ilo - 1
  · rw [if_pos ⟨hlh, blk⟩] at hw
    have hwY : (A.n + nb) * nb ≤ work.n := by
      have := le_trans (le_trans (wmax _ _).1 (wmax _ _).1) hw
      simpa [WorkInfo.ofMat, WorkInfo.size] using this
    have hYle : A.n * nb ≤ work.n := le_trans (Nat.mul_le_mul_right _ (by omega)) hwY
    have hTle : A.n * nb + nb * nb ≤ work.n := by rw [← Nat.add_mul]; exact hwY
    rw [show decide (ilo < ihi ∧ nx < ihi - ilo - 1) = true by simp [hlh, blk]]
    simp only [if_true, wp_bind]
    refine wp_reshapeWM hYle ?_
    have hTle' : nb * nb ≤ (work.sub (A.n * nb) work.n).n := by simp [VecV.sub]; omega
    refine wp_reshapeWM hTle' ?_
    have yinj : (wview work A.n nb).Inj := wview_inj ok.winj hYle
    have wsub : (work.sub (A.n * nb) work.n).Inj := ok.winj.sub (le_refl _)
    obtain ⟨ν1, x1, -, f1⟩ := C24_laset .General (by simp) (0 : 𝕜) 0 _ yinj μ
    refine wp_of_eq x1 ?_
    rw [if_neg (by omega)]
    simp only [wp_bind]
    have f1' : ∀ l, ¬ work.Owns l → ν1 l = μ l := fun l hl => f1 l fun ho => hl (wview_owns hYle ho)
    have e1 : ∀ r c, r < A.n → c < A.n → entry ν1 A r c = entry μ A r c := fun r c hr hc => f1' _ (ok.Aw r c (by omega) hc)
    have t1 : ∀ i, i < tau.n → ventry ν1 tau i = ventry μ tau i := fun i hi => f1' _ (ok.tw i hi)
    have start1 : HessState ilo ihi A tau work μ ilo ν1 := by
      refine ⟨⟨?_, fun i h0 h1 => by omega, fun i h0 h1 => by omega, ⟨fun r c hr hc h => ?_, fun r c hr h hc => ?_⟩, fun r c hr hc _ => e1 r c hr hc⟩, fun i hi _ => t1 i hi, fun l _ _ h => f1' l h⟩
      · rw [Nat.sub_self]
        simp only [reflProd, List.range_zero, List.map_nil, List.prod_nil, Matrix.conjTranspose_one, Matrix.one_mul, Matrix.mul_one]
        rw [mat_ext_iff]
        intro r c hr hc
        rw [hz_out (by omega), e1 r c hr hc]
      · rw [e1 r c hr (by omega)]; exact hsh.lo r c hr hc h
      · rw [e1 r c hr (by omega)]; exact hsh.hi r c hr h hc
    have ywo : ∀ l, (work.sub 0 (A.n * nb)).Owns l → work.Owns l := fun l ho => ho.sub hYle
    have two : ∀ l, (wview (work.sub (A.n * nb) work.n) nb nb).Owns l → (work.sub (A.n * nb) work.n).Owns l := fun l ho => wview_owns hTle' ho
    have w : GhW ihi nb A tau (wview work A.n nb) (wview (work.sub (A.n * nb) work.n) nb nb) (work.sub 0 (A.n * nb)) work := by
      refine ⟨rfl, rfl, rfl, rfl, by simp [VecV.sub], yinj, wview_inj wsub hTle', ok.winj.sub hYle, ?_, ?_, ywo, fun l ho => wview_owns hYle ho,
        fun l ho => (two l ho).sub (le_refl _)⟩
      · rintro r c hr hc ⟨r', c', hr', hc', e⟩
        have h1 : r' + c' * A.n < A.n * nb := wview_lt hr' hc'
        have h2 : r + c * nb < nb * nb := wview_lt hr hc
        change work.cell (r' + c' * A.n) = work.cell (A.n * nb + (r + c * nb)) at e
        have := ok.winj _ _ (by omega) (by omega) e
        omega
      · rintro r c hr hc ⟨j, hj, e⟩
        have h2 : r + c * nb < nb * nb := wview_lt hr hc
        have hj' : j < A.n * nb := by simpa [VecV.sub] using hj
        change work.cell (0 + j) = work.cell (A.n * nb + (r + c * nb)) at e
        have := ok.winj _ _ (by omega) (by omega) e
        omega
    refine wp_conseq (wp_gehrdLoop hl ok (by omega) hsq hihi hb ihi ilo ν1 (fun _ => ⟨by omega, htb blk, w⟩) (by omega) (le_refl _) (fun h => h) start1) ?_
    rintro s ν ⟨h0, h1, h2⟩
    exact fin s ν h0 h1 hw2 h2
  · rw [show decide (ilo < ihi ∧ nx < ihi - ilo - 1) = false by simp [blk]]
    simp only [Bool.false_eq_true, if_false, wp_bind]
    refine wp_reshapeWM (by simp) ?_
    refine wp_reshapeWM (by simp) ?_
    obtain ⟨ν1, x1, -, f1⟩ := C24_laset .General (by simp) (0 : 𝕜) 0 (wview work 0 0) (fun i j i' j' hi => by simp at hi) μ
    refine wp_of_eq x1 ?_
    rw [if_neg (by omega)]
    simp only [wp_bind]
    have : ν1 = μ := funext fun l => f1 l fun ⟨i, j, hi, _⟩ => by simp at hi
    subst this
    refine wp_conseq (wp_gehrdLoop hl ok (by omega) hsq hihi hb ihi ilo ν1 (fun h => by omega) (by omega) (le_refl _) (fun h => h) start) ?_
    rintro s ν ⟨h0, h1, h2⟩
    exact fin s ν h0 h1 hw2 h2

end TLA
