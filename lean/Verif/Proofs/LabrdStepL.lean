import Verif.Proofs.LabrdStepU

/-! # One step of labrd, `m < n` -/

set_option linter.unusedSectionVars false
set_option linter.unusedTactic false
set_option linter.unreachableTactic false
set_option linter.unusedVariables false

namespace TLA
open Finset
variable {L 𝕜 : Type} [DecidableEq L] [RCLike 𝕜] [DecidableEq 𝕜] {p : HhPar}
variable {A X Y : MatV L} {m n nb : Nat}

set_option maxHeartbeats 1000000 in
theorem wp_labrdStepL (hl : HhLaws 𝕜 p) (ok : BpOK A X Y m n nb) (hmn : m < n) {i : Nat} (hi : i < nb) {tauq taup : VecV L} (tk : TauOK A X Y tauq taup i)
    {f : K3 → Nat → Nat → 𝕜} {ν : Store L 𝕜} (hf : LS (B3 A X Y) f ν)
    (hre : 0 < i → star (f .a i (i - 1)) = f .a i (i - 1))
    (hb1 : ∀ c, i ≤ c → c < n → ‖virtF i i (starT (f .a)) (f .y) (f .x) c i‖ ≤ p.tbig)
    (hb2 : ∀ t G2, ColStep n m i i n i (i + 1) m t (virtF i i (starT (f .a)) (f .y) (f .x)) G2 → ∀ r, i < r → r < m → ‖G2 i r‖ ≤ p.tbig) :
    wp (labrdStepL (hhOps p) A tauq taup X Y i) ν (fun _ ν' => ∃ f', LS (B3 A X Y) f' ν' ∧
      (∀ l, (∀ k, ¬ (B3 A X Y k).Owns l) → l ≠ tauq.cell i → l ≠ taup.cell i → ν' l = ν l) ∧
      StepOut n m i (ventry ν' taup i) (ventry ν' tauq i) (starT (f .a)) (f .y) (f .x) (starT (f' .a)) (f' .y) (f' .x)) := by
  have ok' := ok
  obtain ⟨fam, Am, An, Xm, Xn, Ym, Yn, hm, hn⟩ := ok
  obtain ⟨tq, tp, qp, iq, ip⟩ := tk
  have him : i < m := by omega
  have hin : i < n := by omega
  unfold labrdStepL
  simp only [wp_bind]
  refine wp_sliceRow (by omega) (by omega) (by omega) ?_
  refine wp_conseq (wp_conj_F fam (d := ⟨.a, true, i, i, A.n⟩) ⟨by simp [B3]; omega, by simp [B3]⟩ hf) fun _ ν0 ⟨h0, g0⟩ => ?_
  have h0' := h0.toR (g' := fun c => star (f .a i c)) rfl (fun x hx => rfl)
  set f0 := updR f .a i i fun c => star (f .a i c) with hf0
  have f0out : ∀ k r c, ¬ (k = .a ∧ r = i ∧ i ≤ c) → f0 k r c = f k r c := fun k r c h => updR_out h
  have f0in : ∀ c, i ≤ c → f0 .a i c = star (f .a i c) := fun c h => updR_in h
  refine wp_conseq (wp_labrdHeadL ok' hi h0' (fun h => by rw [f0out _ _ _ (by omega)]; exact hre h)) fun _ ν1 ⟨h1, g1⟩ => ?_
  set f1 := updR f0 .a i i fun c => f0 .a i c - (∑ l ∈ range i, f0 .y c l * (if i = l + 1 then 1 else star (f0 .a i l)))
      - ∑ l ∈ range i, star (f0 .a l c) * star (f0 .x i l) with hf1
  have f1in : ∀ c, i ≤ c → f1 .a i c = virtF i i (starT (f .a)) (f .y) (f .x) c i := by
    intro c hc
    rw [hf1, updR_in hc]
    unfold virtF
    rw [if_neg (by omega), f0in c hc, sub_right_comm]
    refine congrArg₂ _ (congrArg₂ _ rfl ?_) ?_
    · refine Finset.sum_congr rfl fun j hj => ?_
      have := mem_range.1 hj
      rw [if_neg (by omega), f0out _ _ _ (by omega), f0out _ _ _ (by simp)]
      rfl
    · refine Finset.sum_congr rfl fun j hj => ?_
      have := mem_range.1 hj
      rw [f0out _ _ _ (by simp), f0out _ _ _ (by omega)]
      rfl
  have f1out : ∀ k r c, ¬ (k = .a ∧ r = i ∧ i ≤ c) → f1 k r c = f k r c := fun k r c h => (updR_out h).trans (f0out k r c h)
  refine wp_conseq (wp_larfgR_F hl ok' (P := i) (r := i) hin him h1 (fun r h0 h1 => by rw [f1in r h0]; exact hb1 r h0 h1)) ?_
  rintro t ν2 ⟨al, cs, h2, g2⟩
  set f2 := updR f1 .a i i fun c => al c i with hf2
  have f2in : ∀ c, i ≤ c → f2 .a i c = al c i := fun r hr => updR_in hr
  have f2out : ∀ k r c, ¬ (k = .a ∧ r = i ∧ i ≤ c) → f2 k r c = f k r c := fun k r c h => (updR_out h).trans (f1out k r c h)
  have hreal : star (al i i) = al i i := cs.real
  refine wp_vsetE ip ?_
  have h2' := h2.outside (tp i ip) t
  set ν3 := upd ν2 (taup.cell i) t with hν3
  have g3 : ∀ l, (∀ k, ¬ (B3 A X Y k).Owns l) → l ≠ taup.cell i → ν3 l = ν l := fun l hl h => by
    rw [hν3, upd_ne_cell (Ne.symm h), g2 l hl, g1 l hl, g0 l hl]
  have t3 : ventry ν3 taup i = t := if_pos rfl
  set a2 : Nat → Nat → 𝕜 := fun r c => if r = i ∧ i ≤ c then star (al c i) else f .a r c with ha2
  have a2in : ∀ c, i ≤ c → a2 i c = star (al c i) := fun c h => if_pos ⟨rfl, h⟩
  have a2out : ∀ r c, ¬ (r = i ∧ i ≤ c) → a2 r c = f .a r c := fun r c h => if_neg h
  by_cases hlast : i + 1 < A.m
  swap
  · rw [if_neg hlast]
    have hiN : i + 1 = m := by omega
    refine wp_conseq (wp_conj_F fam (d := ⟨.a, true, i, i, A.n⟩) ⟨by simp [B3]; omega, by simp [B3]⟩ h2') fun _ ν4 ⟨h4, g4⟩ => ?_
    have h4' := h4.toR (g' := fun c => star (al c i)) rfl (fun x hx => by
      simp only [Vd.at, Vd.r, Vd.c]
      rw [f2in _ (by omega)])
    refine ⟨_, h4', fun l hl _ h => (g4 l hl).trans (g3 l hl h), ?_⟩
    have t4 : ventry ν4 taup i = t := (g4 _ (tp i ip)).trans t3
    rw [t4]
    refine ⟨virtF (i + 1) i (starT (updR f2 .a i i (fun c => star (al c i)) .a)) (f .y) (f .x), virt_col hin him cs (fun r h _ => f1in r h) (fun r h _ => ?_) (fun r c _ _ h => ?_) (fun _ _ _ _ => rfl) (fun c h1 h2 => by omega),
      fun h => by omega, fun _ r c hr hc => ?_⟩
    · show star (updR f2 .a i i (fun c => star (al c i)) .a i r) = _
      rw [updR_in h, star_star]
    · show star (updR f2 .a i i (fun c => star (al c i)) .a c r) = star (f .a c r)
      rw [updR_out (by omega), f2out _ _ _ (by omega)]
    · unfold virtF
      rw [if_pos (by omega), if_pos (by omega)]
  rw [if_pos hlast]
  have hiN : i + 1 < m := by omega
  simp only [wp_bind]
  refine wp_getE (by omega) ?_
  refine wp_setE (by omega) ?_
  have ed : ν3 (A.cell i i) = al i i := (h2' .a i i (by simp [B3]; omega) (by simp [B3]; omega)).trans (f2in i (le_refl _))
  obtain ⟨h3, g4⟩ := LS.set fam h2' (k := .a) (r := i) (c := i) (by simp [B3]; omega) (by simp [B3]; omega) 1
  set f3 := updE f2 .a i i 1 with hf3
  have f3row : ∀ c, i ≤ c → c < n → f3 .a i c = colU i i n i al c := by
    intro c h0 hc
    unfold colU
    by_cases e : c = i
    · rw [if_pos e, e, hf3, updE_in]
    · rw [if_neg e, if_pos ⟨h0, hc⟩, hf3, updE_out (by omega), f2in c h0]
  have f3out : ∀ k r c, ¬ (k = .a ∧ r = i ∧ i ≤ c) → f3 k r c = f k r c := fun k r c h =>
    (updE_out (by rintro ⟨h1, h2, h3⟩; exact h ⟨h1, h2, by omega⟩)).trans (f2out k r c h)
  refine wp_conseq (wp_brdX ok' (c0 := i) (k1 := i) (guard := decide (0 < i)) (by simp) hin (le_refl _) (by omega) hiN hi (le_refl _) (le_refl _) tp ip h3) ?_
  rintro _ ν4 ⟨f4, h4, g5, a4, y4, x4, xi4⟩
  have t4 : ventry (upd ν3 (A.cell i i) 1) taup i = t := (g4 _ (tp i ip)).trans t3
  rw [t4] at xi4
  have f4y : f4 .y = f .y := by
    funext r c
    rw [y4, f3out _ _ _ (by simp)]
  have f4ii : f4 .a i i = 1 := by
    rw [a4 i i him hin, if_pos ⟨rfl, le_refl _⟩, hf3, updE_in, star_one]
  have f4o : ∀ r c, r < m → c < n → ¬ (r = i ∧ c = i) → f4 .a r c = a2 r c := by
    intro r c hr hc h
    rw [a4 r c hr hc]
    by_cases e : r = i ∧ i ≤ c
    · obtain ⟨rfl, e⟩ := e
      rw [if_pos ⟨rfl, e⟩, a2in c e, hf3, updE_out (by omega), f2in c e]
    · rw [if_neg e, a2out _ _ e, f3out _ _ _ (by omega)]
  have cs1 : ColStep n m i i n i (i + 1) m t (virtF i i (starT (f .a)) (f .y) (f .x)) (virtF (i + 1) i (starT a2) (f .y) (f4 .x)) := by
    refine virt_col hin him cs (fun r h _ => f1in r h) (fun r h _ => ?_) (fun r c _ _ h => ?_) (fun c j _ hj => ?_) (fun c hc hcn => ?_)
    · show star (a2 i r) = _
      rw [a2in r h, star_star]
    · show star (a2 c r) = star (f .a c r)
      rw [a2out _ _ (by omega)]
    · rw [x4 c j (by omega), f3out _ _ _ (by simp)]
    · rw [xi4 c hc hcn, sub_right_comm]
      congr 1
      refine congrArg₂ _ (congrArg₂ _ ?_ ?_) ?_
      · refine Finset.sum_congr rfl fun r hr => ?_
        have := mem_range.1 hr
        rw [f3row _ (by omega) (by omega), f3out _ _ _ (by omega), starT, star_star]
      · refine Finset.sum_congr rfl fun j hj => ?_
        have := mem_range.1 hj
        rw [f3out _ _ _ (by simp)]
        refine congrArg _ (Finset.sum_congr rfl fun r hr => ?_)
        have := mem_range.1 hr
        rw [f3row _ (by omega) (by omega), f3out _ _ _ (by omega), starT, star_star]
      · refine Finset.sum_congr rfl fun j hj => ?_
        have := mem_range.1 hj
        rw [f3out _ _ _ (by omega), starT, star_star]
        refine congrArg _ (Finset.sum_congr rfl fun r hr => ?_)
        have := mem_range.1 hr
        rw [f3row _ (by omega) (by omega), f3out _ _ _ (by simp)]
  refine wp_conseq (wp_labrdColL ok' hi hiN hin h4) fun _ ν5 ⟨h5, g6⟩ => ?_
  set f5 := updC f4 .a i (i + 1) fun r => f4 .a r i - (∑ l ∈ range i, f4 .a r l * star (f4 .y i l))
      - ∑ l ∈ range (i + 1), f4 .x r l * f4 .a l i with hf5
  have f5in : ∀ r, i + 1 ≤ r → r < m → f5 .a r i = star (virtF (i + 1) i (starT a2) (f .y) (f4 .x) i r) := by
    intro r hr hrm
    rw [hf5, updC_in hr]
    unfold virtF
    rw [if_neg (by omega), star_sub, star_sub, star_sum, star_sum, f4o r i hrm hin (by omega), sub_right_comm]
    refine congrArg₂ _ (congrArg₂ _ (star_star _).symm ?_) ?_
    · refine Finset.sum_congr rfl fun j hj => ?_
      have := mem_range.1 hj
      rw [star_mul', star_star, mul_comm]
      refine congrArg₂ _ ?_ rfl
      by_cases e : i = j
      · subst e; rw [if_pos rfl, f4ii, star_one]
      · rw [if_neg e, f4o _ _ (by omega) hin (by omega), starT, star_star]
    · refine Finset.sum_congr rfl fun j hj => ?_
      have := mem_range.1 hj
      rw [star_mul', if_neg (by omega), f4y, f4o _ _ hrm (by omega) (by omega), mul_comm, starT, star_star]
  have f5out : ∀ k r c, ¬ (k = .a ∧ c = i ∧ i + 1 ≤ r) → f5 k r c = f4 k r c := fun k r c h => updC_out h
  refine wp_sliceCol (by omega) (by omega) (by omega) ?_
  refine wp_conseq (wp_larfgC_F hl ok' (P := i + 1) (c := i) hiN hin h5 (fun c h0 h1 => by
    rw [f5in c h0 h1, norm_star]; exact hb2 t _ cs1 c (by omega) h1)) ?_
  rintro u ν6 ⟨al5, cs5, h6, g7⟩
  set f6 := updC f5 .a i (i + 1) fun c => al5 c i with hf6
  have f6in : ∀ r, i + 1 ≤ r → f6 .a r i = al5 r i := fun c hc => updC_in hc
  have f6out : ∀ k r c, ¬ (k = .a ∧ c = i ∧ i + 1 ≤ r) → f6 k r c = f4 k r c := fun k r c h => (updC_out h).trans (f5out k r c h)
  have hreal5 : star (al5 (i + 1) i) = al5 (i + 1) i := cs5.real
  refine wp_vsetE iq ?_
  have h6' := h6.outside (tq i iq) u
  set ν7 := upd ν6 (tauq.cell i) u with hν7
  have g8 : ∀ l, (∀ k, ¬ (B3 A X Y k).Owns l) → l ≠ tauq.cell i → ν7 l = ν3 l := fun l hl h => by
    rw [hν7, upd_ne_cell (Ne.symm h), g7 l hl, g6 l hl, g5 l hl]
    exact g4 l hl
  have t7 : ventry ν7 tauq i = u := if_pos rfl
  refine wp_getE (by omega) ?_
  refine wp_setE (by omega) ?_
  have ee : ν7 (A.cell (i + 1) i) = al5 (i + 1) i := (h6' .a (i + 1) i (by simp [B3]; omega) (by simp [B3]; omega)).trans (f6in (i + 1) (le_refl _))
  obtain ⟨h7, g9⟩ := LS.set fam h6' (k := .a) (r := i + 1) (c := i) (by simp [B3]; omega) (by simp [B3]; omega) 1
  set f7 := updE f6 .a (i + 1) i 1 with hf7
  have f7col : ∀ r, i + 1 ≤ r → r < m → f7 .a r i = colU (i + 1) (i + 1) m i al5 r := by
    intro c h0 hc
    unfold colU
    by_cases e : c = i + 1
    · rw [if_pos e, e, hf7, updE_in]
    · rw [if_neg e, if_pos ⟨h0, hc⟩, hf7, updE_out (by omega), f6in c h0]
  have f7out : ∀ k r c, ¬ (k = .a ∧ c = i ∧ i + 1 ≤ r) → f7 k r c = f4 k r c := fun k r c h =>
    (updE_out (by rintro ⟨h1, h2, h3⟩; exact h ⟨h1, h3, by omega⟩)).trans (f6out k r c h)
  have f7o : ∀ r c, r < m → c < n → c ≠ i → f7 .a r c = a2 r c := fun r c hr hc h => by
    rw [f7out _ _ _ (by omega), f4o _ _ hr hc (by omega)]
  refine wp_conseq (wp_brdY ok' (r0 := i + 1) (k2 := i + 1) hiN (by omega) (le_refl _) (by omega) hi him (by omega) (le_refl _) tq iq h7) ?_
  rintro _ ν8 ⟨f8, h8, g10, e8, yi8⟩
  have t8 : ventry (upd ν7 (A.cell (i + 1) i) 1) tauq i = u := (g9 _ (tq i iq)).trans t7
  rw [t8] at yi8
  refine wp_setE (by omega) ?_
  rw [ed, re_star hreal]
  obtain ⟨h9, g11⟩ := LS.set fam h8 (k := .a) (r := i) (c := i) (by simp [B3]; omega) (by simp [B3]; omega) (al i i)
  refine wp_setE (by omega) ?_
  rw [ee, re_star hreal5]
  obtain ⟨h10, g12⟩ := LS.set fam h9 (k := .a) (r := i + 1) (c := i) (by simp [B3]; omega) (by simp [B3]; omega) (al5 (i + 1) i)
  have gg : ∀ l, (∀ k, ¬ (B3 A X Y k).Owns l) → (upd (upd ν8 (A.cell i i) (al i i)) (A.cell (i + 1) i) (al5 (i + 1) i)) l = ν7 l := fun l hl => by
    refine (g12 l hl).trans ((g11 l hl).trans ?_)
    rw [g10 l hl]
    exact g9 l hl
  refine ⟨_, h10, fun l hl hq hp => ?_, ?_⟩
  · exact (gg l hl).trans ((g8 l hl hq).trans (g3 l hl hp))
  have ep : ventry (upd (upd ν8 (A.cell i i) (al i i)) (A.cell (i + 1) i) (al5 (i + 1) i)) taup i = t :=
    (gg _ (tp i ip)).trans ((g8 _ (tp i ip) (qp i i iq ip).symm).trans t3)
  have eq : ventry (upd (upd ν8 (A.cell i i) (al i i)) (A.cell (i + 1) i) (al5 (i + 1) i)) tauq i = u :=
    (gg _ (tq i iq)).trans t7
  rw [eq, ep]
  refine ⟨_, cs1, fun _ => ?_, fun h => by omega⟩
  have ey : updE (updE f8 .a i i (al i i)) .a (i + 1) i (al5 (i + 1) i) .x = f4 .x := by
    funext r c
    rw [updE_out (by simp), updE_out (by simp), e8 _ _ _ (by simp), f7out _ _ _ (by simp)]
  rw [ey]
  refine virt_row hin hiN cs5 f5in ?_ ?_ ?_ ?_
  · intro c hc hcn
    refine congrArg star ?_
    by_cases e : c = i + 1
    · subst e; rw [updE_in]
    · rw [updE_out (by omega), updE_out (by omega), e8 _ _ _ (by simp), hf7, updE_out (by omega), f6in c hc]
  · intro c r hc hr h
    refine congrArg star ?_
    rw [updE_out (by omega)]
    by_cases e : r = i ∧ c = i
    · obtain ⟨rfl, rfl⟩ := e
      rw [updE_in, a2in _ (le_refl _), hreal]
    · rw [updE_out (by omega), e8 _ _ _ (by simp), f7out _ _ _ (by omega), f4o _ _ hr hc (by omega)]
  · intro r j hr hj
    rw [updE_out (by simp), updE_out (by simp), e8 _ _ _ (by omega), f7out _ _ _ (by simp), f4y]
  · intro c h0 hc
    rw [updE_out (by simp), updE_out (by simp), yi8 c h0 hc, sub_right_comm]
    congr 1
    refine congrArg₂ _ (congrArg₂ _ ?_ ?_) ?_
    · refine Finset.sum_congr rfl fun r hr => ?_
      have := mem_range.1 hr
      rw [f7col _ (by omega) (by omega), f7o _ _ (by omega) (by omega) (by omega)]
      rfl
    · refine Finset.sum_congr rfl fun j hj => ?_
      have := mem_range.1 hj
      rw [f7o _ _ (by omega) (by omega) (by omega)]
      refine congrArg _ (Finset.sum_congr rfl fun r hr => ?_)
      have := mem_range.1 hr
      rw [f7col _ (by omega) (by omega), f7out _ _ _ (by simp)]
    · refine Finset.sum_congr rfl fun j hj => ?_
      have := mem_range.1 hj
      rw [f7out .y _ _ (by simp), f4y]
      refine congrArg _ (Finset.sum_congr rfl fun r hr => ?_)
      have := mem_range.1 hr
      rw [f7col _ (by omega) (by omega), f7o _ _ (by omega) (by omega) (by omega)]
      rfl

end TLA
