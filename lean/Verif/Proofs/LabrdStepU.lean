import Verif.Proofs.LabrdStep

/-! # One step of labrd: both halves -/

set_option linter.unusedSectionVars false
set_option linter.unusedTactic false
set_option linter.unreachableTactic false
set_option linter.unusedVariables false

namespace TLA
open Finset
variable {L 𝕜 : Type} [DecidableEq L] [RCLike 𝕜] [DecidableEq 𝕜] {p : HhPar}
variable {A X Y : MatV L} {m n nb : Nat}

/-- What one step does to the matrix the panel stands for. -/
def StepOut (M N i : Nat) (t u : 𝕜) (a x y a' x' y' : Nat → Nat → 𝕜) : Prop :=
  ∃ H, ColStep M N i i M i (i + 1) N t (virtF i i a x y) H ∧
    (i + 1 < N → ColStep N M (i + 1) (i + 1) N i (i + 1) M u (starT H) (starT (virtF (i + 1) (i + 1) a' x' y'))) ∧
    (i + 1 = N → ∀ r c, r < M → c < N → H r c = virtF (i + 1) (i + 1) a' x' y' r c)

/-- The cells of the two vectors of scalar factors lie apart. -/
structure TauOK (A X Y : MatV L) (tauq taup : VecV L) (i : Nat) : Prop where
  hq : ∀ i, i < tauq.n → ∀ k, ¬ (B3 A X Y k).Owns (tauq.cell i)
  hp : ∀ i, i < taup.n → ∀ k, ¬ (B3 A X Y k).Owns (taup.cell i)
  qp : ∀ i j, i < tauq.n → j < taup.n → tauq.cell i ≠ taup.cell j
  iq : i < tauq.n
  ip : i < taup.n

set_option maxHeartbeats 1000000 in
theorem wp_labrdStepU (hl : HhLaws 𝕜 p) (ok : BpOK A X Y m n nb) (hmn : n ≤ m) {i : Nat} (hi : i < nb) {tauq taup : VecV L} (tk : TauOK A X Y tauq taup i)
    {f : K3 → Nat → Nat → 𝕜} {ν : Store L 𝕜} (hf : LS (B3 A X Y) f ν)
    (hre : 0 < i → star (f .a (i - 1) i) = f .a (i - 1) i)
    (hb1 : ∀ r, i ≤ r → r < m → ‖virtF i i (f .a) (f .x) (f .y) r i‖ ≤ p.tbig)
    (hb2 : ∀ t G2, ColStep m n i i m i (i + 1) n t (virtF i i (f .a) (f .x) (f .y)) G2 → ∀ c, i < c → c < n → ‖G2 i c‖ ≤ p.tbig) :
    wp (labrdStepU (hhOps p) A tauq taup X Y i) ν (fun _ ν' => ∃ f', LS (B3 A X Y) f' ν' ∧
      (∀ l, (∀ k, ¬ (B3 A X Y k).Owns l) → l ≠ tauq.cell i → l ≠ taup.cell i → ν' l = ν l) ∧
      StepOut m n i (ventry ν' tauq i) (ventry ν' taup i) (f .a) (f .x) (f .y) (f' .a) (f' .x) (f' .y)) := by
  have ok' := ok
  obtain ⟨fam, Am, An, Xm, Xn, Ym, Yn, hm, hn⟩ := ok
  obtain ⟨tq, tp, qp, iq, ip⟩ := tk
  have him : i < m := by omega
  have hin : i < n := by omega
  unfold labrdStepU
  simp only [wp_bind]
  refine wp_conseq (wp_labrdHeadU ok' hi hf hre) fun _ ν1 ⟨h1, g1⟩ => ?_
  set f1 := updC f .a i i fun r => virtF i i (f .a) (f .x) (f .y) r i with hf1
  have f1in : ∀ r, i ≤ r → f1 .a r i = virtF i i (f .a) (f .x) (f .y) r i := fun r hr => updC_in hr
  have f1out : ∀ k r c, ¬ (k = .a ∧ c = i ∧ i ≤ r) → f1 k r c = f k r c := fun k r c h => updC_out h
  refine wp_sliceCol (by omega) (by omega) (by omega) ?_
  refine wp_conseq (wp_larfgC_F hl ok' (P := i) (c := i) him hin h1 (fun r h0 h1 => by rw [f1in r h0]; exact hb1 r h0 h1)) ?_
  rintro t ν2 ⟨al, cs, h2, g2⟩
  set f2 := updC f1 .a i i fun r => al r i with hf2
  have f2in : ∀ r, i ≤ r → f2 .a r i = al r i := fun r hr => updC_in hr
  have f2out : ∀ k r c, ¬ (k = .a ∧ c = i ∧ i ≤ r) → f2 k r c = f k r c := fun k r c h => (updC_out h).trans (f1out k r c h)
  have hreal : star (al i i) = al i i := cs.real
  refine wp_vsetE iq ?_
  have h2' := h2.outside (tq i iq) t
  set ν3 := upd ν2 (tauq.cell i) t with hν3
  have g3 : ∀ l, (∀ k, ¬ (B3 A X Y k).Owns l) → l ≠ tauq.cell i → ν3 l = ν l := fun l hl h => by
    rw [hν3, upd_ne_cell (Ne.symm h), g2 l hl, g1 l hl]
  have t3 : ventry ν3 tauq i = t := if_pos rfl
  by_cases hlast : i < A.n - 1
  swap
  · rw [if_neg hlast, wp_pure]
    have hiN : i + 1 = n := by omega
    refine ⟨f2, h2', fun l hl h _ => g3 l hl h, ?_⟩
    rw [t3]
    refine ⟨virtF (i + 1) i (f2 .a) (f .x) (f .y), virt_col him hin cs (fun r h _ => f1in r h) (fun r h _ => f2in r h) (fun r c _ _ h => f2out .a r c (by omega)) (fun _ _ _ _ => rfl) (fun c h1 h2 => by omega),
      fun h => by omega, fun _ r c hr hc => ?_⟩
    unfold virtF
    rw [if_pos (by omega), if_pos (by omega)]
  rw [if_pos hlast]
  have hiN : i + 1 < n := by omega
  simp only [wp_bind]
  refine wp_getE (by omega) ?_
  refine wp_setE (by omega) ?_
  have ed : ν3 (A.cell i i) = al i i := (h2' .a i i (by simp [B3]; omega) (by simp [B3]; omega)).trans (f2in i (le_refl _))
  obtain ⟨h3, g4⟩ := LS.set fam h2' (k := .a) (r := i) (c := i) (by simp [B3]; omega) (by simp [B3]; omega) 1
  set f3 := updE f2 .a i i 1 with hf3
  have f3col : ∀ r, i ≤ r → r < m → f3 .a r i = colU i i m i al r := by
    intro r h0 hr
    unfold colU
    by_cases e : r = i
    · rw [if_pos e, e, hf3, updE_in]
    · rw [if_neg e, if_pos ⟨h0, hr⟩, hf3, updE_out (by omega), f2in r h0]
  have f3out : ∀ k r c, ¬ (k = .a ∧ c = i ∧ i ≤ r) → f3 k r c = f k r c := fun k r c h =>
    (updE_out (by rintro ⟨h1, h2, h3⟩; exact h ⟨h1, h3, by omega⟩)).trans (f2out k r c h)
  refine wp_conseq (wp_brdY ok' (r0 := i) (k2 := i) him (le_refl _) (by omega) hiN hi him (le_refl _) (le_refl _) tq iq h3) ?_
  rintro _ ν4 ⟨f4, h4, g5, e4, y4⟩
  have t4 : ventry (upd ν3 (A.cell i i) 1) tauq i = t := (g4 _ (tq i iq)).trans t3
  rw [t4] at y4
  have cs1 : ColStep m n i i m i (i + 1) n t (virtF i i (f .a) (f .x) (f .y)) (virtF (i + 1) i (f2 .a) (f .x) (f4 .y)) := by
    refine virt_col him hin cs (fun r h _ => f1in r h) (fun r h _ => f2in r h) (fun r c _ _ h => f2out .a r c (by omega)) (fun c j _ hj => ?_) (fun c hc hcn => ?_)
    · rw [e4 .y c j (Or.inr (by omega)), f3out _ _ _ (by simp)]
    · rw [y4 c hc hcn]
      congr 1
      refine congrArg₂ _ (congrArg₂ _ ?_ ?_) ?_
      · refine Finset.sum_congr rfl fun r hr => ?_
        have := mem_range.1 hr
        rw [f3col _ (by omega) (by omega), f3out _ _ _ (by omega)]
      · refine Finset.sum_congr rfl fun j hj => ?_
        have := mem_range.1 hj
        rw [f3out _ _ _ (by simp)]
        refine congrArg _ (Finset.sum_congr rfl fun r hr => ?_)
        have := mem_range.1 hr
        rw [f3col _ (by omega) (by omega), f3out _ _ _ (by omega)]
      · refine Finset.sum_congr rfl fun j hj => ?_
        have := mem_range.1 hj
        rw [f3out _ _ _ (by omega)]
        refine congrArg _ (Finset.sum_congr rfl fun r hr => ?_)
        have := mem_range.1 hr
        rw [f3col _ (by omega) (by omega), f3out _ _ _ (by simp)]
  have f4a : ∀ r c, f4 .a r c = f3 .a r c := fun r c => e4 .a r c (Or.inl (by simp))
  have f4x : ∀ r c, f4 .x r c = f .x r c := fun r c => (e4 .x r c (Or.inl (by simp))).trans (f3out _ _ _ (by simp))
  have f4o : ∀ r c, c ≠ i ∨ r < i → f4 .a r c = f2 .a r c := fun r c h => (f4a r c).trans (updE_out (by omega))
  refine wp_conseq (wp_labrdRowU ok' hi hiN him h4) fun _ ν5 ⟨h5, g6⟩ => ?_
  set f5 := updR f4 .a i (i + 1) fun c => star (f4 .a i c) - (∑ l ∈ range (i + 1), f4 .y c l * star (f4 .a i l))
      - ∑ l ∈ range i, star (f4 .a l c) * star (f4 .x i l) with hf5
  have f5in : ∀ c, i + 1 ≤ c → c < n → f5 .a i c = star (virtF (i + 1) i (f2 .a) (f .x) (f4 .y) i c) := by
    intro c hc hcn
    rw [hf5, updR_in hc]
    unfold virtF
    rw [if_neg (by omega), star_sub, star_sub, star_sum, star_sum, f4o i c (Or.inl (by omega))]
    refine congrArg₂ _ (congrArg₂ _ rfl ?_) ?_
    · refine Finset.sum_congr rfl fun j hj => ?_
      have := mem_range.1 hj
      rw [star_mul', star_star, mul_comm]
      refine congrArg₂ _ (congrArg star ?_) rfl
      by_cases e : i = j
      · subst e; rw [if_pos rfl, f4a, hf3, updE_in]
      · rw [if_neg e, f4o _ _ (Or.inl (by omega))]
    · refine Finset.sum_congr rfl fun j hj => ?_
      have := mem_range.1 hj
      rw [star_mul', if_neg (by omega), f4x, f4o _ _ (Or.inr (by omega)), mul_comm]
  have f5out : ∀ k r c, ¬ (k = .a ∧ r = i ∧ i + 1 ≤ c) → f5 k r c = f4 k r c := fun k r c h => updR_out h
  refine wp_sliceRow (by omega) (by omega) (by omega) ?_
  refine wp_conseq (wp_larfgR_F hl ok' (P := i + 1) (r := i) hiN him h5 (fun c h0 h1 => by
    rw [f5in c h0 h1, norm_star]; exact hb2 t _ cs1 c (by omega) h1)) ?_
  rintro u ν6 ⟨al5, cs5, h6, g7⟩
  set f6 := updR f5 .a i (i + 1) fun c => al5 c i with hf6
  have f6in : ∀ c, i + 1 ≤ c → f6 .a i c = al5 c i := fun c hc => updR_in hc
  have f6out : ∀ k r c, ¬ (k = .a ∧ r = i ∧ i + 1 ≤ c) → f6 k r c = f4 k r c := fun k r c h => (updR_out h).trans (f5out k r c h)
  have hreal5 : star (al5 (i + 1) i) = al5 (i + 1) i := cs5.real
  refine wp_vsetE ip ?_
  have h6' := h6.outside (tp i ip) u
  set ν7 := upd ν6 (taup.cell i) u with hν7
  have g8 : ∀ l, (∀ k, ¬ (B3 A X Y k).Owns l) → l ≠ taup.cell i → ν7 l = ν3 l := fun l hl h => by
    rw [hν7, upd_ne_cell (Ne.symm h), g7 l hl, g6 l hl, g5 l hl]
    exact g4 l hl
  have t7 : ventry ν7 taup i = u := if_pos rfl
  refine wp_getE (by omega) ?_
  refine wp_setE (by omega) ?_
  have ee : ν7 (A.cell i (i + 1)) = al5 (i + 1) i := (h6' .a i (i + 1) (by simp [B3]; omega) (by simp [B3]; omega)).trans (f6in (i + 1) (le_refl _))
  obtain ⟨h7, g9⟩ := LS.set fam h6' (k := .a) (r := i) (c := i + 1) (by simp [B3]; omega) (by simp [B3]; omega) 1
  set f7 := updE f6 .a i (i + 1) 1 with hf7
  have f7row : ∀ c, i + 1 ≤ c → c < n → f7 .a i c = colU (i + 1) (i + 1) n i al5 c := by
    intro c h0 hc
    unfold colU
    by_cases e : c = i + 1
    · rw [if_pos e, e, hf7, updE_in]
    · rw [if_neg e, if_pos ⟨h0, hc⟩, hf7, updE_out (by omega), f6in c h0]
  have f7out : ∀ k r c, ¬ (k = .a ∧ r = i ∧ i + 1 ≤ c) → f7 k r c = f4 k r c := fun k r c h =>
    (updE_out (by rintro ⟨h1, h2, h3⟩; exact h ⟨h1, h2, by omega⟩)).trans (f6out k r c h)
  have f7o : ∀ r c, r ≠ i → f7 .a r c = f2 .a r c := fun r c h => by
    rw [f7out _ _ _ (by omega), f4a, hf3, updE_out (by omega)]
  refine wp_conseq (wp_brdX ok' (c0 := i + 1) (k1 := i + 1) (by simp) hiN (by omega) (le_refl _) (by omega) hi (by omega) (le_refl _) tp ip h7) ?_
  rintro _ ν8 ⟨f8, h8, g10, a8, y8, x8, xi8⟩
  have t8 : ventry (upd ν7 (A.cell i (i + 1)) 1) taup i = u := (g9 _ (tp i ip)).trans t7
  rw [t8] at xi8
  refine wp_setE (by omega) ?_
  rw [ed, re_star hreal]
  obtain ⟨h9, g11⟩ := LS.set fam h8 (k := .a) (r := i) (c := i) (by simp [B3]; omega) (by simp [B3]; omega) (al i i)
  refine wp_setE (by omega) ?_
  rw [ee, re_star hreal5]
  obtain ⟨h10, g12⟩ := LS.set fam h9 (k := .a) (r := i) (c := i + 1) (by simp [B3]; omega) (by simp [B3]; omega) (al5 (i + 1) i)
  have gg : ∀ l, (∀ k, ¬ (B3 A X Y k).Owns l) → (upd (upd ν8 ((B3 A X Y K3.a).cell i i) (al i i)) ((B3 A X Y K3.a).cell i (i + 1)) (al5 (i + 1) i)) l = ν7 l := fun l hl => by
    rw [g12 l hl, g11 l hl, g10 l hl]
    exact g9 l hl
  refine ⟨_, h10, fun l hl hq hp => ?_, ?_⟩
  · exact (gg l hl).trans ((g8 l hl hp).trans (g3 l hl hq))
  have eq : ventry (upd (upd ν8 ((B3 A X Y K3.a).cell i i) (al i i)) ((B3 A X Y K3.a).cell i (i + 1)) (al5 (i + 1) i)) tauq i = t :=
    (gg _ (tq i iq)).trans ((g8 _ (tq i iq) (qp i i iq ip)).trans t3)
  have ep : ventry (upd (upd ν8 ((B3 A X Y K3.a).cell i i) (al i i)) ((B3 A X Y K3.a).cell i (i + 1)) (al5 (i + 1) i)) taup i = u :=
    (gg _ (tp i ip)).trans t7
  replace eq : ventry (upd (upd ν8 (A.cell i i) (al i i)) (A.cell i (i + 1)) (al5 (i + 1) i)) tauq i = t := eq
  replace ep : ventry (upd (upd ν8 (A.cell i i) (al i i)) (A.cell i (i + 1)) (al5 (i + 1) i)) taup i = u := ep
  rw [eq, ep]
  refine ⟨_, cs1, fun _ => ?_, fun h => by omega⟩
  have ey : updE (updE f8 .a i i (al i i)) .a i (i + 1) (al5 (i + 1) i) .y = f4 .y := by
    funext r c
    rw [updE_out (by simp), updE_out (by simp), y8, f7out _ _ _ (by simp)]
  rw [ey]
  refine virt_row him hiN cs5 f5in ?_ ?_ ?_ ?_
  · intro c hc hcn
    by_cases e : c = i + 1
    · subst e; rw [updE_in, hreal5]
    · rw [updE_out (by omega), updE_out (by omega), a8 i c him hcn, if_pos ⟨rfl, hc⟩, hf7, updE_out (by omega), f6in c hc]
  · intro r c hr hc h
    rw [updE_out (by omega)]
    by_cases e : r = i ∧ c = i
    · obtain ⟨rfl, rfl⟩ := e
      rw [updE_in, f2in _ (le_refl _)]
    · rw [updE_out (by omega), a8 r c hr hc, if_neg (by omega), f7out _ _ _ (by omega)]
      rw [f4a, hf3, updE_out (by omega)]
  · intro r j hr hj
    rw [updE_out (by simp), updE_out (by simp), x8 r j (by omega), f7out _ _ _ (by simp), f4x]
  · intro r h0 hr
    rw [updE_out (by simp), updE_out (by simp), xi8 r h0 hr]
    congr 1
    refine congrArg₂ _ (congrArg₂ _ ?_ ?_) ?_
    · refine Finset.sum_congr rfl fun c hc => ?_
      have := mem_range.1 hc
      rw [f7row _ (by omega) (by omega), f7o _ _ (by omega)]
    · refine Finset.sum_congr rfl fun j hj => ?_
      have := mem_range.1 hj
      rw [f7o _ _ (by omega)]
      refine congrArg _ (Finset.sum_congr rfl fun c hc => ?_)
      have := mem_range.1 hc
      rw [f7row _ (by omega) (by omega), f7out _ _ _ (by simp)]
    · refine Finset.sum_congr rfl fun j hj => ?_
      have := mem_range.1 hj
      rw [f7out .x _ _ (by simp), f4x]
      refine congrArg _ (Finset.sum_congr rfl fun c hc => ?_)
      have := mem_range.1 hc
      rw [f7row _ (by omega) (by omega), f7o _ _ (by omega)]

end TLA
