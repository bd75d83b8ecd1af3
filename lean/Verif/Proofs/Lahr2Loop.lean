import Verif.Proofs.Lahr2
set_option linter.unusedTactic false
set_option linter.unusedVariables false
set_option linter.unreachableTactic false
set_option linter.unusedSectionVars false

/-! # lahr2: the loop over the columns of the panel -/

namespace TLA
open Finset
variable {L 𝕜 : Type} [DecidableEq L] [RCLike 𝕜] [DecidableEq 𝕜] {p : HhPar}

/-- A sum over a range with support in a window. -/
theorem sum_window {n a N : Nat} {f : Nat → 𝕜} (ha : a ≤ N) (hN : N ≤ n) (hf : ∀ x, x < n → x < a ∨ N ≤ x → f x = 0) :
    ∑ x ∈ range n, f x = ∑ x ∈ range (N - a), f (a + x) := by
  rw [show n = a + ((N - a) + (n - N)) by omega, Finset.sum_range_add, Finset.sum_range_add]
  rw [Finset.sum_eq_zero (s := range a) fun x hx => hf x (by have := mem_range.1 hx; omega) (by have := mem_range.1 hx; omega),
    Finset.sum_eq_zero (s := range (n - N)) fun x hx => hf _ (by have := mem_range.1 hx; omega) (by omega), zero_add, add_zero]

theorem panU_zero {k N : Nat} {G : Nat → Nat → 𝕜} {l r : Nat} (h : r < k + 1 + l ∨ (N ≤ r ∧ k + 1 + l < N)) : panU k N G l r = 0 := by
  unfold panU
  rw [if_neg (by omega), if_neg (by omega)]

set_option maxHeartbeats 2000000 in
theorem wp_lahr2Next {k nb N i : Nat} {A : MatV L} {tau : VecV L} {Tm Y : MatV L} (ok : L2OK k nb N A tau Tm Y)
    (hi : i < nb) {ν : Store L 𝕜} {U : Nat → Nat → 𝕜} {t : 𝕜}
    (ht : ventry ν tau i = t)
    (hU : ∀ l x, l ≤ i → k + i + 1 + x < N → U l (k + i + 1 + x) = entry ν A (k + i + 1 + x) l) :
    wp (lahr2Next k i A tau Tm Y (A.colv (k + i + 1) A.m i)) ν (fun _ ν' =>
      (∀ l, ¬ Y.Owns l → ¬ Tm.Owns l → ν' l = ν l) ∧
      (∀ r c, r < Y.m → c < nb → c ≠ i → entry ν' Y r c = entry ν Y r c) ∧
      (∀ r c, r < nb → c < nb → c ≠ i → entry ν' Tm r c = entry ν Tm r c) ∧
      (∀ r, k < r → r < N → entry ν' Y r i = t * (∑ x ∈ range (N - (k + i + 1)), entry ν A r (i + 1 + x) * U i (k + i + 1 + x)
        - ∑ j ∈ range i, entry ν Y r j * ∑ x ∈ range (N - (k + i + 1)), star (U j (k + i + 1 + x)) * U i (k + i + 1 + x))) ∧
      (∀ a, a < i → entry ν' Tm a i = -t * ∑ b ∈ range i, upF (entry ν Tm) a b *
        ∑ x ∈ range (N - (k + i + 1)), star (U b (k + i + 1 + x)) * U i (k + i + 1 + x)) ∧
      entry ν' Tm i i = t) := by
  obtain ⟨Am, An, kn, pos, Tmm, Tmn, Ym, Yn, tn, inj, tinj, yinj, vinj, AT, AY, TY, At, Tt, Yt⟩ := ok
  have YA := AY.symm
  have TA := AT.symm
  have YT := TY.symm
  unfold lahr2Next
  simp only [wp_bind]
  refine wp_slice (by omega) (by omega) (by omega) (by omega) ?_
  refine wp_sliceCol (by omega) (by omega) (by omega) ?_
  refine wp_conseq (wp_gemv_e (m := N - (k + 1)) (n := N - (k + i + 1)) ⟨by simp [MatV.sub]; omega, by simp [MatV.sub]; omega, by simp [MatV.colv]; omega, by simp [MatV.colv]; omega,
    yinj.colv (by omega) (by omega), sub_djC' AY (by omega) (by omega) (by omega) (by omega), col_djC' AY (by omega) (by omega) (by omega) (by omega)⟩ (Or.inl (by omega))) fun _ ν1 ⟨o1, e1⟩ => ?_
  refine wp_sliceCol (by omega) (by omega) (by omega) ?_
  refine wp_slice (by omega) (by omega) (by omega) (by omega) ?_
  refine wp_conseq (wp_gemv_e (m := i) (n := N - (k + i + 1)) ⟨by simp [MatV.sub], by simp [MatV.sub]; omega, by simp [MatV.colv]; omega, by simp [MatV.colv],
    tinj.colv (by omega) (by omega), sub_djC' AT (by omega) (by omega) (by omega) (by omega), col_djC' AT (by omega) (by omega) (by omega) (by omega)⟩ (Or.inl (by omega))) fun _ ν2 ⟨o2, e2⟩ => ?_
  refine wp_slice (by omega) (by omega) (by omega) (by omega) ?_
  refine wp_conseq (wp_gemv_e (m := N - (k + 1)) (n := i) ⟨by simp [MatV.sub]; omega, by simp [MatV.sub], by simp [MatV.colv], by simp [MatV.colv]; omega,
    yinj.colv (by omega) (by omega), sub_djC yinj (by omega) (by omega) (by omega) (by omega) (by omega), col_djC' TY (by omega) (by omega) (by omega) (by omega)⟩ (Or.inr rfl)) fun _ ν3 ⟨o3, e3⟩ => ?_
  have tY : ∀ {μ ν : Store L 𝕜} {a b c}, b ≤ Y.m → c < Y.n → OnlyV (Y.colv a b c) μ ν → ν (tau.cell i) = μ (tau.cell i) := by
    intro μ ν a b c hb hc ho
    refine ho _ fun h => ?_
    obtain ⟨r, c, hr, hc, e⟩ := h.colv hb hc
    exact Yt r c hr hc ⟨i, by omega, e.symm⟩
  have tT : ∀ {μ ν : Store L 𝕜} {a b c}, b ≤ Tm.m → c < Tm.n → OnlyV (Tm.colv a b c) μ ν → ν (tau.cell i) = μ (tau.cell i) := by
    intro μ ν a b c hb hc ho
    refine ho _ fun h => ?_
    obtain ⟨r, c, hr, hc, e⟩ := h.colv hb hc
    exact Tt r c hr hc ⟨i, by omega, e.symm⟩
  refine wp_vgetE (by omega) ?_
  rw [show ν3 (tau.cell i) = t by rw [tY (by omega) (by omega) o3, tT (by omega) (by omega) o2, tY (by omega) (by omega) o1]; exact ht]
  refine wp_conseq (wp_scal_e (yinj.colv (by omega) (by omega))) fun _ ν4 ⟨o4, e4⟩ => ?_
  have ht4 : ν4 (tau.cell i) = t := by
    rw [tY (by omega) (by omega) o4, tY (by omega) (by omega) o3, tT (by omega) (by omega) o2, tY (by omega) (by omega) o1]; exact ht
  refine wp_vgetE (by omega) ?_
  rw [ht4]
  refine wp_conseq (wp_scal_e (tinj.colv (by omega) (by omega))) fun _ ν5 ⟨o5, e5⟩ => ?_
  refine wp_slice (by omega) (by omega) (by omega) (by omega) ?_
  refine wp_conseq (wp_trmv_e (n := i) ⟨by simp, by simp [MatV.sub], by simp [MatV.sub], by simp [MatV.colv], tinj.colv (by omega) (by omega),
    sub_djC tinj (by omega) (by omega) (by omega) (by omega) (by omega)⟩) fun _ ν6 ⟨o6, e6⟩ => ?_
  refine wp_vgetE (by omega) ?_
  rw [show ν6 (tau.cell i) = t by rw [tT (by omega) (by omega) o6, tT (by omega) (by omega) o5]; exact ht4]
  refine wp_setE (by omega) ?_
  have hg2 : ∀ b, b < i → entry ν2 Tm b i = ∑ x ∈ range (N - (k + i + 1)), star (U b (k + i + 1 + x)) * U i (k + i + 1 + x) := by
    intro b hb
    have t2 := e2 b (by simp [MatV.colv]; omega)
    simp only [ventry, MatV.colv, Nat.zero_add, Coef.toVal, one_mul, zero_mul, add_zero] at t2
    unfold entry at t2 ⊢
    rw [t2]
    refine Finset.sum_congr rfl fun x hx => ?_
    have hx := mem_range.1 hx
    rw [hU b x (by omega) (by omega), hU i x (le_refl _) (by omega), ← entry_colO AY o1 (by omega) (by omega) (by omega) (by omega),
      ← entry_colO AY o1 (by omega) (by omega) (by omega) (by omega)]
    simp [opF, entry, MatV.sub]
  have T5 : ∀ a b, a < nb → b < nb → b ≠ i → entry ν5 Tm a b = entry ν Tm a b := fun a b ha hb h => by
    rw [o5.outCol tinj (by omega) (by omega) (by omega) (by omega) (by omega), entry_colO TY o4 (by omega) (by omega) (by omega) (by omega),
      entry_colO TY o3 (by omega) (by omega) (by omega) (by omega), o2.outCol tinj (by omega) (by omega) (by omega) (by omega) (by omega),
      entry_colO TY o1 (by omega) (by omega) (by omega) (by omega)]
  have ne : ∀ r c, r < Tm.m → c < Tm.n → (r ≠ i ∨ c ≠ i) → entry (upd ν6 (Tm.cell i i) t) Tm r c = entry ν6 Tm r c := by
    intro r c hr hc h
    unfold entry upd
    rw [if_neg]
    intro e
    have := tinj _ _ _ _ (by omega) (by omega) (by omega) (by omega) e
    omega
  have ny : ∀ r c, r < Y.m → c < Y.n → entry (upd ν6 (Tm.cell i i) t) Y r c = entry ν6 Y r c := by
    intro r c hr hc
    unfold entry upd
    rw [if_neg]
    intro e
    first
      | exact YT r c hr hc ⟨i, i, by omega, by omega, e⟩
      | exact YT r c hr hc ⟨i, i, by omega, by omega, e.symm⟩
  have Y6 : ∀ r c, r < Y.m → c < Y.n → entry ν6 Y r c = entry ν4 Y r c := fun r c hr hc => by
    rw [entry_colO YT o6 (by omega) (by omega) hr hc, entry_colO YT o5 (by omega) (by omega) hr hc]
  refine ⟨fun l hY hT => ?_, fun r c hr hc h => ?_, fun r c hr hc h => ?_, fun r h0 h1 => ?_, fun a ha => ?_, ?_⟩
  · have : Tm.cell i i ≠ l := fun e => hT ⟨_, _, by omega, by omega, e⟩
    unfold upd
    rw [if_neg (by first | exact this | exact fun e => this e.symm), o6.ofCol (by omega) (by omega) l hT, o5.ofCol (by omega) (by omega) l hT,
      o4.ofCol (by omega) (by omega) l hY, o3.ofCol (by omega) (by omega) l hY, o2.ofCol (by omega) (by omega) l hT, o1.ofCol (by omega) (by omega) l hY]
  · rw [ny r c hr (by omega), Y6 r c hr (by omega), o4.outCol yinj (by omega) (by omega) (by omega) (by omega) (by omega),
      o3.outCol yinj (by omega) (by omega) (by omega) (by omega) (by omega), entry_colO YT o2 (by omega) (by omega) (by omega) (by omega),
      o1.outCol yinj (by omega) (by omega) (by omega) (by omega) (by omega)]
  · rw [ne r c (by omega) (by omega) (by omega), o6.outCol tinj (by omega) (by omega) (by omega) (by omega) (by omega), T5 r c hr hc h]
  · rw [ny r i (by omega) (by omega), Y6 r i (by omega) (by omega)]
    have t4 := e4 (r - (k + 1)) (by simp [MatV.colv]; omega)
    have t3 := e3 (r - (k + 1)) (by simp [MatV.colv]; omega)
    have t1 := e1 (r - (k + 1)) (by simp [MatV.colv]; omega)
    have rr : k + 1 + (r - (k + 1)) = r := by omega
    simp only [ventry, MatV.colv, Nat.zero_add, Coef.toVal, one_mul, zero_mul, add_zero, rr] at t4 t3 t1
    simp only [entry] at t4 t3 t1 ⊢
    rw [t4, t3, mul_comm, show ν2 (Y.cell r i) = ν1 (Y.cell r i) from entry_colO YT o2 (by omega) (by omega) (by omega) (by omega), t1, add_comm, neg_one_mul, ← sub_eq_add_neg]
    congr 2
    · refine Finset.sum_congr rfl fun x hx => ?_
      have hx := mem_range.1 hx
      rw [hU i x (le_refl _) (by omega)]
      simp [opF, entry, MatV.sub, rr]
    · refine Finset.sum_congr rfl fun j hj => ?_
      have hj := mem_range.1 hj
      rw [← hg2 j hj]
      congr 1
      have : entry ν2 Y r j = entry ν Y r j := by
        rw [entry_colO YT o2 (by omega) (by omega) (by omega) (by omega), o1.outCol yinj (by omega) (by omega) (by omega) (by omega) (by omega)]
      rw [show ν (Y.cell r j) = entry ν Y r j from rfl, ← this]
      simp [opF, entry, MatV.sub, rr]
  · rw [ne a i (by omega) (by omega) (by omega)]
    have t6 := e6 a (by simp [MatV.colv]; omega)
    simp only [ventry, MatV.colv, Nat.zero_add] at t6
    unfold entry at t6 ⊢
    rw [t6, Finset.mul_sum]
    refine Finset.sum_congr rfl fun b hb => ?_
    have hb := mem_range.1 hb
    have t5 := e5 b (by simp [MatV.colv]; omega)
    simp only [ventry, MatV.colv, Nat.zero_add] at t5
    rw [t5, ← hg2 b hb]
    have x4 : entry ν4 Tm b i = entry ν2 Tm b i := by
      rw [entry_colO TY o4 (by omega) (by omega) (by omega) (by omega), entry_colO TY o3 (by omega) (by omega) (by omega) (by omega)]
    unfold entry at x4 ⊢
    rw [x4]
    have : triF .Upper .NonUnit (entry ν5 (Tm.sub 0 i 0 i)) a b = upF (entry ν Tm) a b := by
      unfold triF upF
      simp only [inTri]
      have : entry ν5 (Tm.sub 0 i 0 i) a b = entry ν Tm a b := by
        rw [← T5 a b (by omega) (by omega) (by omega)]; simp [entry, MatV.sub]
      by_cases e : a = b
      · subst e; simp [this]
      · by_cases h : a ≤ b <;> simp [h, this, e]
    unfold opF
    dsimp only
    unfold entry at this
    rw [this]
    ring
  · simp [entry, upd]

/-- The invariant of the loop of lahr2. -/
structure L2Inv (n k nb N : Nat) (A : MatV L) (tau : VecV L) (Tm Y : MatV L) (B : Nat → Nat → 𝕜) (μ : Store L 𝕜) (i : Nat) (ei : 𝕜)
    (ν : Store L 𝕜) (G : Nat → Nat → 𝕜) : Prop where
  frame : ∀ l, ¬ A.Owns l → ¬ Tm.Owns l → ¬ Y.Owns l → ¬ tau.Owns l → ν l = μ l
  old : ∀ r c, r < N → c < A.n → i ≤ c ∨ r ≤ k → entry ν A r c = entry μ A r c
  one : 0 < i → entry ν A (k + i) (i - 1) = 1
  gi : ∀ r c, r < N → c < A.n → G r c = if 0 < i ∧ r = k + i ∧ c = i - 1 then ei else entry ν A r c
  tauo : ∀ j, i ≤ j → j < tau.n → ventry ν tau j = ventry μ tau j
  pan : Pan n k N B i (panU k N G) (ventry ν tau) (upF (entry ν Tm)) (entry ν Y) G
  real : ∀ j, j < i → star (G (k + 1 + j) j) = G (k + 1 + j) j

set_option maxHeartbeats 2000000 in
theorem wp_lahr2Step (hl : HhLaws 𝕜 p) {n k nb N i : Nat} {A : MatV L} {tau : VecV L} {Tm Y : MatV L} (ok : L2OK k nb N A tau Tm Y)
    (hn : N ≤ n) (hi : i < nb) {B : Nat → Nat → 𝕜} {μ ν : Store L 𝕜} (hB : ∀ r c, r < N → c < A.n → B r (k + c) = entry μ A r c)
    (hb : frobSq n n B ≤ p.tbig ^ 2) {ei : 𝕜} {G : Nat → Nat → 𝕜} (h : L2Inv n k nb N A tau Tm Y B μ i ei ν G) :
    wp (lahr2Step (hhOps p) k nb A tau Tm Y i ei) ν (fun e ν' => ∃ G', L2Inv n k nb N A tau Tm Y B μ (i + 1) e ν' G') := by
  have ok' := ok
  obtain ⟨Am, An, kn, pos, Tmm, Tmn, Ym, Yn, tn, inj, tinj, yinj, vinj, AT, AY, TY, At, Tt, Yt⟩ := ok
  have YA := AY.symm
  have TA := AT.symm
  have YT := TY.symm
  have tA : ∀ j, j < tau.n → ¬ A.Owns (tau.cell j) := fun j hj ⟨r, c, hr, hc, e⟩ => At r c hr hc ⟨j, hj, e.symm⟩
  have tT : ∀ j, j < tau.n → ¬ Tm.Owns (tau.cell j) := fun j hj ⟨r, c, hr, hc, e⟩ => Tt r c hr hc ⟨j, hj, e.symm⟩
  have tY : ∀ j, j < tau.n → ¬ Y.Owns (tau.cell j) := fun j hj ⟨r, c, hr, hc, e⟩ => Yt r c hr hc ⟨j, hj, e.symm⟩
  obtain ⟨hfr, hold, hone, hgi, htau, pan, hreal⟩ := h
  set u := panU k N G with hu
  set t := ventry ν tau with ht
  set Tf := upF (entry ν Tm) with hTf
  have usupp : ∀ {l r}, l < nb → (r < k + 1 + l ∨ N ≤ r) → u l r = 0 := fun hl h => panU_zero (by omega)
  unfold lahr2Step
  simp only [wp_bind]
  have head : wp (lahr2Head k nb i A Tm Y ei) ν (fun _ ν1 =>
      (∀ l, ¬ A.Owns l → ¬ Tm.Owns l → ν1 l = ν l) ∧
      (∀ r c, r < N → c < A.n → c ≠ i ∨ r ≤ k → entry ν1 A r c = G r c) ∧
      (∀ a b, a < nb → b < i → entry ν1 Tm a b = entry ν Tm a b) ∧
      (∀ r, k < r → r < N → entry ν1 A r i = panM n B t u i r (k + i))) := by
    rcases Nat.eq_zero_or_pos i with rfl | h0
    · unfold lahr2Head
      rw [if_neg (by omega), wp_pure]
      refine ⟨fun _ _ _ => rfl, fun r c hr hc _ => ?_, fun _ _ _ h => by omega, fun r h0 h1 => ?_⟩
      · rw [hgi r c hr hc, if_neg (by omega)]
      · show _ = B r (k + 0)
        rw [hB r 0 h1 (by omega), hold r 0 h1 (by omega) (Or.inl (le_refl _))]
    · refine wp_conseq (wp_lahr2Head ok' h0 hi (ν := ν) (ei := ei) (U := u) (Tf := Tf) (G := G)
        (b0 := fun r => entry ν A r i - ∑ j ∈ range i, entry ν Y r j * star (u j (k + i))) (fun r c hr hc hne => ?_) (hone h0) hu hTf (fun _ => rfl)) ?_
      · rw [hgi r c hr (by omega), if_neg]
        rintro ⟨_, rfl, rfl⟩
        exact hne rfl
      · rintro _ ν1 ⟨f1, a1, t1, c1⟩
        refine ⟨f1, fun r c hr hc hh => ?_, fun a b ha hb => t1 a b ha (by omega), fun r h1 h2 => ?_⟩
        · rw [a1 r c hr hc hh, hgi r c hr hc]
          by_cases e : r = k + i ∧ c = i - 1
          · rw [if_pos e, if_pos ⟨h0, e⟩]
          · rw [if_neg e, if_neg (by tauto)]
        · have key : ∀ s, k < s → s < N → ∑ l ∈ range n, B s l * blkF (range i) u Tf l (k + i) =
              entry ν A s i - ∑ j ∈ range i, entry ν Y s j * star (u j (k + i)) := by
            intro s hs hs'
            rw [blkF_right (by omega), hB s i hs' (by omega), hold s i hs' (by omega) (Or.inl (le_refl _))]
            congr 1
            exact Finset.sum_congr rfl fun j hj => by rw [pan.y s j hs hs' (mem_range.1 hj)]
          rw [c1 r h1 h2, panM_entry pan.rel (by omega) (by omega), key r h1 h2]
          congr 1
          refine Finset.sum_congr rfl fun l hl => ?_
          congr 1
          refine Finset.sum_congr rfl fun b hb => ?_
          congr 1
          have hbb := mem_range.1 hb
          rw [sum_window (n := n) (a := k + 1) (N := N) (by omega) hn fun x _ hx => by
            rw [usupp (by omega) (by omega), star_zero, zero_mul]]
          refine Finset.sum_congr rfl fun x hx => ?_
          have hx := mem_range.1 hx
          rw [key _ (by omega) (by omega)]
  refine wp_conseq head ?_
  rintro _ ν1 ⟨f1, a1, t1, c1⟩
  refine wp_sliceCol (by omega) (by omega) (by omega) ?_
  have htb := hl.tbig_one
  refine wp_conseq (wp_genCol hl (dir := .Forward) (store := .Columnwise) (P := k + i + 1) inj (by omega) (by omega) (by omega) (by simp [pidx]) ?_) ?_
  · intro r h0 h1
    show ‖entry ν1 A r i‖ ≤ _
    rw [c1 r (by omega) (by omega)]
    exact frobSq_bound (by linarith) (pan.frob.le.trans hb) (by omega) (by omega)
  rintro ti ν2 ⟨o2, cs⟩
  have lg : ∀ ν : Store L 𝕜, LG .Columnwise ν A = entry ν A := fun _ => rfl
  rw [lg, lg] at cs
  refine wp_vsetE (by omega) ?_
  refine wp_vgetE (by simp [MatV.colv]; omega) ?_
  refine wp_vsetE (by simp [MatV.colv]; omega) ?_
  set ν3 := upd ν2 (tau.cell i) ti with hν3
  have e3 : ν3 ((A.colv (k + i + 1) A.m i).cell 0) = entry ν2 A (k + i + 1) i := by
    show upd ν2 (tau.cell i) ti (A.cell (k + i + 1) i) = _
    unfold upd
    rw [if_neg]
    · rfl
    · intro e
      first
        | exact tA i (by omega) ⟨_, _, by omega, by omega, e⟩
        | exact tA i (by omega) ⟨_, _, by omega, by omega, e.symm⟩
  rw [e3]
  set ν4 := upd ν3 ((A.colv (k + i + 1) A.m i).cell 0) 1 with hν4
  have A3 : ∀ r c, r < N → c < A.n → entry ν3 A r c = entry ν2 A r c := by
    intro r c hr hc
    rw [hν3]
    unfold entry upd
    rw [if_neg]
    intro e
    first
      | exact tA i (by omega) ⟨r, c, by omega, by omega, e⟩
      | exact tA i (by omega) ⟨r, c, by omega, by omega, e.symm⟩
  have A4 : ∀ r c, r < N → c < A.n → (r ≠ k + i + 1 ∨ c ≠ i) → entry ν4 A r c = entry ν2 A r c := by
    intro r c hr hc hne
    rw [← A3 r c hr hc, hν4]
    unfold entry upd
    rw [if_neg]
    intro e
    simp only [MatV.colv, Nat.add_zero] at e
    have := inj _ _ _ _ (by omega) (by omega) (by omega) (by omega) e
    omega
  have A4' : entry ν4 A (k + i + 1) i = 1 := by
    rw [hν4]
    simp [entry, upd, MatV.colv]
  have A2 : ∀ r c, r < N → c < A.n → (r ≤ k + i ∨ c ≠ i) → entry ν2 A r c = entry ν1 A r c := fun r c hr hc hh =>
    cs.same r c (by omega) hc (by omega)
  -- cells outside A and tau
  have f4 : ∀ l, ¬ A.Owns l → ¬ tau.Owns l → ν4 l = ν1 l := by
    intro l hA ht
    have h1 : (A.colv (k + i + 1) A.m i).cell 0 ≠ l := fun e => hA ⟨_, _, by omega, by omega, e⟩
    have h2 : tau.cell i ≠ l := fun e => ht ⟨_, by omega, e⟩
    rw [hν4, hν3]
    unfold upd
    rw [if_neg (by first | exact h1 | exact fun e => h1 e.symm), if_neg (by first | exact h2 | exact fun e => h2 e.symm), o2.ofCol (by omega) (by omega) l hA]
  have t4 : ∀ j, j < tau.n → ventry ν4 tau j = if j = i then ti else ventry ν tau j := by
    intro j hj
    have h1 : (A.colv (k + i + 1) A.m i).cell 0 ≠ tau.cell j := fun e => tA j hj ⟨_, _, by omega, by omega, e⟩
    unfold ventry
    rw [hν4, hν3]
    unfold upd
    rw [if_neg (by first | exact h1 | exact fun e => h1 e.symm)]
    by_cases e : j = i
    · subst e; simp
    · have h2 : tau.cell i ≠ tau.cell j := fun e' => e (vinj _ _ (by omega) (by omega) e').symm
      rw [if_neg (by first | exact h2 | exact fun e => h2 e.symm), if_neg e, o2.ofCol (by omega) (by omega) _ (tA j hj), f1 _ (tA j hj) (tT j hj)]
  set G' : Nat → Nat → 𝕜 := entry ν2 A with hG'
  have gg : ∀ r c, r < N → c < A.n → (r ≤ k ∨ c ≠ i) → G' r c = G r c := fun r c hr hc hh => by
    rw [A2 r c hr hc (by omega), a1 r c hr hc (by tauto)]
  set u' := panU k N G' with hu'
  have uu : ∀ j r, j < nb → j ≠ i → u' j r = u j r := by
    intro j r hj hh
    rw [hu', hu]
    unfold panU
    by_cases e : r = k + 1 + j
    · rw [if_pos e, if_pos e]
    · rw [if_neg e, if_neg e]
      by_cases e' : k + 1 + j < r ∧ r < N
      · rw [if_pos e', if_pos e', gg r j (by omega) (by omega) (Or.inr hh)]
      · rw [if_neg e', if_neg e']
  refine wp_conseq (wp_lahr2Next ok' hi (ν := ν4) (U := u') (t := ti) ?_ ?_) ?_
  · rw [t4 i (by omega), if_pos rfl]
  · intro l x hl hx
    by_cases e : l = i ∧ x = 0
    · obtain ⟨rfl, rfl⟩ := e
      rw [Nat.add_zero, A4', hu']
      unfold panU
      rw [if_pos (by omega)]
    · rw [A4 _ _ (by omega) (by omega) (by omega), hu']
      unfold panU
      rw [if_neg (by omega), if_pos (by omega)]
  rintro _ ν5 ⟨f5, y5, T5, cy, cT, cd⟩
  rw [wp_pure]
  have A5 : ∀ r c, r < N → c < A.n → entry ν5 A r c = entry ν4 A r c := fun r c hr hc =>
    f5 _ (AY _ _ (by omega) hc) (AT _ _ (by omega) hc)
  have t5 : ∀ j, j < tau.n → ventry ν5 tau j = if j = i then ti else ventry ν tau j := fun j hj => by
    rw [← t4 j hj]
    exact f5 _ (tY j hj) (tT j hj)
  have Y1 : ∀ r c, r < Y.m → c < nb → entry ν4 Y r c = entry ν Y r c := fun r c hr hc => by
    show ν4 _ = ν _
    rw [f4 _ (YA _ _ hr (by omega)) (Yt _ _ hr (by omega)), f1 _ (YA _ _ hr (by omega)) (YT _ _ hr (by omega))]
  have T1 : ∀ a b, a < nb → b < i → entry ν4 Tm a b = entry ν Tm a b := fun a b ha hb => by
    rw [← t1 a b ha hb]
    exact f4 _ (TA _ _ (by omega) (by omega)) (Tt _ _ (by omega) (by omega))
  have cu : ∀ r, colU (k + i + 1) (k + i + 1) A.m i (entry ν2 A) r = u' i r := by
    intro r
    rw [hu']
    unfold colU panU
    by_cases e : r = k + i + 1
    · rw [if_pos e, if_pos (show r = k + 1 + i by omega)]
    · rw [if_neg e, if_neg (show ¬ r = k + 1 + i by omega)]
      by_cases e' : k + i + 1 ≤ r ∧ r < A.m
      · rw [if_pos e', if_pos (by omega)]
      · rw [if_neg e', if_neg (by omega)]
  have cuf : colU (k + i + 1) (k + i + 1) A.m i (entry ν2 A) = u' i := funext cu
  have csu := cs.unit
  have csa := cs.ann
  rw [show colU (k + i + 1) (k + i + 1) A.m i G' = u' i from cuf] at csu csa
  have hgram : ∀ b, b < i → gramF n u' b i = ∑ x ∈ range (N - (k + i + 1)), star (u' b (k + i + 1 + x)) * u' i (k + i + 1 + x) := by
    intro b hb
    unfold gramF
    rw [sum_window (n := n) (a := k + i + 1) (N := N) (by omega) hn fun x _ hx => by
      rw [show u' i x = 0 from panU_zero (by omega), mul_zero]]
  have tu' : ∀ j, j < i → ventry ν5 tau j = t j := fun j hj => by rw [t5 j (by omega), if_neg (by omega)]
  have tui : ventry ν5 tau i = ti := by rw [t5 i (by omega), if_pos rfl]
  have up : ∀ a j, a < i → j < i → upF (entry ν5 Tm) a j = Tf a j := by
    intro a j ha hj
    rw [hTf]
    unfold upF
    rw [T5 a j (by omega) (by omega) (by omega), T1 a j (by omega) hj]
  refine ⟨G', fun l hA hT hY ht => ?_, fun r c hr hc hh => ?_, fun _ => ?_, fun r c hr hc => ?_, fun j hj hj' => ?_, ?_, fun j hj => ?_⟩
  · rw [f5 l hY hT, f4 l hA ht, f1 l hA hT, hfr l hA hT hY ht]
  · rw [A5 r c hr hc, A4 r c hr hc (by omega), A2 r c hr hc (by omega), a1 r c hr hc (by omega), hgi r c hr hc, if_neg (by omega),
      hold r c hr hc (by omega)]
  · rw [show k + (i + 1) = k + i + 1 by omega, show i + 1 - 1 = i by omega, A5 _ _ (by omega) (by omega), A4']
  · by_cases e : r = k + i + 1 ∧ c = i
    · rw [if_pos ⟨by omega, by omega, by omega⟩, e.1, e.2]
    · rw [if_neg (by omega), A5 r c hr hc, A4 r c hr hc (by omega)]
  · rw [t5 j hj', if_neg (by omega)]; exact htau j (by omega) hj'
  · refine pan.next (by omega) hn (fun j r hj _ => uu j r (by omega) (by omega)) tu' up (fun r j h0 h1 hj => ?_) (fun r j h0 h1 hj => ?_) (fun j r hj hr => ?_) ?_ (fun b hb => ?_) (fun a ha => ?_)
      (fun r h0 h1 => ?_) ?_ (fun r h0 h1 => ?_)
    · rw [y5 r j (by omega) (by omega) (by omega), Y1 r j (by omega) (by omega)]
    · exact gg r j (by omega) (by omega) (by omega)
    · exact panU_zero (by omega)
    · rw [tui]; unfold upF; rw [if_pos (le_refl _), cd]
    · unfold upF; rw [if_neg (by omega)]
    · rw [show upF (entry ν5 Tm) a i = entry ν5 Tm a i by unfold upF; rw [if_pos (by omega)], cT a ha, tui]
      congr 1
      refine Finset.sum_congr rfl fun b hb => ?_
      have hb := mem_range.1 hb
      rw [hgram b hb, up a b ha hb]
      congr 1
      rw [hTf]
      unfold upF
      rw [T1 a b (by omega) hb]
    · rw [cy r h0 h1, tui]
      congr 2
      · rw [sum_window (n := n) (a := k + i + 1) (N := N) (by omega) hn fun x _ hx => by
          rw [show panU k N G' i x = 0 from panU_zero (by omega), mul_zero]]
        refine Finset.sum_congr rfl fun x hx => ?_
        have hx := mem_range.1 hx
        congr 1
        rw [show k + i + 1 + x = k + (i + 1 + x) by omega, hB r (i + 1 + x) h1 (by omega), ← hold r (i + 1 + x) h1 (by omega) (Or.inl (by omega)),
          A4 r _ h1 (by omega) (by omega), A2 r _ h1 (by omega) (by omega), a1 r _ h1 (by omega) (by omega), hgi r _ h1 (by omega), if_neg (by omega)]
      · refine Finset.sum_congr rfl fun j hj => ?_
        have hj := mem_range.1 hj
        rw [hgram j hj, Y1 r j (by omega) (by omega)]
    · rw [tui]
      refine refl_unitary ?_
      rw [← csu, Am]
      congr 1
      rw [sum_window (n := n) (a := 0) (N := N) (by omega) hn fun x _ hx => by
        rw [show panU k N G' i x = 0 from panU_zero (by omega), zero_mul]]
      rw [hu']
      simp
    · rw [tui]
      have ann := csa r (by omega)
      unfold applyL
      rw [← c1 r h0 h1]
      have : ∑ s ∈ range n, star (u' i s) * panM n B t u i s (k + i) = ∑ s ∈ range A.m, star (u' i s) * entry ν1 A s i := by
        rw [sum_window (n := n) (a := k + 1) (N := N) (by omega) hn fun x _ hx => by
          rw [show u' i x = 0 from panU_zero (by omega), star_zero, zero_mul],
          sum_window (n := A.m) (a := k + 1) (N := N) (by omega) (by omega) fun x _ hx => by
          rw [show u' i x = 0 from panU_zero (by omega), star_zero, zero_mul]]
        refine Finset.sum_congr rfl fun x hx => ?_
        have hx := mem_range.1 hx
        rw [c1 _ (by omega) (by omega)]
      rw [this, ann]
      by_cases e : r = k + i + 1
      · rw [if_pos e, if_pos (by omega), e]
      · rw [if_neg e]
        by_cases e' : k + i + 1 ≤ r ∧ r < A.m
        · rw [if_pos e', if_neg (by omega)]
        · rw [if_neg e', if_pos (by omega), A2 r i h1 (by omega) (by omega)]
  · by_cases e : j = i
    · subst e
      have := cs.real
      rw [show k + j + 1 = k + 1 + j by omega] at this
      exact this
    · rw [gg _ _ (by omega) (by omega) (by omega)]
      exact hreal j (by omega)

end TLA
