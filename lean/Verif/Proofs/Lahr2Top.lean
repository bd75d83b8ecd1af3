import Verif.Proofs.Lahr2Loop
set_option linter.unusedTactic false
set_option linter.unusedVariables false
set_option linter.unreachableTactic false
set_option linter.unusedSectionVars false

/-! # lahr2 -/

namespace TLA
open Finset
variable {L 𝕜 : Type} [DecidableEq L] [RCLike 𝕜] [DecidableEq 𝕜] {p : HhPar}

theorem upd_ne_cell {T : Type} {μ : Store L T} {a l : L} {v : T} (h : a ≠ l) : upd μ a v l = μ l := by
  unfold upd
  rw [if_neg (by first | exact h | exact fun e => h e.symm)]

theorem triF_upper {G : Nat → Nat → 𝕜} {a b : Nat} : triF .Upper .NonUnit G a b = upF G a b := by
  unfold triF upF
  simp only [inTri]
  by_cases e : a = b
  · subst e; simp
  · by_cases h : a ≤ b <;> simp [h, e]

set_option maxHeartbeats 2000000 in
theorem wp_lahr2Top {n k nb N : Nat} {A : MatV L} {tau : VecV L} {Tm Y : MatV L} (ok : L2OK k nb N A tau Tm Y)
    (hn : N ≤ n) {B : Nat → Nat → 𝕜} {ν : Store L 𝕜} (hB : ∀ r c, r ≤ k → c < A.n → B r (k + c) = entry ν A r c) :
    wp (lahr2Top k nb A Tm Y) ν (fun _ ν' => Only (Y.sub 0 (k + 1) 0 nb) ν ν' ∧
      ∀ r j, r ≤ k → j < nb → entry ν' Y r j = ∑ l ∈ range n, B r l * ∑ a ∈ range nb, panU k N (entry ν A) a l * upF (entry ν Tm) a j) := by
  obtain ⟨Am, An, kn, pos, Tmm, Tmn, Ym, Yn, tn, inj, tinj, yinj, vinj, AT, AY, TY, At, Tt, Yt⟩ := ok
  have AYs : A.Disj (Y.sub 0 (k + 1) 0 nb) := AY.sub_right (by omega) (by omega)
  have TYs : Tm.Disj (Y.sub 0 (k + 1) 0 nb) := TY.sub_right (by omega) (by omega)
  have yI : (Y.sub 0 (k + 1) 0 nb).Inj := yinj.sub (by omega) (by omega)
  unfold lahr2Top
  simp only [wp_bind]
  refine wp_slice (by omega) (by omega) (by omega) (by omega) ?_
  refine wp_slice (by omega) (by omega) (by omega) (by omega) ?_
  refine wp_conseq (wp_lacpyG (by simp [MatV.sub]) (by simp [MatV.sub]) yI (AYs.sub_left (by omega) (by omega)) _) fun _ ν1 ⟨o1, e1⟩ => ?_
  rw [mat_ext_iff] at e1
  refine wp_slice (by omega) (by omega) (by omega) (by omega) ?_
  refine wp_slice (by omega) (by omega) (by omega) (by omega) ?_
  refine wp_conseq (wp_trmmR ⟨by simp, by simp, by simp, by simp [MatV.sub], by simp [MatV.sub], yI, AYs.sub_left (by omega) (by omega)⟩) fun _ ν2 ⟨o2, e2⟩ => ?_
  have uV : ∀ x a, x < nb → a < nb → triF .Lower .Unit (entry ν1 (A.sub (k + 1) (k + nb + 1) 0 nb)) x a = panU k N (entry ν A) a (k + 1 + x) := by
    intro x l hx hl
    unfold triF panU
    simp only [inTri]
    rcases lt_trichotomy x l with h | h | h
    · simp [show x ≠ l by omega, show ¬ l < x by omega, show k + 1 + x ≠ k + 1 + l by omega, show ¬ (k + 1 + l < k + 1 + x) by omega, show ¬ l ≤ x by omega]
    · subst h; simp
    · have : entry ν1 (A.sub (k + 1) (k + nb + 1) 0 nb) x l = entry ν A (k + 1 + x) l := by
        rw [← entry_matO AYs o1 (i := k + 1 + x) (j := l) (by omega) (by omega)]
        simp [entry, MatV.sub]
      simp [show x ≠ l by omega, show k + 1 + x ≠ k + 1 + l by omega, show l < x by omega, show k + 1 + x < N by omega, this, show l ≤ x by omega]
  have y1 : ∀ r x, r ≤ k → x < nb → entry ν1 (Y.sub 0 (k + 1) 0 nb) r x = B r (k + 1 + x) := by
    intro r x hr hx
    rw [e1 r x (by simp [MatV.sub]; omega) (by simp [MatV.sub]; omega), show k + 1 + x = k + (1 + x) by omega, hB r (1 + x) hr (by omega)]
    simp [entry, MatV.sub]
  have y2 : ∀ r a, r ≤ k → a < nb → entry ν2 (Y.sub 0 (k + 1) 0 nb) r a = ∑ x ∈ range nb, B r (k + 1 + x) * panU k N (entry ν A) a (k + 1 + x) := by
    intro r a hr ha
    rw [e2 r a (by simp [MatV.sub]; omega) (by simp [MatV.sub]; omega), one_mul, show (Y.sub 0 (k + 1) 0 nb).n = nb by simp [MatV.sub]]
    refine Finset.sum_congr rfl fun x hx => ?_
    have hx := mem_range.1 hx
    rw [y1 r x hr hx]
    unfold opF
    dsimp only
    rw [uV x a hx ha]
  have A2 : ∀ r c, r < A.m → c < A.n → entry ν2 A r c = entry ν A r c := fun r c hr hc => by
    rw [entry_matO AYs o2 hr hc, entry_matO AYs o1 hr hc]
  have mid : wp (if k + nb + 1 < A.m then do
      let A5 ← A.slice 0 (k + 1) (nb + 1) (A.m - k)
      let V2 ← A.slice (k + nb + 1) A.m 0 nb
      gemm .NoTrans .NoTrans 1 A5 V2 (.val 1) (Y.sub 0 (k + 1) 0 nb)
    else (pure () : M L 𝕜 Unit)) ν2 (fun _ ν3 => Only (Y.sub 0 (k + 1) 0 nb) ν2 ν3 ∧
      ∀ r a, r ≤ k → a < nb → entry ν3 (Y.sub 0 (k + 1) 0 nb) r a = ∑ l ∈ range n, B r l * panU k N (entry ν A) a l) := by
    have win : ∀ r a, a < nb → ∑ l ∈ range n, B r l * panU k N (entry ν A) a l =
        (∑ x ∈ range nb, B r (k + 1 + x) * panU k N (entry ν A) a (k + 1 + x)) +
        ∑ x ∈ range (N - (k + nb + 1)), B r (k + nb + 1 + x) * panU k N (entry ν A) a (k + nb + 1 + x) := by
      intro r a ha
      rw [sum_window (n := n) (a := k + 1) (N := N) (by omega) hn fun x _ hx => by rw [panU_zero (by omega), mul_zero],
        show N - (k + 1) = nb + (N - (k + nb + 1)) by omega, Finset.sum_range_add]
      congr 1
      refine Finset.sum_congr rfl fun x hx => ?_
      rw [show k + 1 + (nb + x) = k + nb + 1 + x by omega]
    by_cases hh : k + nb + 1 < A.m
    · rw [if_pos hh]
      simp only [wp_bind]
      refine wp_slice (by omega) (by omega) (by omega) (by omega) ?_
      refine wp_slice (by omega) (by omega) (by omega) (by omega) ?_
      refine wp_conseq (wp_gemm_e (m := k + 1) (n := nb) (k := N - (k + nb + 1)) ⟨by simp, by simp, by simp [MatV.sub], by simp [MatV.sub]; omega, by simp [MatV.sub]; omega, by simp [MatV.sub],
        by simp [MatV.sub], by simp [MatV.sub], yI, AYs.sub_left (by omega) (by omega), AYs.sub_left (by omega) (by omega)⟩) fun _ ν3 ⟨o3, e3⟩ => ⟨o3, fun r a hr ha => ?_⟩
      rw [e3 r a (by simp [MatV.sub]; omega) (by simp [MatV.sub]; omega), y2 r a hr ha, win r a ha]
      simp only [Coef.toVal, one_mul]
      rw [add_comm]
      congr 1
      refine Finset.sum_congr rfl fun x hx => ?_
      have hx := mem_range.1 hx
      congr 1
      · rw [show k + nb + 1 + x = k + (nb + 1 + x) by omega, hB r _ hr (by omega), ← A2 r (nb + 1 + x) (by omega) (by omega)]
        simp [opF, entry, MatV.sub]
      · unfold panU
        rw [if_neg (by omega), if_pos (by omega), ← A2 _ _ (by omega) (by omega)]
        simp [opF, entry, MatV.sub]
    · rw [if_neg hh, wp_pure]
      refine ⟨Only.refl, fun r a hr ha => ?_⟩
      rw [y2 r a hr ha, win r a ha, show N - (k + nb + 1) = 0 by omega]
      simp
  refine wp_conseq mid ?_
  rintro _ ν3 ⟨o3, e3⟩
  refine wp_conseq (wp_trmmR ⟨by simp, by simp, by simp, by omega, by simp [MatV.sub]; omega, yI, TYs⟩) fun _ ν4 ⟨o4, e4⟩ => ?_
  have T3 : ∀ a b, a < nb → b < nb → entry ν3 Tm a b = entry ν Tm a b := fun a b ha hb => by
    rw [entry_matO TYs o3 (by omega) (by omega), entry_matO TYs o2 (by omega) (by omega), entry_matO TYs o1 (by omega) (by omega)]
  refine ⟨((o1.trans o2).trans o3).trans o4, fun r j hr hj => ?_⟩
  have := e4 r j (by simp [MatV.sub]; omega) (by simp [MatV.sub]; omega)
  rw [show entry ν4 Y r j = entry ν4 (Y.sub 0 (k + 1) 0 nb) r j by simp [entry, MatV.sub], this, one_mul, show (Y.sub 0 (k + 1) 0 nb).n = nb by simp [MatV.sub]]
  have : ∀ l, B r l * ∑ a ∈ range nb, panU k N (entry ν A) a l * upF (entry ν Tm) a j =
      ∑ a ∈ range nb, (B r l * panU k N (entry ν A) a l) * upF (entry ν Tm) a j := fun l => by
    rw [Finset.mul_sum]; exact Finset.sum_congr rfl fun a _ => by ring
  simp only [this]
  rw [Finset.sum_comm]
  refine Finset.sum_congr rfl fun a ha => ?_
  have ha := mem_range.1 ha
  rw [e3 r a hr ha, Finset.sum_mul]
  refine Finset.sum_congr rfl fun l _ => ?_
  congr 1
  unfold opF
  dsimp only
  rw [triF_upper]
  unfold upF
  rw [T3 a j ha hj]

/-- What lahr2 leaves. -/
structure L2Out (n k nb N : Nat) (A : MatV L) (tau : VecV L) (Tm Y : MatV L) (B : Nat → Nat → 𝕜) (μ ν : Store L 𝕜) : Prop where
  frame : ∀ l, ¬ A.Owns l → ¬ Tm.Owns l → ¬ Y.Owns l → ¬ tau.Owns l → ν l = μ l
  old : ∀ r c, r < N → c < A.n → nb ≤ c ∨ r ≤ k → entry ν A r c = entry μ A r c
  tauo : ∀ j, nb ≤ j → j < tau.n → ventry ν tau j = ventry μ tau j
  pan : Pan n k N B nb (panU k N (entry ν A)) (ventry ν tau) (upF (entry ν Tm)) (entry ν Y) (entry ν A)
  real : ∀ j, j < nb → star (entry ν A (k + 1 + j) j) = entry ν A (k + 1 + j) j
  ytop : ∀ r j, r < N → j < nb → entry ν Y r j =
    ∑ l ∈ range n, B r l * ∑ a ∈ range nb, panU k N (entry ν A) a l * upF (entry ν Tm) a j

theorem Pan.congr {n k ihi : Nat} {B : Nat → Nat → 𝕜} {i : Nat} {u u' : Nat → Nat → 𝕜} {t t' : Nat → 𝕜} {Tf Tf' Y Y' F F' : Nat → Nat → 𝕜}
    (h : Pan n k ihi B i u t Tf Y F) (hn : ihi ≤ n) (hk : k + i ≤ n) (hu : ∀ j r, j < i → u' j r = u j r) (ht : ∀ j, j < i → t' j = t j)
    (hT : ∀ a j, a < i → j < i → Tf' a j = Tf a j) (hY : ∀ r j, k < r → r < ihi → j < i → Y' r j = Y r j)
    (hF : ∀ r j, k < r → r < ihi → j < i → F' r j = F r j) : Pan n k ihi B i u' t' Tf' Y' F' := by
  have bs : ∀ k i, bset .Forward k i = range i := fun k i => by simp [bset]
  have hg : ∀ a b, a < i → b < i → gramF n u' a b = gramF n u a b := by
    intro a b ha hb
    unfold gramF
    exact Finset.sum_congr rfl fun s hs => by rw [hu a s ha, hu b s hb]
  refine ⟨fun j r hj hr => by rw [hu j r hj]; exact h.supp j r hj hr, ⟨fun j hj => ?_, fun j b hj hb => ?_, fun j a hj ha => ?_⟩, fun r j h0 h1 hj => ?_, fun j hj => ?_, fun j r hj h0 h1 => ?_⟩
  · rw [hT j j hj hj, ht j hj, h.rel.diag j hj]
  · rw [bs, mem_range] at hb
    rw [hT j b hj (by omega), h.rel.zero j b hj (by rw [bs, mem_range]; exact hb)]
  · have ha' := ha
    rw [bs, mem_range] at ha
    rw [bs, hT a j (by omega) hj, ht j hj, h.rel.off j a hj ha', bs]
    congr 1
    refine Finset.sum_congr rfl fun b hb => ?_
    have hb := mem_range.1 hb
    rw [hT a b (by omega) (by omega), hg b j (by omega) hj]
  · rw [hY r j h0 h1 hj, h.y r j h0 h1 hj]
    refine Finset.sum_congr rfl fun l _ => ?_
    congr 1
    exact Finset.sum_congr rfl fun a ha => by rw [hu a l (mem_range.1 ha), hT a j (mem_range.1 ha) hj]
  · have : mat n n (reflF (t' j) (u' j)) = mat n n (reflF (t j) (u j)) := by
      rw [mat_ext_iff]
      intro r c _ _
      unfold reflF
      rw [ht j hj, hu j r hj, hu j c hj]
    rw [this]; exact h.unit j hj
  · rw [panM_congr ht (fun j r hj _ => hu j r hj) r (k + j) (by omega) (by omega), h.col j r hj h0 h1]
    by_cases e : r ≤ k + 1 + j
    · rw [if_pos e, if_pos e, hF r j h0 h1 hj]
    · rw [if_neg e, if_neg e]

set_option maxHeartbeats 1000000 in
theorem wp_lahr2 (hl : HhLaws 𝕜 p) {n k nb N : Nat} {A : MatV L} {tau : VecV L} {Tm Y : MatV L} (ok : L2OK k nb N A tau Tm Y)
    (hn : N ≤ n) {B : Nat → Nat → 𝕜} {μ : Store L 𝕜} (hB : ∀ r c, r < N → c < A.n → B r (k + c) = entry μ A r c)
    (hb : frobSq n n B ≤ p.tbig ^ 2) :
    wp (lahr2 (hhOps p) k nb A tau Tm Y) μ (fun _ ν => L2Out n k nb N A tau Tm Y B μ ν) := by
  have ok' := ok
  obtain ⟨Am, An, kn, pos, Tmm, Tmn, Ym, Yn, tn, inj, tinj, yinj, vinj, AT, AY, TY, At, Tt, Yt⟩ := ok
  have YA := AY.symm
  have TA := AT.symm
  have YT := TY.symm
  unfold lahr2
  rw [if_neg (by omega)]
  simp only [wp_bind]
  refine wp_forUp (fun i ei ν => ∃ G, L2Inv n k nb N A tau Tm Y B μ i ei ν G) (by omega) ⟨entry μ A, ?_⟩ ?_ ?_
  · exact ⟨fun _ _ _ _ _ => rfl, fun _ _ _ _ _ => rfl, fun h => by omega, fun r c _ _ => by rw [if_neg (by omega)], fun _ _ _ => rfl, Pan.zero, fun _ h => by omega⟩
  · rintro i ei ν _ hi ⟨G, h⟩
    exact wp_lahr2Step hl ok' hn hi hB hb h
  · rintro ei ν ⟨G, hfr, hold, hone, hgi, htau, pan, hreal⟩
    refine wp_setE (by omega) ?_
    set ν1 := upd ν (A.cell (k + nb) (nb - 1)) ei with hν1
    have A1 : ∀ r c, r < N → c < A.n → entry ν1 A r c = G r c := by
      intro r c hr hc
      rw [hgi r c hr hc]
      by_cases e : 0 < nb ∧ r = k + nb ∧ c = nb - 1
      · rw [if_pos e, e.2.1, e.2.2, hν1]
        simp [entry, upd]
      · rw [if_neg e]
        refine upd_ne_cell fun h => ?_
        have := inj _ _ _ _ (by omega) (by omega) (by omega) (by omega) h
        omega
    have f1 : ∀ l, ¬ A.Owns l → ν1 l = ν l := fun l hl => upd_ne_cell fun h => hl ⟨_, _, by omega, by omega, h⟩
    refine wp_conseq (wp_lahr2Top ok' hn (B := B) (ν := ν1) fun r c hr hc => ?_) ?_
    · rw [hB r c (by omega) hc, A1 r c (by omega) hc, hgi r c (by omega) hc, if_neg (by omega), hold r c (by omega) hc (Or.inr hr)]
    rintro _ ν2 ⟨o2, y2⟩
    rw [wp_pure]
    have o2' : Only Y ν1 ν2 := o2.sub (by omega) (by omega)
    have A2 : ∀ r c, r < N → c < A.n → entry ν2 A r c = G r c := fun r c hr hc => by
      rw [entry_matO AY o2' (by omega) hc, A1 r c hr hc]
    have T2 : ∀ a b, a < nb → b < nb → entry ν2 Tm a b = entry ν Tm a b := fun a b ha hb => by
      rw [entry_matO TY o2' (by omega) (by omega)]
      exact f1 _ (TA _ _ (by omega) (by omega))
    have t2 : ∀ j, j < tau.n → ventry ν2 tau j = ventry ν tau j := fun j hj => by
      have h1 : ¬ Y.Owns (tau.cell j) := fun ⟨r, c, hr, hc, e⟩ => Yt r c hr hc ⟨j, hj, e.symm⟩
      have h2 : ¬ A.Owns (tau.cell j) := fun ⟨r, c, hr, hc, e⟩ => At r c hr hc ⟨j, hj, e.symm⟩
      exact (o2' _ h1).trans (f1 _ h2)
    have hu : ∀ j r, j < nb → panU k N (entry ν2 A) j r = panU k N G j r := by
      intro j r hj
      unfold panU
      by_cases e : r = k + 1 + j
      · rw [if_pos e, if_pos e]
      · rw [if_neg e, if_neg e]
        by_cases e' : k + 1 + j < r ∧ r < N
        · rw [if_pos e', if_pos e', A2 r j (by omega) (by omega)]
        · rw [if_neg e', if_neg e']
    have hu1 : ∀ j r, j < nb → panU k N (entry ν1 A) j r = panU k N (entry ν2 A) j r := by
      intro j r hj
      rw [hu j r hj]
      unfold panU
      by_cases e : r = k + 1 + j
      · rw [if_pos e, if_pos e]
      · rw [if_neg e, if_neg e]
        by_cases e' : k + 1 + j < r ∧ r < N
        · rw [if_pos e', if_pos e', A1 r j (by omega) (by omega)]
        · rw [if_neg e', if_neg e']
    have hY : ∀ r j, k < r → r < N → j < nb → entry ν2 Y r j = entry ν Y r j := by
      intro r j h0 h1 hj
      rw [o2.out yinj (by omega) (by omega) (by omega) (by omega) (by omega)]
      exact f1 _ (YA _ _ (by omega) (by omega))
    have hT : ∀ a j, a < nb → j < nb → upF (entry ν2 Tm) a j = upF (entry ν Tm) a j := by
      intro a j ha hj
      unfold upF
      rw [T2 a j ha hj]
    have pan' : Pan n k N B nb (panU k N (entry ν2 A)) (ventry ν2 tau) (upF (entry ν2 Tm)) (entry ν2 Y) (entry ν2 A) :=
      pan.congr hn (by omega) hu (fun j hj => t2 j (by omega)) hT hY fun r j h0 h1 hj => A2 r j h1 (by omega)
    refine ⟨fun l hA hT hY ht => ?_, fun r c hr hc h => ?_, fun j hj hj' => ?_, pan', fun j hj => ?_, fun r j hr hj => ?_⟩
    · rw [o2' l hY, f1 l hA, hfr l hA hT hY ht]
    · rw [A2 r c hr hc, hgi r c hr hc, if_neg (by omega), hold r c hr hc h]
    · rw [t2 j hj', htau j hj hj']
    · rw [A2 _ _ (by omega) (by omega)]; exact hreal j hj
    · by_cases e : r ≤ k
      · rw [y2 r j e hj]
        refine Finset.sum_congr rfl fun l _ => ?_
        congr 1
        refine Finset.sum_congr rfl fun a ha => ?_
        have ha := mem_range.1 ha
        rw [hu1 a l ha]
        congr 1
        unfold upF
        rw [T2 a j ha hj, show entry ν1 Tm a j = entry ν Tm a j from f1 _ (TA _ _ (by omega) (by omega))]
      · exact pan'.y r j (by omega) hr hj

end TLA
