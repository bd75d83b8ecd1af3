import Verif.Proofs.LabrdLoop
import Verif.Proofs.Gehrd

/-! # gebrd -/

set_option linter.unusedSectionVars false
set_option linter.unusedTactic false
set_option linter.unreachableTactic false
set_option linter.unusedVariables false

namespace TLA
open Finset
variable {L 𝕜 : Type} [DecidableEq L] [RCLike 𝕜] [DecidableEq 𝕜] {p : HhPar}

set_option maxHeartbeats 1000000 in
theorem wp_gebrdTrail {s ib r0 c0 : Nat} {A X Y : MatV L} (hA : A.Inj) (AX : A.Disj X) (AY : A.Disj Y) (hib : 0 < ib) (h1 : s + ib < A.m) (h2 : s + ib < A.n)
    (hXm : X.m = A.m) (hXn : ib ≤ X.n) (hYm : Y.m = A.n) (hYn : ib ≤ Y.n) (hrc : (r0 = s + ib - 1 ∧ c0 = s + ib) ∨ (r0 = s + ib ∧ c0 = s + ib - 1)) {ν : Store L 𝕜}
    (hre : star (entry ν A r0 c0) = entry ν A r0 c0) :
    wp (gebrdTrail s ib r0 c0 A X Y) ν (fun _ ν' => Only A ν ν' ∧
      ∀ r c, r < A.m → c < A.n → entry ν' A r c = if s + ib ≤ r ∧ s + ib ≤ c then
        entry ν A r c - (∑ j ∈ range ib, (if r = r0 ∧ s + j = c0 then 1 else entry ν A r (s + j)) * star (entry ν Y c j))
          - ∑ j ∈ range ib, entry ν X r j * (if s + j = r0 ∧ c = c0 then 1 else entry ν A (s + j) c) else entry ν A r c) := by
  have YA := AY.symm
  have XA := AX.symm
  unfold gebrdTrail
  simp only [wp_bind]
  refine wp_slice (by omega) (by omega) (by omega) (by omega) ?_
  refine wp_getE (by omega) ?_
  refine wp_setE (by omega) ?_
  refine wp_slice (by omega) (by omega) (by omega) (by omega) ?_
  refine wp_slice (by omega) (by omega) (by omega) (by omega) ?_
  set ν1 := upd ν (A.cell r0 c0) 1 with hν1
  have A1 : ∀ r c, r < A.m → c < A.n → (r ≠ r0 ∨ c ≠ c0) → entry ν1 A r c = entry ν A r c := fun r c hr hc hh =>
    upd_ne_cell fun e => by have := hA _ _ _ _ (by omega) (by omega) hr hc e; omega
  have A1' : entry ν1 A r0 c0 = 1 := by rw [hν1]; simp [entry, upd]
  have A1i : ∀ r c, r < A.m → c < A.n → entry ν1 A r c = if r = r0 ∧ c = c0 then 1 else entry ν A r c := by
    intro r c hr hc
    by_cases e : r = r0 ∧ c = c0
    · rw [if_pos e, e.1, e.2, A1']
    · rw [if_neg e, A1 r c hr hc (by omega)]
  have o1 : Only A ν ν1 := fun l hl => upd_ne_cell fun e => hl ⟨_, _, by omega, by omega, e⟩
  refine wp_conseq (wp_gemm_e (m := A.m - (s + ib)) (n := A.n - (s + ib)) (k := ib) ⟨by simp, by simp, by simp [MatV.sub], by simp [MatV.sub], by simp [MatV.sub], by simp [MatV.sub], by simp [MatV.sub],
    by simp [MatV.sub], hA.sub (by omega) (by omega), hA.disj_sub (by omega) (by omega) (by omega) (by omega) (by omega),
    (YA.sub_right (by omega) (by omega)).sub_left (by omega) (by omega)⟩) fun _ ν2 ⟨o2, e2⟩ => ?_
  have A2 : ∀ r c, r < A.m → c < A.n → ¬ (s + ib ≤ r ∧ s + ib ≤ c) → entry ν2 A r c = entry ν1 A r c := fun r c hr hc hh =>
    o2.out hA (by omega) (by omega) hr hc (by omega)
  have A2i : ∀ r c, s + ib ≤ r → s + ib ≤ c → r < A.m → c < A.n → entry ν2 A r c =
      entry ν A r c - (∑ j ∈ range ib, (if r = r0 ∧ s + j = c0 then 1 else entry ν A r (s + j)) * star (entry ν Y c j)) := by
    intro r c h3 h4 hr hc
    have := e2 (r - (s + ib)) (c - (s + ib)) (by simp [MatV.sub]; omega) (by simp [MatV.sub]; omega)
    have ea : ∀ ξ : Store L 𝕜, entry ξ (A.sub (s + ib) A.m (s + ib) A.n) (r - (s + ib)) (c - (s + ib)) = entry ξ A r c := fun ξ => by
      simp [entry, MatV.sub, show s + ib + (c - (s + ib)) = c by omega, show s + ib + (r - (s + ib)) = r by omega]
    rw [ea, ea] at this
    rw [this, A1 r c hr hc (by omega)]
    simp only [Coef.toVal, one_mul, neg_one_mul]
    rw [neg_add_eq_sub]
    congr 1
    refine Finset.sum_congr rfl fun j hj => ?_
    have hj := mem_range.1 hj
    congr 1
    · rw [← A1i r (s + j) hr (by omega)]
      simp [opF, entry, MatV.sub, show s + ib + (r - (s + ib)) = r by omega]
    · have : entry ν1 Y c j = entry ν Y c j := o1 _ (YA _ _ (by omega) (by omega))
      rw [← this]
      simp only [opF]
      simp [entry, MatV.sub, show s + ib + (c - (s + ib)) = c by omega]
  refine wp_slice (by omega) (by omega) (by omega) (by omega) ?_
  refine wp_slice (by omega) (by omega) (by omega) (by omega) ?_
  refine wp_conseq (wp_gemm_e (m := A.m - (s + ib)) (n := A.n - (s + ib)) (k := ib) ⟨by simp, by simp, by simp [MatV.sub], by simp [MatV.sub], by simp [MatV.sub], by simp [MatV.sub], by simp [MatV.sub],
    by simp [MatV.sub], hA.sub (by omega) (by omega), (XA.sub_right (by omega) (by omega)).sub_left (by omega) (by omega),
    hA.disj_sub (by omega) (by omega) (by omega) (by omega) (by omega)⟩) fun _ ν3 ⟨o3, e3⟩ => ?_
  have A3 : ∀ r c, r < A.m → c < A.n → ¬ (s + ib ≤ r ∧ s + ib ≤ c) → entry ν3 A r c = entry ν2 A r c := fun r c hr hc hh =>
    o3.out hA (by omega) (by omega) hr hc (by omega)
  have A3i : ∀ r c, s + ib ≤ r → s + ib ≤ c → r < A.m → c < A.n → entry ν3 A r c =
      entry ν2 A r c - (∑ j ∈ range ib, entry ν X r j * (if s + j = r0 ∧ c = c0 then 1 else entry ν A (s + j) c)) := by
    intro r c h3 h4 hr hc
    have := e3 (r - (s + ib)) (c - (s + ib)) (by simp [MatV.sub]; omega) (by simp [MatV.sub]; omega)
    have ea : ∀ ξ : Store L 𝕜, entry ξ (A.sub (s + ib) A.m (s + ib) A.n) (r - (s + ib)) (c - (s + ib)) = entry ξ A r c := fun ξ => by
      simp [entry, MatV.sub, show s + ib + (c - (s + ib)) = c by omega, show s + ib + (r - (s + ib)) = r by omega]
    rw [ea, ea] at this
    rw [this]
    simp only [Coef.toVal, one_mul, neg_one_mul]
    rw [neg_add_eq_sub]
    congr 1
    refine Finset.sum_congr rfl fun j hj => ?_
    have hj := mem_range.1 hj
    congr 1
    · have : entry ν2 X r j = entry ν X r j := by
        have o2' : Only A ν1 ν2 := o2.sub (by omega) (by omega)
        rw [show entry ν2 X r j = entry ν1 X r j from o2' _ (XA _ _ (by omega) (by omega))]
        exact o1 _ (XA _ _ (by omega) (by omega))
      rw [← this]
      simp [opF, entry, MatV.sub, show s + ib + (r - (s + ib)) = r by omega]
    · rw [← A1i (s + j) c (by omega) hc, ← A2 (s + j) c (by omega) hc (by omega)]
      simp [opF, entry, MatV.sub, show s + ib + (c - (s + ib)) = c by omega]
  refine wp_setE (by omega) ?_
  have hre' : (ReIm.re (ν (A.cell r0 c0)) : 𝕜) = entry ν A r0 c0 := re_star hre
  rw [hre']
  refine ⟨fun l hl => ?_, fun r c hr hc => ?_⟩
  · rw [upd_ne_cell fun e => hl ⟨_, _, by omega, by omega, e⟩, o3.sub (by omega) (by omega) l hl, o2.sub (by omega) (by omega) l hl, o1 l hl]
  · by_cases e : r = r0 ∧ c = c0
    · rw [if_neg (by omega), e.1, e.2]
      simp [entry, upd]
    · rw [show entry (upd ν3 (A.cell r0 c0) (entry ν A r0 c0)) A r c = entry ν3 A r c from
        upd_ne_cell fun h => by have := hA _ _ _ _ (by omega) (by omega) hr hc h; omega]
      by_cases hh : s + ib ≤ r ∧ s + ib ≤ c
      · rw [if_pos hh, A3i r c hh.1 hh.2 hr hc, A2i r c hh.1 hh.2 hr hc]
      · rw [if_neg hh, A3 r c hr hc hh, A2 r c hr hc hh, A1 r c hr hc (by omega)]

/-- The two workspace matrices. -/
structure GbW (nb : Nat) (A X Y : MatV L) (work : VecV L) : Prop where
  Xm : X.m = A.m
  Xn : X.n = nb
  Ym : Y.m = A.n
  Yn : Y.n = nb
  xinj : X.Inj
  yinj : Y.Inj
  XY : X.Disj Y
  X_work : ∀ l, X.Owns l → work.Owns l
  Y_work : ∀ l, Y.Owns l → work.Owns l

theorem GbW.AX {nb : Nat} {A X Y : MatV L} {tauv tauw work : VecV L} (ok : BrdOK A tauv tauw work) (w : GbW nb A X Y work) : A.Disj X :=
  fun r c hr hc ho => ok.qv.Aw r c hr hc (w.X_work _ ho)
theorem GbW.AY {nb : Nat} {A X Y : MatV L} {tauv tauw work : VecV L} (ok : BrdOK A tauv tauw work) (w : GbW nb A X Y work) : A.Disj Y :=
  fun r c hr hc ho => ok.qv.Aw r c hr hc (w.Y_work _ ho)

theorem GbW.panel {nb ib s : Nat} {A X Y : MatV L} {tauv tauw work : VecV L} (ok : BrdOK A tauv tauw work) (w : GbW nb A X Y work) (hib : ib ≤ nb)
    (hm : s + ib ≤ A.m) (hn : s + ib ≤ A.n) :
    BpOK (A.sub s A.m s A.n) (X.sub s A.m 0 ib) (Y.sub s A.n 0 ib) (A.m - s) (A.n - s) ib := by
  have AX := w.AX ok
  have AY := w.AY ok
  have XA := AX.symm
  have YA := AY.symm
  have YX := w.XY.symm
  have hXm := w.Xm
  have hYm := w.Ym
  have hXn := w.Xn
  have hYn := w.Yn
  refine ⟨⟨fun k => ?_, fun k k' hk => ?_⟩, rfl, rfl, rfl, by simp [MatV.sub], rfl, by simp [MatV.sub], by omega, by omega⟩
  · cases k
    · exact ok.qv.inj.sub (le_refl _) (le_refl _)
    · exact w.xinj.sub (by omega) (by omega)
    · exact w.yinj.sub (by omega) (by omega)
  · cases k <;> cases k' <;> first | exact absurd rfl hk | skip
    · exact (AX.sub_left (le_refl _) (le_refl _)).sub_right (by omega) (by omega)
    · exact (AY.sub_left (le_refl _) (le_refl _)).sub_right (by omega) (by omega)
    · exact (XA.sub_right (le_refl _) (le_refl _)).sub_left (by omega) (by omega)
    · exact (w.XY.sub_left (by omega) (by omega)).sub_right (by omega) (by omega)
    · exact (YA.sub_right (le_refl _) (le_refl _)).sub_left (by omega) (by omega)
    · exact (YX.sub_left (by omega) (by omega)).sub_right (by omega) (by omega)

/-- What the panel may touch. -/
theorem GbW.owns {nb ib s : Nat} {A X Y : MatV L} {work : VecV L} (w : GbW nb A X Y work) (hib : ib ≤ nb) {l : L} (k : K3)
    (h : (B3 (A.sub s A.m s A.n) (X.sub s A.m 0 ib) (Y.sub s A.n 0 ib) k).Owns l) : A.Owns l ∨ work.Owns l := by
  have hXm := w.Xm
  have hYm := w.Ym
  have hXn := w.Xn
  have hYn := w.Yn
  cases k
  · exact Or.inl (MatV.Owns.sub (le_refl _) (le_refl _) h)
  · exact Or.inr (w.X_work _ (MatV.Owns.sub (by omega) (by omega) h))
  · exact Or.inr (w.Y_work _ (MatV.Owns.sub (by omega) (by omega) h))

theorem GbW.taus {nb ib s : Nat} {A X Y : MatV L} {tauv tauw work : VecV L} (ok : BrdOK A tauv tauw work) (w : GbW nb A X Y work) (hib : ib ≤ nb)
    (hv : s + ib ≤ tauv.n) (hw : s + ib ≤ tauw.n) :
    PTau (A.sub s A.m s A.n) (X.sub s A.m 0 ib) (Y.sub s A.n 0 ib) tauv tauw s ib := by
  refine ⟨fun j hj k h => ?_, fun j hj k h => ?_, fun i j hi hj e => ok.vw i hi ⟨j, hj, e.symm⟩, ok.qv.tinj, ok.qw.tinj, hv, hw⟩
  · rcases w.owns hib k h with h | h
    · exact ok.qv.tauA hj h
    · exact ok.qv.tw j hj h
  · rcases w.owns hib k h with h | h
    · exact ok.qw.tauA hj h
    · exact ok.qw.tw j hj h

theorem glue_self {A : MatV L} {s : Nat} (ν : Store L 𝕜) : glue s (entry ν A) (entry ν (A.sub s A.m s A.n)) = entry ν A := by
  funext r c
  unfold glue
  by_cases h : r < s ∨ c < s
  · rw [if_pos h]
  · rw [if_neg h]
    simp [entry, MatV.sub, show s + (r - s) = r by omega, show s + (c - s) = c by omega]

/-- The entries of `A` outside of the panel and the trailing part. -/
theorem GbW.outside {nb ib s : Nat} {A X Y : MatV L} {tauv tauw work : VecV L} (ok : BrdOK A tauv tauw work) (w : GbW nb A X Y work) (hib : ib ≤ nb)
    (hv : s + ib ≤ tauv.n) (hw : s + ib ≤ tauw.n) {ν ν1 : Store L 𝕜}
    (fr : ∀ l, (∀ k, ¬ (B3 (A.sub s A.m s A.n) (X.sub s A.m 0 ib) (Y.sub s A.n 0 ib) k).Owns l) → ¬ (tauv.sub s (s + ib)).Owns l → ¬ (tauw.sub s (s + ib)).Owns l → ν1 l = ν l)
    {r c : Nat} (hr : r < A.m) (hc : c < A.n) (h : r < s ∨ c < s) : entry ν1 A r c = entry ν A r c := by
  refine fr _ (fun k hk => ?_) (fun ho => ok.qv.At r c hr hc (ho.sub hv)) (fun ho => ok.qw.At r c hr hc (ho.sub hw))
  have AX := w.AX ok
  have AY := w.AY ok
  have hXm := w.Xm
  have hYm := w.Ym
  have hXn := w.Xn
  have hYn := w.Yn
  cases k
  · obtain ⟨r', c', hr', hc', e⟩ := hk
    have hr'' : r' < A.m - s := hr'
    have hc'' : c' < A.n - s := hc'
    have := ok.qv.inj (s + r') (s + c') r c (by omega) (by omega) hr hc e
    omega
  · exact AX r c hr hc (MatV.Owns.sub (by omega) (by omega) hk)
  · exact AY r c hr hc (MatV.Owns.sub (by omega) (by omega) hk)

set_option maxHeartbeats 1000000 in
theorem wp_gebrdStepU (hl : HhLaws 𝕜 p) {nb s : Nat} {A X Y : MatV L} {tauv tauw work : VecV L} (ok : BrdOK A tauv tauw work) (w : GbW nb A X Y work) (hnb : 0 < nb)
    (hmn : A.n ≤ A.m) (htv : A.n ≤ tauv.n) (htw : A.n ≤ tauw.n) {μ ν : Store L 𝕜} (hs : s < A.n)
    (hb : frobSq A.m A.n (entry μ A) ≤ p.tbig ^ 2)
    (h : BState A.m A.n A.n (fun ν => entry ν A) A tauv tauw work μ s s ν) :
    wp (gebrdStep (hhOps p) nb A tauv tauw X Y s) ν (fun _ ν' =>
      BState A.m A.n A.n (fun ν => entry ν A) A tauv tauw work μ (s + min nb (A.n - s)) (s + min nb (A.n - s)) ν') := by
  have hXm := w.Xm
  have hYm := w.Ym
  have hXn := w.Xn
  have hYn := w.Yn
  have inj := ok.qv.inj
  have AX := w.AX ok
  have AY := w.AY ok
  unfold gebrdStep
  simp only [wp_bind]
  rw [show min A.m A.n = A.n by omega]
  set ib := min nb (A.n - s) with hib
  refine wp_slice (by omega) (by omega) (by omega) (by omega) ?_
  refine wp_vslice (by omega) (by omega) ?_
  refine wp_vslice (by omega) (by omega) ?_
  refine wp_slice (by omega) (by omega) (by omega) (by omega) ?_
  refine wp_slice (by omega) (by omega) (by omega) (by omega) ?_
  have em : s + (A.m - s) = A.m := by omega
  have en : s + (A.n - s) = A.n := by omega
  refine wp_conseq (wp_labrdU hl (w.panel ok (by omega) (by omega) (by omega)) (by omega) (w.taus ok (by omega) (by omega) (by omega)) (A0 := entry μ A) (g := entry ν A)
    (by rw [em, en]; exact hb) (by rw [em, en, glue_self]; exact h.inv)) ?_
  rintro _ ν1 ⟨⟨f, hf, inv⟩, fr⟩
  rw [if_neg (by simp)] at inv
  have fa : ∀ r c, r < A.m - s → c < A.n - s → entry ν1 A (s + r) (s + c) = f .a r c := fun r c hr hc => hf .a r c hr hc
  have fx : ∀ r j, r < A.m - s → j < ib → entry ν1 X (s + r) j = f .x r j := fun r c hr hc => by
    rw [← hf .x r c hr (by simp [B3, MatV.sub]; omega)]
    simp [entry, B3, MatV.sub]
  have fy : ∀ r j, r < A.n - s → j < ib → entry ν1 Y (s + r) j = f .y r j := fun r c hr hc => by
    rw [← hf .y r c hr (by simp [B3, MatV.sub]; omega)]
    simp [entry, B3, MatV.sub]
  have eo : ∀ r c, r < A.m → c < A.n → r < s ∨ c < s → entry ν1 A r c = entry ν A r c := fun r c hr hc h =>
    w.outside ok (ib := ib) (by omega) (by omega) (by omega) fr hr hc h
  have fr1 : ∀ l, ¬ A.Owns l → ¬ (tauv.sub 0 A.n).Owns l → ¬ (tauw.sub 0 A.n).Owns l → ¬ work.Owns l → ν1 l = μ l := by
    intro l h1 h2 h3 h4
    have sb : ∀ t : VecV L, A.n ≤ t.n → ¬ (t.sub 0 A.n).Owns l → ¬ (t.sub s (s + ib)).Owns l := by
      rintro t ht hn ⟨j, hj, e⟩
      simp only [VecV.sub] at hj
      exact hn ⟨s + j, by simp [VecV.sub]; omega, by simpa [VecV.sub] using e⟩
    rw [fr l (fun k hk => (w.owns (by omega) k hk).elim h1 h4) (sb _ htv h2) (sb _ htw h3), h.frame l h1 h2 h3 h4]
  have fin : ∀ ν2 : Store L 𝕜, Only A ν1 ν2 → (∀ r c, r < A.m → c < A.n → entry ν2 A r c = glue s (entry ν A) (virtF ib ib (f .a) (f .x) (f .y)) r c) →
      BState A.m A.n A.n (fun ν => entry ν A) A tauv tauw work μ (s + ib) (s + ib) ν2 := by
    intro ν2 o e
    rw [em, en] at inv
    refine ⟨?_, fun l h1 h2 h3 h4 => (o l h1).trans (fr1 l h1 h2 h3 h4)⟩
    have i2 := inv.congrG (G' := entry ν2 A) e (by omega) (by omega)
    refine ⟨?_, fun i hi => ?_, fun i hi => ?_, i2.reald, i2.reale⟩
    · rw [reflProd_congr (t' := ventry ν2 tauv) (t := ventry ν1 tauv) (fun i _ hi => o _ (ok.qv.tauA (by omega))) (fun _ _ _ _ _ => rfl),
        reflProd_congr (t' := ventry ν2 tauw) (t := ventry ν1 tauw) (fun i _ hi => o _ (ok.qw.tauA (by omega))) (fun _ _ _ _ _ => rfl)]
      exact i2.prod
    · rw [show ventry ν2 tauv i = ventry ν1 tauv i from o _ (ok.qv.tauA (by omega))]
      exact i2.unitv i hi
    · rw [show ventry ν2 tauw i = ventry ν1 tauw i from o _ (ok.qw.tauA (by omega))]
      exact i2.unitw i hi
  by_cases hlast : s + ib < A.m ∧ s + ib < A.n
  · rw [if_pos hlast, if_neg (by omega), if_pos hmn]
    refine wp_conseq (wp_gebrdTrail inj AX AY (by omega) hlast.1 hlast.2 hXm (by omega) hYm (by omega) (Or.inl ⟨rfl, rfl⟩) ?_) ?_
    · have := inv.vre (by omega) (by omega)
      rw [← fa _ _ (by omega) (by omega)] at this
      rw [show s + (ib - 1) = s + ib - 1 by omega] at this
      exact this
    rintro _ ν2 ⟨o, e⟩
    refine fin ν2 o fun r c hr hc => ?_
    rw [e r c hr hc]
    unfold glue
    by_cases h0 : r < s ∨ c < s
    · rw [if_pos h0, if_neg (by omega), eo r c hr hc h0]
    rw [if_neg h0]
    unfold virtF
    obtain ⟨r, rfl⟩ : ∃ r', r = s + r' := ⟨r - s, by omega⟩
    obtain ⟨c, rfl⟩ : ∃ c', c = s + c' := ⟨c - s, by omega⟩
    simp only [Nat.add_sub_cancel_left]
    by_cases h1 : r < ib ∨ c < ib
    · rw [if_pos h1, if_neg (by omega), fa _ _ (by omega) (by omega)]
    rw [if_neg h1, if_pos (by omega), fa _ _ (by omega) (by omega)]
    refine congrArg₂ _ (congrArg₂ _ rfl ?_) ?_
    · refine Finset.sum_congr rfl fun j hj => ?_
      have := mem_range.1 hj
      rw [if_neg (by omega), if_neg (by omega), fa _ _ (by omega) (by omega), fy _ _ (by omega) this]
    · refine Finset.sum_congr rfl fun j hj => ?_
      have := mem_range.1 hj
      rw [fx _ _ (by omega) this]
      congr 1
      by_cases e1 : c = j + 1
      · rw [if_pos e1, if_pos (by omega)]
      · rw [if_neg e1, if_neg (by omega), fa _ _ (by omega) (by omega)]
  · rw [if_neg hlast, wp_pure]
    refine fin ν1 (fun _ _ => rfl) fun r c hr hc => ?_
    unfold glue
    by_cases h0 : r < s ∨ c < s
    · rw [if_pos h0, eo r c hr hc h0]
    rw [if_neg h0]
    unfold virtF
    rw [if_pos (by omega), ← fa _ _ (by omega) (by omega)]
    congr 1 <;> omega

set_option maxHeartbeats 1000000 in
theorem wp_gebrdStepL (hl : HhLaws 𝕜 p) {nb s : Nat} {A X Y : MatV L} {tauv tauw work : VecV L} (ok : BrdOK A tauv tauw work) (w : GbW nb A X Y work) (hnb : 0 < nb)
    (hmn : A.m < A.n) (htv : A.m ≤ tauv.n) (htw : A.m ≤ tauw.n) {μ ν : Store L 𝕜} (hs : s < A.m)
    (hb : frobSq A.n A.m (starT (entry μ A)) ≤ p.tbig ^ 2)
    (h : BState A.n A.m A.m (fun ν => starT (entry ν A)) A tauw tauv work μ s s ν) :
    wp (gebrdStep (hhOps p) nb A tauv tauw X Y s) ν (fun _ ν' =>
      BState A.n A.m A.m (fun ν => starT (entry ν A)) A tauw tauv work μ (s + min nb (A.m - s)) (s + min nb (A.m - s)) ν') := by
  have hXm := w.Xm
  have hYm := w.Ym
  have hXn := w.Xn
  have hYn := w.Yn
  have inj := ok.qv.inj
  have AX := w.AX ok
  have AY := w.AY ok
  unfold gebrdStep
  simp only [wp_bind]
  rw [show min A.m A.n = A.m by omega]
  set ib := min nb (A.m - s) with hib
  refine wp_slice (by omega) (by omega) (by omega) (by omega) ?_
  refine wp_vslice (by omega) (by omega) ?_
  refine wp_vslice (by omega) (by omega) ?_
  refine wp_slice (by omega) (by omega) (by omega) (by omega) ?_
  refine wp_slice (by omega) (by omega) (by omega) (by omega) ?_
  have em : s + (A.m - s) = A.m := by omega
  have en : s + (A.n - s) = A.n := by omega
  refine wp_conseq (wp_labrdL hl (w.panel ok (by omega) (by omega) (by omega)) (by omega) (w.taus ok (by omega) (by omega) (by omega)) (A0 := starT (entry μ A)) (g := starT (entry ν A))
    (by rw [em, en]; exact hb) (by rw [em, en, ← glue_starT, glue_self]; exact h.inv)) ?_
  rintro _ ν1 ⟨⟨f, hf, inv⟩, fr⟩
  rw [if_pos rfl] at inv
  have fa : ∀ r c, r < A.m - s → c < A.n - s → entry ν1 A (s + r) (s + c) = f .a r c := fun r c hr hc => hf .a r c hr hc
  have fx : ∀ r j, r < A.m - s → j < ib → entry ν1 X (s + r) j = f .x r j := fun r c hr hc => by
    rw [← hf .x r c hr (by simp [B3, MatV.sub]; omega)]
    simp [entry, B3, MatV.sub]
  have fy : ∀ r j, r < A.n - s → j < ib → entry ν1 Y (s + r) j = f .y r j := fun r c hr hc => by
    rw [← hf .y r c hr (by simp [B3, MatV.sub]; omega)]
    simp [entry, B3, MatV.sub]
  have eo : ∀ r c, r < A.m → c < A.n → r < s ∨ c < s → entry ν1 A r c = entry ν A r c := fun r c hr hc h =>
    w.outside ok (ib := ib) (by omega) (by omega) (by omega) fr hr hc h
  have fr1 : ∀ l, ¬ A.Owns l → ¬ (tauw.sub 0 A.m).Owns l → ¬ (tauv.sub 0 A.m).Owns l → ¬ work.Owns l → ν1 l = μ l := by
    intro l h1 h2 h3 h4
    have sb : ∀ t : VecV L, A.m ≤ t.n → ¬ (t.sub 0 A.m).Owns l → ¬ (t.sub s (s + ib)).Owns l := by
      rintro t ht hn ⟨j, hj, e⟩
      simp only [VecV.sub] at hj
      exact hn ⟨s + j, by simp [VecV.sub]; omega, by simpa [VecV.sub] using e⟩
    rw [fr l (fun k hk => (w.owns (by omega) k hk).elim h1 h4) (sb _ htv h3) (sb _ htw h2), h.frame l h1 h2 h3 h4]
  have fin : ∀ ν2 : Store L 𝕜, Only A ν1 ν2 → (∀ r c, r < A.m → c < A.n → entry ν2 A r c = star (glue s (starT (entry ν A)) (virtF ib ib (starT (f .a)) (f .y) (f .x)) c r)) →
      BState A.n A.m A.m (fun ν => starT (entry ν A)) A tauw tauv work μ (s + ib) (s + ib) ν2 := by
    intro ν2 o e
    rw [em, en] at inv
    refine ⟨?_, fun l h1 h2 h3 h4 => (o l h1).trans (fr1 l h1 h2 h3 h4)⟩
    have i2 := inv.congrG (G' := starT (entry ν2 A)) (fun c r hc hr => by unfold starT; rw [e r c hr hc, star_star]; rfl) (by omega) (by omega)
    refine ⟨?_, fun i hi => ?_, fun i hi => ?_, i2.reald, i2.reale⟩
    · rw [reflProd_congr (t' := ventry ν2 tauw) (t := ventry ν1 tauw) (fun i _ hi => o _ (ok.qw.tauA (by omega))) (fun _ _ _ _ _ => rfl),
        reflProd_congr (t' := ventry ν2 tauv) (t := ventry ν1 tauv) (fun i _ hi => o _ (ok.qv.tauA (by omega))) (fun _ _ _ _ _ => rfl)]
      exact i2.prod
    · rw [show ventry ν2 tauw i = ventry ν1 tauw i from o _ (ok.qw.tauA (by omega))]
      exact i2.unitv i hi
    · rw [show ventry ν2 tauv i = ventry ν1 tauv i from o _ (ok.qv.tauA (by omega))]
      exact i2.unitw i hi
  by_cases hlast : s + ib < A.m ∧ s + ib < A.n
  · rw [if_pos hlast, if_neg (by omega), if_neg (by omega)]
    refine wp_conseq (wp_gebrdTrail inj AX AY (by omega) hlast.1 hlast.2 hXm (by omega) hYm (by omega) (Or.inr ⟨rfl, rfl⟩) ?_) ?_
    · have : star (f .a ib (ib - 1)) = f .a ib (ib - 1) := star_injective (inv.vre (by omega) (by omega))
      rw [← fa _ _ (by omega) (by omega)] at this
      rw [show s + (ib - 1) = s + ib - 1 by omega] at this
      exact this
    rintro _ ν2 ⟨o, e⟩
    refine fin ν2 o fun r c hr hc => ?_
    rw [e r c hr hc]
    unfold glue
    by_cases h0 : r < s ∨ c < s
    · rw [if_neg (by omega), if_pos (by omega), eo r c hr hc h0]; exact (star_star _).symm
    rw [if_neg (show ¬ (c < s ∨ r < s) by omega)]
    unfold virtF
    obtain ⟨r, rfl⟩ : ∃ r', r = s + r' := ⟨r - s, by omega⟩
    obtain ⟨c, rfl⟩ : ∃ c', c = s + c' := ⟨c - s, by omega⟩
    simp only [Nat.add_sub_cancel_left]
    by_cases h1 : r < ib ∨ c < ib
    · rw [if_neg (by omega), if_pos (by omega), fa _ _ (by omega) (by omega)]; exact (star_star _).symm
    rw [if_neg (show ¬ (c < ib ∨ r < ib) by omega), if_pos (by omega), fa _ _ (by omega) (by omega), star_sub, star_sub, star_sum, star_sum, sub_right_comm]
    refine congrArg₂ _ (congrArg₂ _ (star_star _).symm ?_) ?_
    · refine Finset.sum_congr rfl fun j hj => ?_
      have := mem_range.1 hj
      rw [if_neg (by omega), if_neg (by omega), fa _ _ (by omega) (by omega), fx _ _ (by omega) this, star_mul', star_star, starT, star_star, mul_comm]
    · refine Finset.sum_congr rfl fun j hj => ?_
      have := mem_range.1 hj
      rw [fy _ _ (by omega) this, star_mul', mul_comm]
      congr 1
      by_cases e1 : r = j + 1
      · rw [if_pos e1, if_pos (by omega), star_one]
      · rw [if_neg e1, if_neg (by omega), fa _ _ (by omega) (by omega), starT, star_star]
  · rw [if_neg hlast, wp_pure]
    refine fin ν1 (fun _ _ => rfl) fun r c hr hc => ?_
    unfold glue
    by_cases h0 : r < s ∨ c < s
    · rw [if_pos (by omega), eo r c hr hc h0]; exact (star_star _).symm
    rw [if_neg (by omega)]
    unfold virtF
    rw [if_pos (by omega), starT, star_star, ← fa _ _ (by omega) (by omega)]
    congr 1 <;> omega

theorem BState.start0 {M N k : Nat} {f : Store L 𝕜 → Nat → Nat → 𝕜} {A : MatV L} {tc tr work : VecV L} {μ ν : Store L 𝕜}
    (hf : ∀ r c, r < M → c < N → f ν r c = f μ r c) (fr : ∀ l, ¬ work.Owns l → ν l = μ l) : BState M N k f A tc tr work μ 0 0 ν :=
  ⟨(BInv.start _ _ _ _ _).congrG hf (by omega) (by omega), fun l _ _ _ h => fr l h⟩

theorem wp_gebrd_gen {nb0 : Nat} {A : MatV L} {tauv tauw work : VecV L} {o : HhOps 𝕜 ℝ} (ok : BrdOK A tauv tauw work)
    (hnb0 : 0 < nb0) (hw : (gebrdWorksize nb0 A).size ≤ work.n) {μ : Store L 𝕜} {I : Nat → Store L 𝕜 → Prop}
    (start : ∀ ν : Store L 𝕜, (∀ l, ¬ work.Owns l → ν l = μ l) → I 0 ν)
    (step : ∀ X Y s ν, GbW (min nb0 (min A.m A.n)) A X Y work → s < min A.m A.n → I s ν →
      wp (gebrdStep o (min nb0 (min A.m A.n)) A tauv tauw X Y s) ν (fun _ ν' => I (s + min (min nb0 (min A.m A.n)) (min A.m A.n - s)) ν')) :
    wp (gebrd o nb0 A tauv tauw work) μ (fun r ν => r = 0 ∧ I (min A.m A.n) ν) := by
  unfold gebrd
  simp only [wp_bind]
  set k := min A.m A.n with hk
  set nb := min nb0 k with hnb
  have hw' : A.m * nb + A.n * nb ≤ work.n := by
    rw [← Nat.add_mul]
    simpa [gebrdWorksize, WorkInfo.ofMat, WorkInfo.size] using hw
  have hX : A.m * nb ≤ work.n := by omega
  refine wp_reshapeWM hX ?_
  have hY : A.n * nb ≤ (work.sub (A.m * nb) work.n).n := by simp [VecV.sub]; omega
  refine wp_reshapeWM hY ?_
  have xinj : (wview work A.m nb).Inj := wview_inj ok.qv.winj hX
  have wsub : (work.sub (A.m * nb) work.n).Inj := ok.qv.winj.sub (le_refl _)
  have yinj : (wview (work.sub (A.m * nb) work.n) A.n nb).Inj := wview_inj wsub hY
  obtain ⟨ν1, x1, -, f1⟩ := C24_laset .General (by simp) (0 : 𝕜) 0 _ xinj μ
  refine wp_of_eq x1 ?_
  obtain ⟨ν2, x2, -, f2⟩ := C24_laset .General (by simp) (0 : 𝕜) 0 _ yinj ν1
  refine wp_of_eq x2 ?_
  have yo : ∀ l, (wview (work.sub (A.m * nb) work.n) A.n nb).Owns l → work.Owns l := fun l ho => (wview_owns hY ho).sub (le_refl _)
  have f2' : ∀ l, ¬ work.Owns l → ν2 l = μ l := fun l hl => (f2 l fun ho => hl (yo l ho)).trans (f1 l fun ho => hl (wview_owns hX ho))
  have w : GbW nb A (wview work A.m nb) (wview (work.sub (A.m * nb) work.n) A.n nb) work := by
    refine ⟨rfl, rfl, rfl, rfl, xinj, yinj, ?_, fun l ho => wview_owns hX ho, yo⟩
    rintro r c hr hc ⟨r', c', hr', hc', e⟩
    have h1 : r' + c' * A.n < A.n * nb := wview_lt hr' hc'
    have h2 : r + c * A.m < A.m * nb := wview_lt hr hc
    change work.cell (A.m * nb + (r' + c' * A.n)) = work.cell (r + c * A.m) at e
    have := ok.qv.winj _ _ (by omega) (by omega) e
    omega
  by_cases h0 : k = 0
  · rw [h0]
    unfold forStep
    simp only [lt_irrefl, if_false, wp_pure]
    have := start ν2 f2'
    exact ⟨trivial, this⟩
  refine wp_forStep (fun i ν => I (min i k) ν) (by omega) ?_ ?_ 0 ν2 (by rw [Nat.zero_min]; exact start ν2 f2')
  · intro j ν hj h
    rw [show min j k = j by omega] at h
    simp only [wp_bind]
    refine wp_conseq (step _ _ j ν w hj h) fun _ ν' h' => ?_
    rw [wp_pure]
    rw [show j + min nb (k - j) = min (j + nb) k by omega] at h'
    exact h'
  · intro j ν hj h
    rw [show min j k = k by omega] at h
    exact ⟨rfl, h⟩

theorem wp_gebrd_ge (hl : HhLaws 𝕜 p) {nb0 : Nat} {A : MatV L} {tauv tauw work : VecV L} (ok : BrdOK A tauv tauw work) (hnb0 : 0 < nb0)
    (hmn : A.n ≤ A.m) (htv : A.n ≤ tauv.n) (htw : A.n ≤ tauw.n)
    (hw : (gebrdWorksize nb0 A).size ≤ work.n) {μ : Store L 𝕜}
    (hb : frobSq A.m A.n (entry μ A) ≤ p.tbig ^ 2) :
    wp (gebrd (hhOps p) nb0 A tauv tauw work) μ (fun r ν => r = 0 ∧
      BState A.m A.n A.n (fun ν => entry ν A) A tauv tauw work μ A.n A.n ν) := by
  have hk : min A.m A.n = A.n := by omega
  have := wp_gebrd_gen (o := hhOps p) ok hnb0 hw (μ := μ) (I := fun s ν => BState A.m A.n A.n (fun ν => entry ν A) A tauv tauw work μ s s ν)
    (fun ν fr => BState.start0 (fun r c hr hc => fr _ (ok.qv.Aw r c hr hc)) fr)
    (fun X Y s ν w hs h => by
      rw [hk] at hs w ⊢
      exact wp_gebrdStepU hl ok w (by omega) hmn htv htw hs hb h)
  rw [hk] at this
  exact this

theorem wp_gebrd_lt (hl : HhLaws 𝕜 p) {nb0 : Nat} {A : MatV L} {tauv tauw work : VecV L} (ok : BrdOK A tauv tauw work) (hnb0 : 0 < nb0)
    (hmn : A.m < A.n) (htv : A.m ≤ tauv.n) (htw : A.m ≤ tauw.n)
    (hw : (gebrdWorksize nb0 A).size ≤ work.n) {μ : Store L 𝕜}
    (hb : frobSq A.n A.m (starT (entry μ A)) ≤ p.tbig ^ 2) :
    wp (gebrd (hhOps p) nb0 A tauv tauw work) μ (fun r ν => r = 0 ∧
      BState A.n A.m A.m (fun ν => starT (entry ν A)) A tauw tauv work μ A.m A.m ν) := by
  have hk : min A.m A.n = A.m := by omega
  have := wp_gebrd_gen (o := hhOps p) ok hnb0 hw (μ := μ) (I := fun s ν => BState A.n A.m A.m (fun ν => starT (entry ν A)) A tauw tauv work μ s s ν)
    (fun ν fr => BState.start0 (fun r c hr hc => congrArg star (fr _ (ok.qv.Aw c r hc hr))) fr)
    (fun X Y s ν w hs h => by
      rw [hk] at hs w ⊢
      exact wp_gebrdStepL hl ok w (by omega) hmn htv htw hs hb h)
  rw [hk] at this
  exact this

end TLA
