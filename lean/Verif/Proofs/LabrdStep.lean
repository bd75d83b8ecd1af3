import Verif.Proofs.Labrd
import Verif.Proofs.LabrdAlg

/-! # The steps of labrd -/

set_option linter.unusedSectionVars false
set_option linter.unusedTactic false
set_option linter.unreachableTactic false
set_option linter.unusedVariables false

namespace TLA
open Finset
variable {L 𝕜 : Type} [DecidableEq L] [RCLike 𝕜] [DecidableEq 𝕜] {p : HhPar}
variable {A X Y : MatV L} {m n nb : Nat}

theorem ColStep.congr2 {M N P r0 r1 c : Nat} {t : 𝕜} {G G' H H' : Nat → Nat → 𝕜} (h : ColStep M N P r0 r1 c 0 0 t G H) (hP : P < M) (hc : c < N)
    (h1 : r1 ≤ M) (e1 : ∀ r c, r < M → c < N → G' r c = G r c) (e2 : ∀ r c, r < M → c < N → H' r c = H r c) :
    ColStep M N P r0 r1 c 0 0 t G' H' := by
  have hu : ∀ r, r < M → colU P r0 r1 c H' r = colU P r0 r1 c H r := by
    intro r hr
    unfold colU
    rw [e2 r c hr hc]
  refine ⟨fun r c' hr hc' hn => ?_, ?_, fun r hr => ?_, ?_, fun r c' _ _ h => by omega⟩
  · rw [e1 r c' hr hc', e2 r c' hr hc']; exact h.same r c' hr hc' hn
  · rw [Finset.sum_congr rfl fun r hr => by rw [hu r (mem_range.1 hr)]]; exact h.unit
  · rw [hu r hr, e1 r c hr hc, e2 P c hP hc, Finset.sum_congr rfl fun k hk => by rw [hu k (mem_range.1 hk), e1 k c (mem_range.1 hk) hc]]
    exact h.ann r hr
  · rw [e2 P c hP hc]; exact h.real

/-- larfg on the lower part of a column of `A`. -/
theorem wp_larfgC_F (hl : HhLaws 𝕜 p) (ok : BpOK A X Y m n nb) {P c : Nat} (hP : P < m) (hc : c < n) {f : K3 → Nat → Nat → 𝕜} {ν : Store L 𝕜}
    (hf : LS (B3 A X Y) f ν) (hb : ∀ r, P ≤ r → r < m → ‖f .a r c‖ ≤ p.tbig) :
    wp (larfgV (hhOps p) .Forward .Columnwise (A.colv P A.m c)) ν (fun t ν' => ∃ al, ColStep m n P P m c 0 0 t (f .a) al ∧
      LS (B3 A X Y) (updC f .a c P fun r => al r c) ν' ∧ Fr (B3 A X Y) ν ν') := by
  obtain ⟨fam, Am, An, Xm, Xn, Ym, Yn, hm, hn⟩ := ok
  have inj : A.Inj := fam.inj .a
  have hfa : ∀ r c, r < m → c < n → f .a r c = entry ν A r c := fun r c hr hc => (hf .a r c (by simp [B3]; omega) (by simp [B3]; omega)).symm
  refine wp_conseq (wp_genCol hl (p := p) inj (store := .Columnwise) (P := P) (r0 := P) (r1 := A.m) (c := c) (by omega) (le_refl _) (by omega) (by simp [pidx]) ?_) ?_
  · intro r h0 h1
    show ‖entry ν A r c‖ ≤ _
    rw [← hfa r c (by omega) hc]
    exact hb r h0 (by omega)
  rintro t ν' ⟨o, cs⟩
  have lg : ∀ ν : Store L 𝕜, LG .Columnwise ν A = entry ν A := fun _ => rfl
  rw [lg, lg, Am, An] at cs
  refine ⟨entry ν' A, cs.congr2 hP hc (le_refl _) hfa (fun _ _ _ _ => rfl), ?_⟩
  have := LS.put fam (d := ⟨.a, false, c, P, A.m⟩) ⟨by simp [B3]; omega, by simp [B3]⟩ hf o (g := fun x => entry ν' A (P + x) c) (fun x _ => rfl)
  exact ⟨this.1.toC rfl fun x _ => rfl, this.2⟩

/-- larfg on the right part of a row of `A`. -/
theorem wp_larfgR_F (hl : HhLaws 𝕜 p) (ok : BpOK A X Y m n nb) {P r : Nat} (hP : P < n) (hr : r < m) {f : K3 → Nat → Nat → 𝕜} {ν : Store L 𝕜}
    (hf : LS (B3 A X Y) f ν) (hb : ∀ c, P ≤ c → c < n → ‖f .a r c‖ ≤ p.tbig) :
    wp (larfgV (hhOps p) .Forward .Columnwise (A.rowv r P A.n)) ν (fun t ν' => ∃ al, ColStep n m P P n r 0 0 t (fun c r => f .a r c) al ∧
      LS (B3 A X Y) (updR f .a r P fun c => al c r) ν' ∧ Fr (B3 A X Y) ν ν') := by
  obtain ⟨fam, Am, An, Xm, Xn, Ym, Yn, hm, hn⟩ := ok
  have inj : A.Inj := fam.inj .a
  have hfa : ∀ r c, r < m → c < n → f .a r c = entry ν A r c := fun r c hr hc => (hf .a r c (by simp [B3]; omega) (by simp [B3]; omega)).symm
  have hA : A.rowv r P A.n = A.tr.colv P A.n r := rfl
  rw [hA]
  have tm : A.tr.m = n := An
  have tn : A.tr.n = m := Am
  refine wp_conseq (wp_genCol hl (p := p) inj.tr (store := .Columnwise) (P := P) (r0 := P) (r1 := A.n) (c := r) (by omega) (by omega) (by omega) (by simp [pidx]) ?_) ?_
  · intro c h0 h1
    show ‖entry ν A r c‖ ≤ _
    rw [← hfa r c hr (by omega)]
    exact hb c h0 (by omega)
  rintro t ν' ⟨o, cs⟩
  have lg : ∀ ν : Store L 𝕜, LG .Columnwise ν A.tr = fun c r => entry ν A r c := fun _ => rfl
  rw [lg, lg, tm, tn, An] at cs
  refine ⟨fun c r => entry ν' A r c, cs.congr2 hP hr (le_refl _) (fun c r hc hr => hfa r c hr hc) (fun _ _ _ _ => rfl), ?_⟩
  have := LS.put fam (d := ⟨.a, true, r, P, A.n⟩) ⟨by simp [B3]; omega, by simp [B3]⟩ hf o (g := fun x => entry ν' A r (P + x)) (fun x _ => rfl)
  exact ⟨this.1.toR rfl fun x _ => rfl, this.2⟩

theorem re_star {z : 𝕜} (h : star z = z) : (ReIm.re z : 𝕜) = z := by
  have := RCLike.conj_eq_iff_re.1 h
  exact this

/-- The start of a step, `m >= n`. -/
theorem wp_labrdHeadU (ok : BpOK A X Y m n nb) {i : Nat} (hi : i < nb) {f : K3 → Nat → Nat → 𝕜} {ν : Store L 𝕜} (hf : LS (B3 A X Y) f ν)
    (hre : 0 < i → star (f .a (i - 1) i) = f .a (i - 1) i) :
    wp (labrdHeadU A X Y i) ν (fun _ ν' => LS (B3 A X Y) (updC f .a i i fun r => virtF i i (f .a) (f .x) (f .y) r i) ν' ∧ Fr (B3 A X Y) ν ν') := by
  have ok' := ok
  obtain ⟨fam, Am, An, Xm, Xn, Ym, Yn, hm, hn⟩ := ok
  unfold labrdHeadU
  by_cases h0 : 0 < i
  · rw [if_pos h0]
    simp only [wp_bind]
    refine wp_conseq (wp_brdColY ok' (by omega) (le_refl _) (by omega) (by omega) hf) fun _ ν1 ⟨h1, g1⟩ => ?_
    refine wp_sliceCol (by omega) (by omega) (by omega) ?_
    refine wp_slice (by omega) (by omega) (by omega) (by omega) ?_
    refine wp_sliceCol (by omega) (by omega) (by omega) ?_
    refine wp_getE (by omega) ?_
    refine wp_setE (by omega) ?_
    obtain ⟨h2, g2⟩ := LS.set fam h1 (k := .a) (r := i - 1) (c := i) (by simp [B3]; omega) (by simp [B3]; omega) 1
    refine wp_conseq (wp_gemv_F fam (k := .x) (d := ⟨.a, false, i, 0, i⟩) (e := ⟨.a, false, i, i, A.m⟩) (m := 0) (n := 0) h2 (by simp [B3]; omega) (by simp [B3]; omega)
      ⟨by simp [B3]; omega, by simp [B3]; omega⟩ ⟨by simp [B3]; omega, by simp [B3]⟩ (by simp) (by simp) (by simp) (Or.inr rfl)
      (by intro x y hx _ _ h _; simp [Vd.r] at h hx; omega) (by intro a b y _ _ _ _ _ h; simp at h)) fun _ ν3 ⟨h3, g3⟩ => ?_
    refine wp_setE (by omega) ?_
    have e0 : ν1 (A.cell (i - 1) i) = f .a (i - 1) i := by
      refine (h1 .a (i - 1) i (by simp [B3]; omega) (by simp [B3]; omega)).trans ?_
      unfold updC
      rw [if_neg (by omega)]
    rw [e0, re_star (hre h0)]
    obtain ⟨h4, g4⟩ := LS.set fam h3 (k := .a) (r := i - 1) (c := i) (by simp [B3]; omega) (by simp [B3]; omega) (f .a (i - 1) i)
    refine ⟨h4.congr fun k r c hr hc => ?_, ((g1.trans g2).trans g3).trans g4⟩
    unfold updE updC updV Vd.has Vd.idx
    simp only [Vd.at, Vd.r, Vd.c, opF]
    by_cases hh : k = .a ∧ c = i ∧ i ≤ r
    · obtain ⟨rfl, rfl, hir⟩ := hh
      have hrm : r < A.m := by simpa [B3] using hr
      simp only [hir, hrm, true_and, and_true, if_true, show ¬ (r = c - 1) by omega, and_false, if_false, false_and]
      rw [show c + (r - c) = r by omega]
      simp only [hir, if_true, show ¬ (r = c - 1) by omega, if_false]
      unfold virtF
      rw [if_neg (by omega), neg_one_mul, one_mul, add_comm, ← sub_eq_add_neg]
      refine congrArg₂ _ (congrArg₂ _ rfl ?_) ?_
      · refine Finset.sum_congr rfl fun j hj => ?_
        have := mem_range.1 hj
        rw [if_neg (by omega)]
      · refine Finset.sum_congr (by simp) fun j hj => ?_
        have := mem_range.1 hj
        simp only [Nat.zero_add]
        by_cases hj' : c = j + 1
        · simp [hj']
        · simp [hj', show ¬ (j = c - 1) by omega, show ¬ (c ≤ j) by omega]
    · rw [if_neg hh]
      by_cases h5 : k = .a ∧ r = i - 1 ∧ c = i
      · obtain ⟨rfl, rfl, rfl⟩ := h5
        rw [if_pos ⟨rfl, rfl, rfl⟩]
      · rw [if_neg h5, if_neg (by tauto), if_neg h5, if_neg hh]
  · rw [if_neg h0, wp_pure]
    obtain rfl : i = 0 := by omega
    refine ⟨hf.congr fun k r c hr hc => ?_, Fr.refl⟩
    unfold updC virtF
    by_cases h : k = .a ∧ c = 0 ∧ 0 ≤ r
    · rw [if_pos h]
      obtain ⟨rfl, rfl, _⟩ := h
      simp
    · rw [if_neg h]

theorem updR_out {f : K3 → Nat → Nat → 𝕜} {k0 k : K3} {i c0 r c : Nat} {g : Nat → 𝕜} (h : ¬ (k = k0 ∧ r = i ∧ c0 ≤ c)) :
    updR f k0 i c0 g k r c = f k r c := if_neg h
theorem updC_out {f : K3 → Nat → Nat → 𝕜} {k0 k : K3} {i r0 r c : Nat} {g : Nat → 𝕜} (h : ¬ (k = k0 ∧ c = i ∧ r0 ≤ r)) :
    updC f k0 i r0 g k r c = f k r c := if_neg h
theorem updR_in {f : K3 → Nat → Nat → 𝕜} {k0 : K3} {i c0 c : Nat} {g : Nat → 𝕜} (h : c0 ≤ c) :
    updR f k0 i c0 g k0 i c = g c := if_pos ⟨rfl, rfl, h⟩
theorem updC_in {f : K3 → Nat → Nat → 𝕜} {k0 : K3} {i r0 r : Nat} {g : Nat → 𝕜} (h : r0 ≤ r) :
    updC f k0 i r0 g k0 r i = g r := if_pos ⟨rfl, rfl, h⟩
theorem updE_out {f : K3 → Nat → Nat → 𝕜} {k0 k : K3} {r0 c0 r c : Nat} {v : 𝕜} (h : ¬ (k = k0 ∧ r = r0 ∧ c = c0)) :
    updE f k0 r0 c0 v k r c = f k r c := if_neg h
theorem updE_in {f : K3 → Nat → Nat → 𝕜} {k0 : K3} {r0 c0 : Nat} {v : 𝕜} :
    updE f k0 r0 c0 v k0 r0 c0 = v := if_pos ⟨rfl, rfl, rfl⟩

/-- Row `i` is conjugated and brought up to date, `m >= n`. -/
theorem wp_labrdRowU (ok : BpOK A X Y m n nb) {i : Nat} (hi : i < nb) (hin : i + 1 < n) (him : i < m) {f : K3 → Nat → Nat → 𝕜} {ν : Store L 𝕜} (hf : LS (B3 A X Y) f ν) :
    wp (labrdRowU A X Y i) ν (fun _ ν' => LS (B3 A X Y) (updR f .a i (i + 1) fun c => star (f .a i c) - (∑ l ∈ range (i + 1), f .y c l * star (f .a i l))
      - ∑ l ∈ range i, star (f .a l c) * star (f .x i l)) ν' ∧ Fr (B3 A X Y) ν ν') := by
  have ok' := ok
  obtain ⟨fam, Am, An, Xm, Xn, Ym, Yn, hm, hn⟩ := ok
  unfold labrdRowU
  simp only [wp_bind]
  refine wp_sliceRow (by omega) (by omega) (by omega) ?_
  refine wp_sliceRow (by omega) (by omega) (by omega) ?_
  refine wp_conseq (wp_conj_F fam (d := ⟨.a, true, i, i + 1, A.n⟩) ⟨by simp [B3]; omega, by simp [B3]⟩ hf) fun _ ν1 ⟨h1, g1⟩ => ?_
  have h1' := h1.toR (g' := fun c => star (f .a i c)) rfl (fun x hx => rfl)
  refine wp_slice (by omega) (by omega) (by omega) (by omega) ?_
  refine wp_conseq (wp_gemvConj_F fam (k := .y) (r1 := A.n) (d := ⟨.a, true, i, 0, i + 1⟩) (e := ⟨.a, true, i, i + 1, A.n⟩) h1' (by simp [B3]; omega) (by simp [B3]; omega)
    ⟨by simp [B3]; omega, by simp [B3]; omega⟩ ⟨by simp [B3]; omega, by simp [B3]⟩ (by simp) (by simp) (by simp)
    (by intro x y hx _ _ _ h; simp [Vd.c] at h hx; omega) (by intro a b y _ _ _ _ _ h; simp at h) (by intro a b y _ _ _ _ _ h; simp at h)) fun _ ν2 ⟨h2, g2⟩ => ?_
  have h2' := h2.toR (g' := fun c => star (f .a i c) - ∑ l ∈ range (i + 1), f .y c l * star (f .a i l)) rfl (fun x hx => by
    simp only [Vd.at, Vd.r, Vd.c, opF, Nat.zero_add, Nat.sub_zero]
    rw [updR_in (by omega)]
    congr 1
    refine Finset.sum_congr rfl fun l hl => ?_
    have := mem_range.1 hl
    rw [updR_out (by simp), updR_out (by omega)])
  refine wp_conseq (wp_brdRowX ok' (by omega) (by omega) (by omega) (by omega) h2') fun _ ν3 ⟨h3, g3⟩ => ⟨h3.congr fun k r c hr hc => ?_, (g1.trans g2).trans g3⟩
  by_cases hh : k = .a ∧ r = i ∧ i + 1 ≤ c
  · obtain ⟨rfl, rfl, hc0⟩ := hh
    rw [updR_in hc0, updR_in hc0, updR_in hc0]
    congr 1
    refine Finset.sum_congr rfl fun l hl => ?_
    have := mem_range.1 hl
    rw [updR_out (by omega), updR_out (by omega), updR_out (by simp), updR_out (by simp)]
  · rw [updR_out hh, updR_out hh, updR_out hh, updR_out hh]

/-- Column `i` is brought up to date, `m < n`. -/
theorem wp_labrdColL (ok : BpOK A X Y m n nb) {i : Nat} (hi : i < nb) (him : i + 1 < m) (hin : i < n) {f : K3 → Nat → Nat → 𝕜} {ν : Store L 𝕜} (hf : LS (B3 A X Y) f ν) :
    wp (labrdColL A X Y i) ν (fun _ ν' => LS (B3 A X Y) (updC f .a i (i + 1) fun r => f .a r i - (∑ l ∈ range i, f .a r l * star (f .y i l))
      - ∑ l ∈ range (i + 1), f .x r l * f .a l i) ν' ∧ Fr (B3 A X Y) ν ν') := by
  have ok' := ok
  obtain ⟨fam, Am, An, Xm, Xn, Ym, Yn, hm, hn⟩ := ok
  unfold labrdColL
  simp only [wp_bind]
  refine wp_conseq (wp_brdColY ok' (by omega) (by omega) (by omega) (by omega) hf) fun _ ν1 ⟨h1, g1⟩ => ?_
  refine wp_sliceCol (by omega) (by omega) (by omega) ?_
  refine wp_slice (by omega) (by omega) (by omega) (by omega) ?_
  refine wp_sliceCol (by omega) (by omega) (by omega) ?_
  refine wp_conseq (wp_gemv_F fam (k := .x) (r1 := A.m) (d := ⟨.a, false, i, 0, i + 1⟩) (e := ⟨.a, false, i, i + 1, A.m⟩) (m := 0) (n := 0) h1 (by simp [B3]; omega) (by simp [B3]; omega)
    ⟨by simp [B3]; omega, by simp [B3]; omega⟩ ⟨by simp [B3]; omega, by simp [B3]⟩ (by simp) (by simp) (by simp) (Or.inr rfl)
    (by intro x y hx _ _ h _; simp [Vd.r] at h hx; omega) (by intro a b y _ _ _ _ _ h; simp at h)) fun _ ν2 ⟨h2, g2⟩ => ?_
  have h2' := h2.toC (g' := fun r => f .a r i - (∑ l ∈ range i, f .a r l * star (f .y i l)) - ∑ l ∈ range (i + 1), f .x r l * f .a l i) rfl (fun x hx => by
    simp only [Vd.at, Vd.r, Vd.c, opF, Nat.zero_add, Nat.sub_zero]
    rw [updC_in (by omega), neg_one_mul, one_mul, neg_add_eq_sub]
    congr 1
    refine Finset.sum_congr rfl fun l hl => ?_
    have := mem_range.1 hl
    rw [updC_out (by simp), updC_out (by omega)])
  refine ⟨h2'.congr fun k r c hr hc => ?_, g1.trans g2⟩
  by_cases hh : k = .a ∧ c = i ∧ i + 1 ≤ r
  · obtain ⟨rfl, rfl, hc0⟩ := hh
    rw [updC_in hc0, updC_in hc0]
  · rw [updC_out hh, updC_out hh, updC_out hh]

/-- The start of a step, `m < n`. -/
theorem wp_labrdHeadL (ok : BpOK A X Y m n nb) {i : Nat} (hi : i < nb) {f : K3 → Nat → Nat → 𝕜} {ν : Store L 𝕜} (hf : LS (B3 A X Y) f ν)
    (hre : 0 < i → star (f .a i (i - 1)) = f .a i (i - 1)) :
    wp (labrdHeadL A X Y (A.rowv i i A.n) i) ν (fun _ ν' => LS (B3 A X Y) (updR f .a i i fun c => f .a i c - (∑ l ∈ range i, f .y c l * (if i = l + 1 then 1 else star (f .a i l)))
      - ∑ l ∈ range i, star (f .a l c) * star (f .x i l)) ν' ∧ Fr (B3 A X Y) ν ν') := by
  have ok' := ok
  obtain ⟨fam, Am, An, Xm, Xn, Ym, Yn, hm, hn⟩ := ok
  unfold labrdHeadL
  by_cases h0 : 0 < i
  · rw [if_pos h0]
    simp only [wp_bind]
    refine wp_slice (by omega) (by omega) (by omega) (by omega) ?_
    refine wp_sliceRow (by omega) (by omega) (by omega) ?_
    have sok : Vd.ok (B3 A X Y) ⟨.a, true, i, 0, i⟩ := ⟨by simp [B3]; omega, by simp [B3]; omega⟩
    refine wp_conseq (wp_conj_F fam (d := ⟨.a, true, i, 0, i⟩) sok hf) fun _ ν1 ⟨h1, g1⟩ => ?_
    refine wp_getE (by omega) ?_
    refine wp_setE (by omega) ?_
    have rs : ∀ (f : K3 → Nat → Nat → 𝕜) g l, l < i → updV f ⟨.a, true, i, 0, i⟩ g .a i l = g l := fun f g l hl => by
      have := updV_in (f := f) (d := ⟨.a, true, i, 0, i⟩) (g := g) (x := l) (by simpa using hl)
      simpa [Vd.r, Vd.c] using this
    have ns : ∀ (f : K3 → Nat → Nat → 𝕜) g k r c, ¬ (k = .a ∧ r = i ∧ c < i) → updV f ⟨.a, true, i, 0, i⟩ g k r c = f k r c := fun f g k r c hl =>
      updV_out (by rintro h; simp only [Vd.has] at h; exact hl (by obtain ⟨h1, h2⟩ := h; simp_all))
    have e0 : ν1 (A.cell i (i - 1)) = f .a i (i - 1) := by
      refine (h1 .a i (i - 1) (by simp [B3]; omega) (by simp [B3]; omega)).trans ?_
      rw [rs _ _ _ (by omega)]
      simp only [Vd.at, Vd.r, Vd.c, Nat.zero_add]
      exact hre h0
    obtain ⟨h2, g2⟩ := LS.set fam h1 (k := .a) (r := i) (c := i - 1) (by simp [B3]; omega) (by simp [B3]; omega) 1
    refine wp_conseq (wp_gemv_F fam (k := .y) (r1 := A.n) (d := ⟨.a, true, i, 0, i⟩) (e := ⟨.a, true, i, i, A.n⟩) (m := 0) (n := 0) h2 (by simp [B3]; omega) (by simp [B3]; omega)
      sok ⟨by simp [B3]; omega, by simp [B3]⟩ (by simp) (by simp) (by simp) (Or.inr rfl)
      (by intro x y hx _ _ _ h; simp [Vd.c] at h hx; omega) (by intro a b y _ _ _ _ _ h; simp at h)) fun _ ν3 ⟨h3, g3⟩ => ?_
    have h3' := h3.toR (g' := fun c => f .a i c - ∑ l ∈ range i, f .y c l * (if i = l + 1 then 1 else star (f .a i l))) rfl (fun x hx => by
      simp only [Vd.at, Vd.r, Vd.c, opF, Nat.zero_add, Nat.sub_zero]
      rw [updE_out (by omega), ns _ _ _ _ _ (by omega), neg_one_mul, one_mul, neg_add_eq_sub]
      congr 1
      refine Finset.sum_congr rfl fun l hl => ?_
      have := mem_range.1 hl
      rw [updE_out (by simp), ns _ _ _ _ _ (by simp)]
      congr 1
      by_cases e : i = l + 1
      · rw [if_pos e, show l = i - 1 by omega, updE_in]
      · rw [if_neg e, updE_out (by omega), rs _ _ _ this])
    refine wp_setE (by omega) ?_
    rw [e0, re_star (hre h0)]
    obtain ⟨h4, g4⟩ := LS.set fam h3' (k := .a) (r := i) (c := i - 1) (by simp [B3]; omega) (by simp [B3]; omega) (f .a i (i - 1))
    refine wp_conseq (wp_conj_F fam (d := ⟨.a, true, i, 0, i⟩) sok h4) fun _ ν5 ⟨h5, g5⟩ => ?_
    have h5' : LS (B3 A X Y) (updR f .a i i fun c => f .a i c - ∑ l ∈ range i, f .y c l * (if i = l + 1 then 1 else star (f .a i l))) ν5 := by
      refine h5.congr fun k r c hr hc => ?_
      by_cases hh : k = .a ∧ r = i ∧ c < i
      · obtain ⟨rfl, rfl, hc'⟩ := hh
        rw [rs _ _ _ hc', updR_out (by omega)]
        simp only [Vd.at, Vd.r, Vd.c, Nat.zero_add]
        by_cases e : c = r - 1
        · subst e; rw [updE_in, hre h0]
        · rw [updE_out (by omega), updR_out (by omega), updE_out (by omega), rs _ _ _ hc', star_star]
      · rw [ns _ _ _ _ _ hh, updE_out (by rintro ⟨h1, h2, h3⟩; exact hh ⟨h1, h2, by omega⟩)]
        by_cases hh' : k = .a ∧ r = i ∧ i ≤ c
        · obtain ⟨rfl, rfl, hc0⟩ := hh'
          rw [updR_in hc0, updR_in hc0]
        · rw [updR_out hh', updR_out hh', updE_out (by rintro ⟨h1, h2, h3⟩; exact hh ⟨h1, h2, by omega⟩), ns _ _ _ _ _ hh]
    refine wp_conseq (wp_brdRowX ok' (by omega) (by omega) (by omega) (by omega) h5') fun _ ν6 ⟨h6, g6⟩ =>
      ⟨h6.congr fun k r c hr hc => ?_, ((((g1.trans g2).trans g3).trans g4).trans g5).trans g6⟩
    by_cases hh : k = .a ∧ r = i ∧ i ≤ c
    · obtain ⟨rfl, rfl, hc0⟩ := hh
      rw [updR_in hc0, updR_in hc0, updR_in hc0]
      congr 1
      refine Finset.sum_congr rfl fun l hl => ?_
      have := mem_range.1 hl
      rw [updR_out (by omega), updR_out (by simp)]
    · rw [updR_out hh, updR_out hh, updR_out hh]
  · rw [if_neg h0, wp_pure]
    obtain rfl : i = 0 := by omega
    refine ⟨hf.congr fun k r c hr hc => ?_, Fr.refl⟩
    by_cases hh : k = .a ∧ r = 0 ∧ 0 ≤ c
    · obtain ⟨rfl, rfl, hc0⟩ := hh
      rw [updR_in hc0]; simp
    · rw [updR_out hh]

end TLA
