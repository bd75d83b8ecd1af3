import Verif.Proofs.PbtrfOps

set_option linter.unusedTactic false
set_option linter.unreachableTactic false
set_option linter.unusedVariables false
set_option linter.unusedSectionVars false

/-! The steps of pbtrf. -/

namespace TLA
variable {L 𝕜 : Type} [DecidableEq L] [RCLike 𝕜]
open Finset

/-- The part inside the band. -/
def bd (kd : Nat) (r : Nat → Nat → 𝕜) (i c : Nat) : 𝕜 := if c ≤ i + kd then r i c else 0

theorem bd_in {kd : Nat} {r : Nat → Nat → 𝕜} {i c : Nat} (h : c ≤ i + kd) : bd kd r i c = r i c := if_pos h
theorem bd_out {kd : Nat} {r : Nat → Nat → 𝕜} {i c : Nat} (h : i + kd < c) : bd kd r i c = 0 := if_neg (by omega)

theorem rcell_rsub {uplo : Uplo} (hu : uplo = .Upper ∨ uplo = .Lower) (A : MatV L) (a b c d i j : Nat) :
    rcell uplo (rsub uplo A a b c d) i j = rcell uplo A (a + i) (c + j) := by
  rcases hu with rfl | rfl <;> rfl

theorem rsub_diag {uplo : Uplo} (A : MatV L) (p q : Nat) : rsub uplo A p q p q = A.sub p q p q := by
  unfold rsub; split <;> rfl

theorem rsub_inj {uplo : Uplo} {A : MatV L} {n : Nat} (hA : A.Inj) (hm : A.m = n) (hn : A.n = n) {a b c d : Nat}
    (hb : b ≤ n) (hd : d ≤ n) : (rsub uplo A a b c d).Inj := by
  unfold rsub
  split
  · exact hA.sub (by omega) (by omega)
  · exact hA.sub (by omega) (by omega)

theorem rsub_disj {uplo : Uplo} {A : MatV L} {n : Nat} (hA : A.Inj) (hm : A.m = n) (hn : A.n = n) {a b c d a' b' c' d' : Nat}
    (hb : b ≤ n) (hd : d ≤ n) (hb' : b' ≤ n) (hd' : d' ≤ n) (h : b ≤ a' ∨ b' ≤ a ∨ d ≤ c' ∨ d' ≤ c) :
    (rsub uplo A a b c d).Disj (rsub uplo A a' b' c' d') := by
  unfold rsub
  split
  · exact hA.disj_sub (by omega) (by omega) (by omega) (by omega) (by omega)
  · exact hA.disj_sub (by omega) (by omega) (by omega) (by omega) (by omega)

theorem rsub_disj2 {uplo : Uplo} {A W : MatV L} {n w : Nat} (h : A.Disj W) (hm : A.m = n) (hn : A.n = n) (hw : W.m = w)
    (hw' : W.n = w) {a b c d a' b' c' d' : Nat}
    (hb : b ≤ n) (hd : d ≤ n) (hb' : b' ≤ w) (hd' : d' ≤ w) :
    (rsub uplo A a b c d).Disj (rsub uplo W a' b' c' d') := by
  unfold rsub
  split
  · exact (h.sub_left (by omega) (by omega)).sub_right (by omega) (by omega)
  · exact (h.sub_left (by omega) (by omega)).sub_right (by omega) (by omega)

theorem rsub_only {uplo : Uplo} {A : MatV L} {n : Nat} {μ ν : Store L 𝕜} (hm : A.m = n) (hn : A.n = n) {a b c d : Nat}
    (hb : b ≤ n) (hd : d ≤ n) (h : Only (rsub uplo A a b c d) μ ν) : Only A μ ν := by
  unfold rsub at h
  split at h
  · exact h.sub (by omega) (by omega)
  · exact h.sub (by omega) (by omega)

theorem rowsF_disj {uplo : Uplo} {X Y : MatV L} {w : Nat} {μ ν : Store L 𝕜} (h : Only Y μ ν) (hd : X.Disj Y)
    (hm : X.m = w) (hn : X.n = w) {i j : Nat} (hi : i < w) (hj : j < w) :
    rowsF uplo (entry ν X) i j = rowsF uplo (entry μ X) i j :=
  rowsF_congr (h _ (hd _ _ (by omega) (by omega))) (h _ (hd _ _ (by omega) (by omega)))

theorem rowsF_ne {uplo : Uplo} {g : Nat → Nat → 𝕜} {i : Nat} (h : g i i ≠ 0) : rowsF uplo g i i ≠ 0 := by
  unfold rowsF
  split
  · exact fun h0 => h (star_eq_zero.1 h0)
  · exact h

theorem only_tri {uplo : Uplo} {A : MatV L} {n : Nat} {μ ν : Store L 𝕜} (hm : A.m = n) (hn : A.n = n) {p q : Nat} (hq : q ≤ n)
    (h : SameOff (A.sub p q p q) uplo μ ν) : Only A μ ν := h.only.sub (by omega) (by omega)

/-! ### the panel inside the band -/

theorem wp_pbMidOps {uplo : Uplo} (hu : uplo = .Upper ∨ uplo = .Lower) {A W : MatV L} {n kd j0 j1 c1 : Nat}
    (hA : A.Inj) (hm : A.m = n) (hn : A.n = n) (h01 : j0 ≤ j1) (h11 : j1 ≤ c1) (h1n : c1 ≤ n) (hk : c1 ≤ j0 + kd)
    {μ : Store L 𝕜} (hd : ∀ i, i < j1 - j0 → entry μ A (j0 + i) (j0 + i) ≠ 0) :
    wp (do opSolve uplo (A.sub j0 j1 j0 j1) (rsub uplo A j0 j1 j1 c1); opHerk uplo (rsub uplo A j0 j1 j1 c1) (A.sub j1 c1 j1 c1)) μ
      (fun _ ν => Only A μ ν ∧ BandOff uplo A W n kd μ ν ∧
      (∀ i c, i ≤ c → c < n → (i < j0 ∨ c < j1 ∨ c1 ≤ c) → rowsF uplo (entry ν A) i c = rowsF uplo (entry μ A) i c) ∧
      (∀ i c, i < j1 - j0 → c < c1 - j1 →
        ∑ l ∈ range (i + 1), star (rowsF uplo (entry μ A) (j0 + l) (j0 + i)) *
          rowsF uplo (entry ν A) (j0 + l) (j1 + c) = rowsF uplo (entry μ A) (j0 + i) (j1 + c)) ∧
      (∀ i c, j1 ≤ i → i ≤ c → c < c1 →
        hermF uplo (entry ν A) i c = hermF uplo (entry μ A) i c -
          ∑ l ∈ range (j1 - j0), star (rowsF uplo (entry ν A) (j0 + l) i) * rowsF uplo (entry ν A) (j0 + l) c)) := by
  simp only [wp_bind]
  refine wp_conseq (wp_opSolve hu (ib := j1 - j0) (q := c1 - j1) rfl rfl (rdim_rsub hu ..)
    (rsub_inj hA hm hn (by omega) (by omega)) ?_ hd) ?_
  · rw [← rsub_diag (uplo := uplo)]
    exact rsub_disj hA hm hn (by omega) (by omega) (by omega) (by omega) (by omega)
  rintro _ ν1 ⟨o1, e1⟩
  refine wp_conseq (wp_opHerk hu (ib := j1 - j0) (q := c1 - j1) (rdim_rsub hu ..) rfl rfl
    (hA.sub (by omega) (by omega)) ?_) ?_
  · rw [← rsub_diag (uplo := uplo)]
    exact rsub_disj hA hm hn (by omega) (by omega) (by omega) (by omega) (by omega)
  rintro _ ν2 ⟨o2, e2⟩
  have c1' : ∀ i c, i < n → c < n → (i < j0 ∨ j1 ≤ i ∨ c < j1 ∨ c1 ≤ c) → rowsF uplo (entry ν1 A) i c = rowsF uplo (entry μ A) i c :=
    fun i c hi hc ho => rowsF_out hu hA hm hn o1 (by omega) (by omega) hi hc ho
  have c2' : ∀ i c, i < n → c < n → (i < j1 ∨ c1 ≤ i ∨ c < j1 ∨ c1 ≤ c) → rowsF uplo (entry ν2 A) i c = rowsF uplo (entry ν1 A) i c :=
    fun i c hi hc ho => rowsF_outT hu hA hm hn o2 (by omega) hi hc ho
  refine ⟨(rsub_only hm hn (by omega) (by omega) o1).trans (only_tri hm hn (by omega) o2),
    (bandOff_rsub hu o1 (by omega) (by omega) (by omega)).trans (bandOff_tri hu o2 (by omega) (by omega)),
    fun i c hic hc ho => ?_, fun i c hi hc => ?_, fun i c h1 hic hc => ?_⟩
  · rw [c2' i c (by omega) hc (by omega), c1' i c (by omega) hc (by omega)]
  · have := e1 i c hi hc
    simp only [rowsF_sub', rowsF_rsub hu] at this
    refine Eq.trans (Finset.sum_congr rfl fun l hl => ?_) this
    have := Finset.mem_range.1 hl
    rw [c2' _ _ (by omega) (by omega) (by omega)]
  · have := e2 (i - j1) (c - j1) (by omega) (by omega)
    simp only [rowsF_rsub hu, hermF_sub uplo hu] at this
    rw [show j1 + (i - j1) = i by omega, show j1 + (c - j1) = c by omega] at this
    rw [this]
    congr 1
    · rw [hermF_rows hu _ hic, hermF_rows hu _ hic, c1' i c (by omega) (by omega) (by omega),
        c1' i i (by omega) (by omega) (by omega)]
    · refine Finset.sum_congr rfl fun l hl => ?_
      have := Finset.mem_range.1 hl
      rw [c2' _ _ (by omega) (by omega) (by omega), c2' _ _ (by omega) (by omega) (by omega)]

/-! ### the corner of the band -/

/-- `W` is zero above its diagonal, in row coordinates. -/
def WZero (uplo : Uplo) (W : MatV L) (w : Nat) (μ : Store L 𝕜) : Prop :=
  ∀ l c, l < c → c < w → rowsF uplo (entry μ W) l c = 0

set_option maxHeartbeats 1000000 in
theorem wp_pbTailOps {uplo : Uplo} (hu : uplo = .Upper ∨ uplo = .Lower) {A W : MatV L} {n w kd j0 j1 j2 j3 ib i3 : Nat}
    (hA : A.Inj) (hm : A.m = n) (hn : A.n = n) (hW : W.Inj) (hwm : W.m = w) (hwn : W.n = w) (hAW : A.Disj W) (hWA : W.Disj A)
    (h1 : j1 = j0 + ib) (h2 : j2 = j0 + kd) (h3 : j3 = j2 + i3) (hib : ib ≤ kd) (hi3 : i3 ≤ ib) (hibw : ib ≤ w) (h3n : j3 ≤ n)
    {μ : Store L 𝕜} (hd : ∀ i, i < ib → entry μ A (j0 + i) (j0 + i) ≠ 0) (hz : WZero uplo W w μ) :
    wp (do
      pbCopy uplo ib i3 (rsub uplo A j0 j1 j2 j3) (rsub uplo W 0 ib 0 i3)
      opSolve uplo (A.sub j0 j1 j0 j1) (rsub uplo W 0 ib 0 i3)
      opGemm uplo (rsub uplo A j0 j1 j1 j2) (rsub uplo W 0 ib 0 i3) (rsub uplo A j1 j2 j2 j3)
      opHerk uplo (rsub uplo W 0 ib 0 i3) (A.sub j2 j3 j2 j3)
      pbCopy uplo ib i3 (rsub uplo W 0 ib 0 i3) (rsub uplo A j0 j1 j2 j3)) μ
      (fun _ ν => WZero uplo W w ν ∧ BandOff uplo A W n kd μ ν ∧
      (∀ i c, i ≤ c → c < n → (i < j0 ∨ c < j2 ∨ j3 ≤ c) → rowsF uplo (entry ν A) i c = rowsF uplo (entry μ A) i c) ∧
      (∀ i c, i < ib → c < i3 →
        ∑ l ∈ range (i + 1), star (rowsF uplo (entry μ A) (j0 + l) (j0 + i)) *
          bd kd (rowsF uplo (entry ν A)) (j0 + l) (j2 + c) = bd kd (rowsF uplo (entry μ A)) (j0 + i) (j2 + c)) ∧
      (∀ i c, j1 ≤ i → i ≤ c → j2 ≤ c → c < j3 →
        hermF uplo (entry ν A) i c = hermF uplo (entry μ A) i c -
          ∑ l ∈ range ib, star (bd kd (rowsF uplo (entry ν A)) (j0 + l) i) * bd kd (rowsF uplo (entry ν A)) (j0 + l) c)) := by
  have e10 : j1 - j0 = ib := by omega
  have e32 : j3 - j2 = i3 := by omega
  have dW : RDim uplo (rsub uplo W 0 ib 0 i3) ib i3 := by
    have := rdim_rsub hu W 0 ib 0 i3
    simpa using this
  have d02 : RDim uplo (rsub uplo A j0 j1 j2 j3) ib i3 := by
    have := rdim_rsub hu A j0 j1 j2 j3
    rwa [e10, e32] at this
  have iW : (rsub uplo W 0 ib 0 i3).Inj := rsub_inj hW hwm hwn (by omega) (by omega)
  have hAW' : ∀ a b c d, b ≤ n → d ≤ n → (rsub uplo A a b c d).Disj (rsub uplo W 0 ib 0 i3) := fun a b c d hb hd =>
    rsub_disj2 hAW hm hn hwm hwn hb hd (by omega) (by omega)
  have hWA' : ∀ a b c d, b ≤ n → d ≤ n → (rsub uplo W 0 ib 0 i3).Disj (rsub uplo A a b c d) := fun a b c d hb hd =>
    rsub_disj2 hWA hwm hwn hm hn (by omega) (by omega) hb hd
  simp only [wp_bind]
  refine wp_conseq (wp_pbCopy hu d02 dW iW (hAW' _ _ _ _ (by omega) (by omega))) ?_
  rintro _ νa ⟨oa0, ea⟩
  have oa : Only (rsub uplo W 0 ib 0 i3) μ νa := fun x hx => oa0 x fun l c hl hc _ e => hx (by
    obtain ⟨q1, q2⟩ := dW
    rcases hu with rfl | rfl
    · exact ⟨l, c, hl, hc, e⟩
    · exact ⟨c, l, hc, hl, e⟩)
  have oaW : Only W μ νa := rsub_only hwm hwn (by omega) (by omega) oa
  refine wp_conseq (wp_opSolve hu (ib := ib) (q := i3) e10 e10 dW iW ?_ ?_) ?_
  · rw [← rsub_diag (uplo := uplo)]
    exact hAW' _ _ _ _ (by omega) (by omega)
  · intro i hi
    have : entry νa A (j0 + i) (j0 + i) = entry μ A (j0 + i) (j0 + i) := oaW _ (hAW _ _ (by omega) (by omega))
    have h' := hd i hi
    rw [← this] at h'
    exact h'
  rintro _ νb ⟨ob, eb⟩
  have obW : Only W νa νb := rsub_only hwm hwn (by omega) (by omega) ob
  refine wp_conseq (wp_opGemm hu (ib := ib) (p := j2 - j1) (q := i3) (P := rsub uplo A j0 j1 j1 j2) (C := rsub uplo A j1 j2 j2 j3) ?_ dW ?_
    (rsub_inj hA hm hn (by omega) (by omega))
    (rsub_disj hA hm hn (by omega) (by omega) (by omega) (by omega) (by omega)) (hWA' _ _ _ _ (by omega) (by omega))) ?_
  · have := rdim_rsub hu A j0 j1 j1 j2
    rwa [e10] at this
  · have := rdim_rsub hu A j1 j2 j2 j3
    rwa [e32] at this
  rintro _ νc ⟨oc, ec⟩
  have ocA : Only A νb νc := rsub_only hm hn (by omega) (by omega) oc
  refine wp_conseq (wp_opHerk hu (ib := ib) (q := i3) (C := A.sub j2 j3 j2 j3) dW e32 e32 (hA.sub (by omega) (by omega)) ?_) ?_
  · rw [← rsub_diag (uplo := uplo)]
    exact hWA' _ _ _ _ (by omega) (by omega)
  rintro _ νd ⟨od, ed⟩
  have odA : Only A νc νd := only_tri hm hn (by omega) od
  refine wp_conseq (wp_pbCopy hu dW d02 (rsub_inj hA hm hn (by omega) (by omega)) (hWA' _ _ _ _ (by omega) (by omega))) ?_
  rintro _ νe ⟨oe0, ee⟩
  have oe : Only (rsub uplo A j0 j1 j2 j3) νd νe := fun x hx => oe0 x fun l c hl hc _ e => hx (by
    obtain ⟨q1, q2⟩ := d02
    rcases hu with rfl | rfl
    · exact ⟨l, c, by rw [show (rsub .Upper A j0 j1 j2 j3).m = ib from q1]; exact hl, by rw [show (rsub .Upper A j0 j1 j2 j3).n = i3 from q2]; exact hc, e⟩
    · exact ⟨c, l, by rw [show (rsub .Lower A j0 j1 j2 j3).m = i3 from q2]; exact hc, by rw [show (rsub .Lower A j0 j1 j2 j3).n = ib from q1]; exact hl, e⟩)
  have oeA : Only A νd νe := rsub_only hm hn (by omega) (by omega) oe
  -- entries of `A`
  have kA : ∀ i c, i < n → c < n → rowsF uplo (entry νb A) i c = rowsF uplo (entry μ A) i c := fun i c hi hc =>
    (rowsF_disj obW hAW hm hn hi hc |>.trans (rowsF_disj oaW hAW hm hn hi hc) : _) |> fun h => by
      exact h
  have kc : ∀ i c, i < n → c < n → (i < j1 ∨ j2 ≤ i ∨ c < j2 ∨ j3 ≤ c) → rowsF uplo (entry νc A) i c = rowsF uplo (entry μ A) i c :=
    fun i c hi hc ho => (rowsF_out hu hA hm hn oc (by omega) (by omega) hi hc ho).trans (kA i c hi hc)
  have kd' : ∀ i c, i < n → c < n → (i < j2 ∨ j3 ≤ i ∨ c < j2 ∨ j3 ≤ c) → rowsF uplo (entry νd A) i c = rowsF uplo (entry νc A) i c :=
    fun i c hi hc ho => rowsF_outT hu hA hm hn od (by omega) hi hc ho
  have ke : ∀ i c, i < n → c < n → (i < j0 ∨ j1 ≤ i ∨ c < j2 ∨ j3 ≤ c) → rowsF uplo (entry νe A) i c = rowsF uplo (entry νd A) i c :=
    fun i c hi hc ho => rowsF_out hu hA hm hn oe (by omega) (by omega) hi hc ho
  -- entries of `W`
  have wE : ∀ l c, l < w → c < w → rowsF uplo (entry νe W) l c = rowsF uplo (entry νb W) l c := fun l c hl hc =>
    (rowsF_disj oeA hWA hwm hwn hl hc).trans ((rowsF_disj odA hWA hwm hwn hl hc).trans (rowsF_disj ocA hWA hwm hwn hl hc))
  have wD : ∀ l c, l < w → c < w → rowsF uplo (entry νd W) l c = rowsF uplo (entry νb W) l c := fun l c hl hc =>
    (rowsF_disj odA hWA hwm hwn hl hc).trans (rowsF_disj ocA hWA hwm hwn hl hc)
  have wC : ∀ l c, l < w → c < w → rowsF uplo (entry νc W) l c = rowsF uplo (entry νb W) l c := fun l c hl hc =>
    rowsF_disj ocA hWA hwm hwn hl hc
  have wa : ∀ l c, l < ib → c < i3 → rowsF uplo (entry νa W) l c = bd kd (rowsF uplo (entry μ A)) (j0 + l) (j2 + c) := by
    intro l c hl hc
    have := ea l c hl hc
    simp only [rowsF_rsub hu, zero_add] at this
    rw [this]
    by_cases h : c ≤ l
    · rw [if_pos h, bd_in (by omega)]
    · rw [if_neg h, bd_out (by omega), hz l c (by omega) (by omega)]
  have wb : ∀ i c, i < ib → c < i3 → ∑ l ∈ range (i + 1), star (rowsF uplo (entry μ A) (j0 + l) (j0 + i)) *
      rowsF uplo (entry νb W) l c = bd kd (rowsF uplo (entry μ A)) (j0 + i) (j2 + c) := by
    intro i c hi hc
    have := eb i c hi hc
    simp only [rowsF_rsub hu, rowsF_sub', zero_add] at this
    rw [wa i c hi hc] at this
    refine Eq.trans (Finset.sum_congr rfl fun l hl => ?_) this
    have := Finset.mem_range.1 hl
    rw [rowsF_disj oaW hAW hm hn (by omega) (by omega)]
  have wz : ∀ l c, l < c → l < ib → c < i3 → rowsF uplo (entry νb W) l c = 0 := by
    intro l
    induction l using Nat.strong_induction_on with
    | _ l ih =>
      intro c hlc hl hc
      have := wb l c hl hc
      rw [bd_out (by omega), Finset.sum_range_succ, Finset.sum_eq_zero, zero_add] at this
      · rcases mul_eq_zero.1 this with h | h
        · exact absurd (star_eq_zero.1 h) (rowsF_ne (hd l hl))
        · exact h
      · intro k hk
        have hk := Finset.mem_range.1 hk
        rw [ih k hk c (by omega) (by omega) hc, mul_zero]
  have key : ∀ l c, l < ib → c < i3 → bd kd (rowsF uplo (entry νe A)) (j0 + l) (j2 + c) = rowsF uplo (entry νb W) l c := by
    intro l c hl hc
    by_cases h : c ≤ l
    · have := ee l c hl hc
      rw [if_pos h] at this
      simp only [rowsF_rsub hu, zero_add] at this
      rw [bd_in (by omega), this, wD l c (by omega) (by omega)]
    · rw [bd_out (by omega), wz l c (by omega) hl hc]
  refine ⟨fun l c hlc hc => ?_, ?_, fun i c hic hc ho => ?_, fun i c hi hc => ?_, fun i c hi hic hc hc' => ?_⟩
  · rw [wE l c (by omega) hc]
    by_cases h : l < ib ∧ c < i3
    · exact wz l c hlc h.1 h.2
    · rw [rowsF_out hu hW hwm hwn ob (by omega) (by omega) (by omega) hc (by omega),
        rowsF_out hu hW hwm hwn oa (by omega) (by omega) (by omega) hc (by omega)]
      exact hz l c hlc hc
  · refine (bandOff_only oaW).trans ((bandOff_only obW).trans ((bandOff_rsub hu oc (by omega) (by omega) (by omega)).trans
      ((bandOff_tri hu od (by omega) (by omega)).trans ?_)))
    intro x _ hx
    refine oe0 x fun l c hl hc hcl e => ?_
    rw [rcell_rsub hu] at e
    exact hx _ _ (by omega) (by omega) (by omega) e
  · rw [ke i c (by omega) hc (by omega), kd' i c (by omega) hc (by omega), kc i c (by omega) hc (by omega)]
  · rw [← wb i c hi hc]
    refine Finset.sum_congr rfl fun l hl => ?_
    have := Finset.mem_range.1 hl
    rw [key l c (by omega) hc]
  · have hs : ∀ l, l < ib → bd kd (rowsF uplo (entry νe A)) (j0 + l) c = rowsF uplo (entry νb W) l (c - j2) := fun l hl => by
      have := key l (c - j2) hl (by omega)
      rwa [show j2 + (c - j2) = c by omega] at this
    by_cases hi2 : i < j2
    · have := ec (i - j1) (c - j2) (by omega) (by omega)
      simp only [rowsF_rsub hu, zero_add] at this
      rw [show j1 + (i - j1) = i by omega, show j2 + (c - j2) = c by omega] at this
      rw [hermF_rows hu _ hic, hermF_rows hu _ hic, if_neg (by omega), if_neg (by omega),
        ke i c (by omega) (by omega) (by omega), kd' i c (by omega) (by omega) (by omega), this, kA i c (by omega) (by omega)]
      congr 1
      refine Finset.sum_congr rfl fun l hl => ?_
      have hl := Finset.mem_range.1 hl
      rw [hs l hl, bd_in (by omega), ke _ _ (by omega) (by omega) (by omega), kd' _ _ (by omega) (by omega) (by omega),
        kc _ _ (by omega) (by omega) (by omega), kA _ _ (by omega) (by omega)]
    · have hs' : ∀ l, l < ib → bd kd (rowsF uplo (entry νe A)) (j0 + l) i = rowsF uplo (entry νb W) l (i - j2) := fun l hl => by
        have := key l (i - j2) hl (by omega)
        rwa [show j2 + (i - j2) = i by omega] at this
      have := ed (i - j2) (c - j2) (by omega) (by omega)
      simp only [rowsF_rsub hu, hermF_sub uplo hu, zero_add] at this
      rw [show j2 + (i - j2) = i by omega, show j2 + (c - j2) = c by omega] at this
      have ht : hermF uplo (entry νe A) i c = hermF uplo (entry νd A) i c := by
        rw [hermF_rows hu _ hic, hermF_rows hu _ hic, ke i c (by omega) (by omega) (by omega), ke i i (by omega) (by omega) (by omega)]
      have ht' : hermF uplo (entry νc A) i c = hermF uplo (entry μ A) i c := by
        rw [hermF_rows hu _ hic, hermF_rows hu _ hic, kc i c (by omega) (by omega) (by omega), kc i i (by omega) (by omega) (by omega)]
      rw [ht, this, ht']
      congr 1
      refine Finset.sum_congr rfl fun l hl => ?_
      have hl := Finset.mem_range.1 hl
      rw [hs l hl, hs' l hl, wC _ _ (by omega) (by omega), wC _ _ (by omega) (by omega)]

end TLA
