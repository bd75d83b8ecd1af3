import Verif.Proofs.TwoSide

/-! gehd2 in exact arithmetic. -/

set_option linter.unusedSectionVars false
set_option linter.unusedTactic false
set_option linter.unreachableTactic false

namespace TLA
open Finset
variable {L 𝕜 : Type} [DecidableEq L] [RCLike 𝕜] [DecidableEq 𝕜] {p : HhPar}

/-- Entries reduced to zero after the steps below `s`. -/
def hz (ilo ihi s : Nat) (G : Nat → Nat → 𝕜) : Nat → Nat → 𝕜 := fun r c =>
  if (ilo ≤ c ∧ c < s) ∧ c + 1 < r ∧ r < ihi then 0 else G r c

theorem hz_in {ilo ihi s : Nat} {G : Nat → Nat → 𝕜} {r c : Nat} (h : (ilo ≤ c ∧ c < s) ∧ c + 1 < r ∧ r < ihi) :
    hz ilo ihi s G r c = 0 := if_pos h
theorem hz_out {ilo ihi s : Nat} {G : Nat → Nat → 𝕜} {r c : Nat} (h : ¬ ((ilo ≤ c ∧ c < s) ∧ c + 1 < r ∧ r < ihi)) :
    hz ilo ihi s G r c = G r c := if_neg h

/-- The shape gehd2 expects outside the active block. -/
structure HessShape (n ilo ihi : Nat) (G : Nat → Nat → 𝕜) : Prop where
  lo : ∀ r c, r < n → c < ilo → c + 1 < r → G r c = 0
  hi : ∀ r c, r < n → ihi ≤ r → c < ihi → G r c = 0

structure HessInv (n ilo ihi : Nat) (A0 : Nat → Nat → 𝕜) (s : Nat) (G : Nat → Nat → 𝕜) (g : Nat → 𝕜) : Prop where
  prod : mat n n A0 = reflProd n ilo (s - ilo) g (reflCol 1 ihi G) * mat n n (hz ilo ihi s G) *
    (reflProd n ilo (s - ilo) g (reflCol 1 ihi G)).conjTranspose
  unit : ∀ i, ilo ≤ i → i < s → (mat n n (reflF (g i) (reflCol 1 ihi G i))).conjTranspose *
    mat n n (reflF (g i) (reflCol 1 ihi G i)) = 1
  real : ∀ i, ilo ≤ i → i < s → star (G (i + 1) i) = G (i + 1) i
  shape : HessShape n ilo ihi G
  same : ∀ r c, r < n → c < n → c < ilo ∨ ihi ≤ r → G r c = A0 r c

theorem reflCol_colU {off hi j : Nat} {G : Nat → Nat → 𝕜} (r : Nat) :
    colU (j + off) (j + off) hi j G r = reflCol off hi G j r := by
  unfold colU reflCol
  by_cases h : r = j + off
  · rw [if_pos h, if_pos h]
  · rw [if_neg h, if_neg h]
    by_cases h' : j + off < r ∧ r < hi
    · rw [if_pos (by omega), if_pos h']
    · rw [if_neg (by omega), if_neg h']

theorem reflCol_out {off hi j r : Nat} {G : Nat → Nat → 𝕜} (h : r < j + off ∨ hi ≤ r) (hne : r ≠ j + off) :
    reflCol off hi G j r = 0 := by
  unfold reflCol
  rw [if_neg hne, if_neg (by omega)]

theorem HessInv.step {n ilo ihi s : Nat} {A0 G0 G1 G2 G3 : Nat → Nat → 𝕜} {g g' : Nat → 𝕜} {t : 𝕜}
    (h : HessInv n ilo ihi A0 s G0 g) (hlo : ilo ≤ s) (hs : s + 1 < ihi) (hn : ihi ≤ n)
    (cs : ColStep n n (s + 1) (s + 1) ihi s 0 0 t G0 G1)
    (e2 : ∀ r c, r < n → c < n → G2 r c = if 0 ≤ r ∧ r < ihi then applyR n t (reflCol 1 ihi G1 s) G1 r c else G1 r c)
    (e3 : ∀ r c, r < n → c < n → G3 r c = if s + 1 ≤ c ∧ c < n then applyL n (star t) (reflCol 1 ihi G1 s) G2 r c else G2 r c)
    (hg : ∀ i, i < s → g' i = g i) (ht : g' s = t) :
    HessInv n ilo ihi A0 (s + 1) G3 g' := by
  obtain ⟨u, hu⟩ : ∃ u, u = reflCol 1 ihi G1 s := ⟨_, rfl⟩
  rw [← hu] at e2 e3
  have ucol : ∀ r, colU (s + 1) (s + 1) ihi s G1 r = u r := fun r => by rw [hu]; exact reflCol_colU r
  have uout : ∀ r, r < s + 1 ∨ ihi ≤ r → u r = 0 := fun r hr => by
    rw [hu]; exact reflCol_out (by omega) (by omega)
  have h1 : ∀ r c, r < n → c < n → ¬ ((s + 1 ≤ r ∧ r < ihi) ∧ c = s) → G1 r c = G0 r c := fun r c hr hc hh =>
    cs.same r c hr hc (by omega)
  -- columns up to `s` are not touched by the applications
  have h2 : ∀ r c, r < n → c < n → c < s + 1 ∨ ihi ≤ c ∨ ihi ≤ r → G2 r c = G1 r c := by
    intro r c hr hc hh
    rw [e2 r c hr hc]
    split
    · unfold applyR
      rw [uout c (by omega), star_zero, mul_zero, sub_zero]
    · rfl
  have h3 : ∀ r c, r < n → c < n → c < s + 1 ∨ r < s + 1 ∨ ihi ≤ r → G3 r c = G2 r c := by
    intro r c hr hc hh
    rw [e3 r c hr hc]
    split
    · unfold applyL
      rw [uout r (by omega), mul_zero, zero_mul, sub_zero]
    · rfl
  have h31 : ∀ r c, r < n → c < n → c < s + 1 → G3 r c = G1 r c := fun r c hr hc hh =>
    (h3 r c hr hc (by omega)).trans (h2 r c hr hc (by omega))
  have h30 : ∀ r c, r < n → c < n → c < s → G3 r c = G0 r c := fun r c hr hc hh =>
    (h31 r c hr hc (by omega)).trans (h1 r c hr hc (by omega))
  have h3r : ∀ r c, r < n → c < n → ihi ≤ r → G3 r c = G0 r c := fun r c hr hc hh =>
    ((h3 r c hr hc (by omega)).trans (h2 r c hr hc (by omega))).trans (h1 r c hr hc (by omega))
  have hold : ∀ i, i < s → ∀ r, r < n → reflCol 1 ihi G3 i r = reflCol 1 ihi G0 i r := by
    intro i hi r hr
    unfold reflCol
    rw [h30 r i hr (by omega) hi]
  have hnew : ∀ r, r < n → reflCol 1 ihi G3 s r = u r := by
    intro r hr
    rw [hu]
    unfold reflCol
    rw [h31 r s hr (by omega) (by omega)]
  have hH : mat n n (reflF (g' s) (reflCol 1 ihi G3 s)) = mat n n (reflF t u) := by
    rw [ht, mat_ext_iff]
    intro r c hr hc
    unfold reflF
    rw [hnew r hr, hnew c hc]
  have hunit : (mat n n (reflF t u)).conjTranspose * mat n n (reflF t u) = 1 := by
    refine refl_unitary ?_
    rw [← cs.unit]
    congr 1
    exact Finset.sum_congr rfl fun r _ => by rw [ucol r]
  have hunit' : mat n n (reflF t u) * (mat n n (reflF t u)).conjTranspose = 1 := mul_eq_one_comm.1 hunit
  -- the two-sided update
  have key : mat n n (hz ilo ihi (s + 1) G3) = (mat n n (reflF t u)).conjTranspose * (mat n n (hz ilo ihi s G0) *
      mat n n (reflF t u)) := by
    rw [refl_conjTranspose, ← mat_applyR, ← mat_applyL, mat_ext_iff]
    -- after the right multiplication
    have hY : ∀ r c, r < n → c < n → applyR n t u (hz ilo ihi s G0) r c =
        if c < s + 1 then hz ilo ihi s G0 r c else G2 r c := by
      intro r c hr hc
      by_cases hcs : c < s + 1
      · rw [if_pos hcs]
        unfold applyR
        rw [uout c (by omega), star_zero, mul_zero, sub_zero]
      · rw [if_neg hcs, e2 r c hr hc]
        have ez : ∀ k, s + 1 ≤ k → hz ilo ihi s G0 r k = G0 r k := fun k hk => hz_out (by omega)
        have esum : ∀ F : Nat → Nat → 𝕜, (∀ k, s + 1 ≤ k → k < ihi → F r k = G0 r k) →
            ∑ k ∈ range n, F r k * u k = ∑ k ∈ range n, G0 r k * u k := by
          intro F hF
          refine Finset.sum_congr rfl fun k hk => ?_
          by_cases hk' : s + 1 ≤ k ∧ k < ihi
          · rw [hF k hk'.1 hk'.2]
          · rw [uout k (by omega), mul_zero, mul_zero]
        unfold applyR
        rw [esum _ (fun k hk _ => ez k hk), ez c (by omega)]
        by_cases hri : r < ihi
        · rw [if_pos ⟨Nat.zero_le _, hri⟩, esum G1 (fun k hk hk' => h1 r k hr (by omega) (by omega)), h1 r c hr hc (by omega)]
        · rw [if_neg (by omega), h1 r c hr hc (by omega)]
          rw [Finset.sum_eq_zero, mul_zero, zero_mul, sub_zero]
          intro k hk
          by_cases hk' : s + 1 ≤ k ∧ k < ihi
          · rw [h.shape.hi r k hr (by omega) hk'.2, zero_mul]
          · rw [uout k (by omega), mul_zero]
    intro r c hr hc
    have hs' : ∑ k ∈ range n, star (u k) * applyR n t u (hz ilo ihi s G0) k c = ∑ k ∈ range n, star (u k) *
        (if c < s + 1 then hz ilo ihi s G0 k c else G2 k c) :=
      Finset.sum_congr rfl fun k hk => by rw [hY k c (mem_range.1 hk) hc]
    unfold applyL
    rw [hs', hY r c hr hc]
    rcases Nat.lt_trichotomy c s with hlt | rfl | hgt
    · rw [if_pos (by omega)]
      have : ∑ k ∈ range n, star (u k) * (if c < s + 1 then hz ilo ihi s G0 k c else G2 k c) = 0 := by
        refine Finset.sum_eq_zero fun k hk => ?_
        rw [if_pos (by omega)]
        by_cases hk' : s + 1 ≤ k ∧ k < ihi
        · by_cases hc' : ilo ≤ c
          · rw [hz_in (by omega), mul_zero]
          · rw [hz_out (by omega), h.shape.lo k c (mem_range.1 hk) (by omega) (by omega), mul_zero]
        · rw [uout k (by omega), star_zero, zero_mul]
      rw [this, mul_zero, sub_zero]
      unfold hz
      rw [h30 r c hr hc hlt]
      by_cases hx : (ilo ≤ c ∧ c < s) ∧ c + 1 < r ∧ r < ihi
      · rw [if_pos hx, if_pos (by omega)]
      · rw [if_neg hx, if_neg (by omega)]
    · have hann := cs.ann r hr
      simp only [ucol] at hann
      simp only [show c < c + 1 by omega, if_true]
      have ez : ∀ k, hz ilo ihi c G0 k c = G0 k c := fun k => hz_out (by omega)
      simp only [ez]
      rw [hann]
      by_cases hx : c + 1 < r ∧ r < ihi
      · rw [hz_in (by omega), if_neg (by omega), if_pos (by omega)]
      · rw [hz_out (by omega), h31 r c hr hc (by omega)]
        by_cases hp : r = c + 1
        · rw [if_pos hp, hp]
        · rw [if_neg hp, if_neg (by omega), h1 r c hr hc (by omega)]
    · simp only [show ¬ c < s + 1 by omega, if_false]
      rw [hz_out (by omega), e3 r c hr hc, if_pos (by omega)]
      rfl
  have hP : reflProd n ilo (s - ilo) g' (reflCol 1 ihi G3) = reflProd n ilo (s - ilo) g (reflCol 1 ihi G0) :=
    reflProd_congr (fun i _ hi => hg i (by omega)) (fun i _ hi r hr => hold i (by omega) r hr)
  refine ⟨?_, fun i hi0 hi => ?_, fun i hi0 hi => ?_, ⟨fun r c hr hc hh => ?_, fun r c hr hr' hc => ?_⟩, fun r c hr hc hh => ?_⟩
  · rw [show s + 1 - ilo = (s - ilo) + 1 by omega, reflProd_succ, hP, show ilo + (s - ilo) = s by omega, hH, key, h.prod,
      Matrix.conjTranspose_mul]
    generalize reflProd n ilo (s - ilo) g (reflCol 1 ihi G0) = P
    generalize mat n n (hz ilo ihi s G0) = Z
    generalize mat n n (reflF t u) = H at hunit'
    calc P * Z * P.conjTranspose = P * (H * H.conjTranspose) * Z * (H * H.conjTranspose) * P.conjTranspose := by
          rw [hunit', Matrix.mul_one, Matrix.mul_one]
      _ = _ := by simp only [Matrix.mul_assoc]
  · by_cases e : i = s
    · subst e; rw [hH]; exact hunit
    · have : mat n n (reflF (g' i) (reflCol 1 ihi G3 i)) = mat n n (reflF (g i) (reflCol 1 ihi G0 i)) := by
        rw [mat_ext_iff]
        intro r c hr hc
        unfold reflF
        rw [hg i (by omega), hold i (by omega) r hr, hold i (by omega) c hc]
      rw [this]
      exact h.unit i hi0 (by omega)
  · by_cases e : i = s
    · subst e
      rw [h31 _ _ (by omega) (by omega) (by omega)]
      exact cs.real
    · rw [h30 _ _ (by omega) (by omega) (by omega)]
      exact h.real i hi0 (by omega)
  · rw [h30 r c hr (by omega) (by omega)]
    exact h.shape.lo r c hr hc hh
  · rw [h3r r c hr (by omega) hr']
    exact h.shape.hi r c hr hr' hc
  · rw [← h.same r c hr hc hh]
    rcases hh with hh | hh
    · exact h30 r c hr hc (by omega)
    · exact h3r r c hr hc hh

theorem HessInv.frob {n ilo ihi s : Nat} {A0 G : Nat → Nat → 𝕜} {g : Nat → 𝕜}
    (h : HessInv n ilo ihi A0 s G g) (hlo : ilo ≤ s) : frobSq n n (hz ilo ihi s G) = frobSq n n A0 := by
  have hu : (reflProd n ilo (s - ilo) g (reflCol 1 ihi G)).conjTranspose * reflProd n ilo (s - ilo) g (reflCol 1 ihi G) = 1 :=
    reflProd_unitary fun i h0 h1 => h.unit i h0 (by omega)
  refine (frobSq_unitary hu ?_ h.prod).symm
  rw [Matrix.conjTranspose_conjTranspose]
  exact hu

/-- The loop invariant of gehd2. -/
structure HessState (ilo ihi : Nat) (A : MatV L) (tau work : VecV L) (μ : Store L 𝕜) (s : Nat) (ν : Store L 𝕜) : Prop where
  inv : HessInv A.n ilo ihi (entry μ A) s (entry ν A) (ventry ν tau)
  tn : ∀ i, i < tau.n → i < ilo ∨ s ≤ i → ventry ν tau i = ventry μ tau i
  frame : ∀ l, ¬ A.Owns l → ¬ tau.Owns l → ¬ work.Owns l → ν l = μ l

theorem minMax_ofSize (a b : Nat) : ((WorkInfo.ofSize a).minMax (.ofSize b)).size = max a b := by
  by_cases hb : b = 0
  · subst hb
    have : (WorkInfo.ofSize a).minMax (.ofSize 0) = .ofSize a := by
      unfold WorkInfo.minMax; rw [if_pos (by simp [WorkInfo.ofSize, WorkInfo.size])]
    rw [this]; simp [WorkInfo.ofSize, WorkInfo.size]
  by_cases ha : a = 0
  · subst ha
    have : (WorkInfo.ofSize 0).minMax (.ofSize b) = .ofSize b := by
      unfold WorkInfo.minMax
      rw [if_neg (by simpa [WorkInfo.ofSize, WorkInfo.size] using hb), if_pos (by simp [WorkInfo.ofSize, WorkInfo.size])]
    rw [this]; simp [WorkInfo.ofSize, WorkInfo.size]
  unfold WorkInfo.minMax WorkInfo.ofSize WorkInfo.size
  simp only [mul_one, hb, ha, if_false, Bool.or_self, Bool.false_eq_true, ge_iff_le, le_refl, and_true, true_and]
  split
  · simp only [mul_one]; omega
  · split
    · simp only [mul_one]; omega
    · simp only [mul_one]

theorem wp_gehd2Step (hl : HhLaws 𝕜 p) {ilo ihi : Nat} {A : MatV L} {tau work : VecV L} (ok : QrOK A tau work)
    (hsq : A.m = A.n) (hihi : ihi ≤ A.n) (ht : A.n - 1 ≤ tau.n) (hw : (gehd2Worksize ilo ihi A).size ≤ work.n)
    {μ ν : Store L 𝕜} {s : Nat} (hlo : ilo ≤ s) (hs : s < ihi - 1)
    (hb : frobSq A.n A.n (entry μ A) ≤ p.tbig ^ 2) (h : HessState ilo ihi A tau work μ s ν) :
    wp (gehd2Step (hhOps p) A tau work ihi s) ν (fun _ ν' => HessState ilo ihi A tau work μ (s + 1) ν') := by
  have hws : larfWorksize .Right ihi (ihi - (ilo + 1)) ≤ work.n ∧
      larfWorksize .Left (ihi - (ilo + 1)) (A.n - (ilo + 1)) ≤ work.n := by
    unfold gehd2Worksize at hw
    rw [if_pos (by omega), minMax_ofSize] at hw
    omega
  have htA : ∀ j, j < tau.n → ¬ A.Owns (tau.cell j) := by
    rintro j hj ⟨r, c', hr, hc', e⟩
    exact ok.At r c' hr hc' ⟨j, hj, e.symm⟩
  have htb := hl.tbig_one
  unfold gehd2Step
  simp only [wp_bind]
  refine wp_sliceCol (by omega) (by omega) (by omega) ?_
  refine wp_qrGen hl ok (P := s + 1) (by omega) (by omega) (by omega) (by simp [pidx]) (by omega) ?_ ?_
  · intro r hr0 hr1
    show ‖entry ν A r s‖ ≤ _
    have := frobSq_bound (b := p.tbig) (r := r) (c := s) (by linarith)
      ((h.inv.frob hlo).le.trans hb) (by omega) (by omega)
    rwa [hz_out (by omega)] at this
  intro t ν2 mid
  have cs := mid.cs
  have lg : ∀ ν : Store L 𝕜, LG .Columnwise ν A = entry ν A := fun _ => rfl
  rw [lg, lg, hsq] at cs
  refine wp_slice (by omega) (by omega) (by omega) (by omega) ?_
  refine wp_vgetE (by omega) ?_
  rw [show ν2 (tau.cell s) = t from mid.ti]
  have vw : ∀ r0, (A.colv r0 ihi s).Disj work := by
    intro r0 i hi ho
    simp only [MatV.colv] at hi ho
    exact ok.Aw _ _ (by omega) (by omega) ho
  have ucol : ∀ i, i < ihi - (s + 1) → reflCol 1 ihi (entry ν2 A) s (s + 1 + i) =
      hvec .Forward .Columnwise (ihi - (s + 1)) (ventry ν2 (A.colv (s + 1) ihi s)) i := by
    intro i hi
    rw [hvec_colU (P := s + 1) (by simp [pidx]) hi, ← reflCol_colU]
    rfl
  refine wp_conseq (wp_larfAtR (u := reflCol 1 ihi (entry ν2 A) s) ok.inj ok.winj ok.Aw (by omega) (by omega) rfl ?_ (vw _) ?_ ucol ?_) ?_
  · rintro i hi ⟨i', j', hi', hj', e⟩
    simp only [MatV.colv, MatV.sub] at hi hi' hj' e
    have := ok.inj _ _ _ _ (by omega) (by omega) (by omega) (by omega) e
    omega
  · exact le_trans (larfWorksize_right (by omega) (by omega)) hws.1
  · intro c _ hc
    exact reflCol_out (by omega) (by omega)
  rintro _ ν3 ⟨e3, f3⟩
  have t3 : ∀ j, j < tau.n → ventry ν3 tau j = ventry ν2 tau j := fun j hj =>
    f3 _ (fun ho => htA j hj (ho.sub (by omega) (by omega))) (ok.tw j hj)
  have c3 : ∀ r, r < A.m → entry ν3 A r s = entry ν2 A r s := by
    intro r hr
    rw [e3 r s hr (by omega)]
    split
    · unfold applyR
      rw [reflCol_out (Or.inl (by omega)) (by omega), star_zero, mul_zero, sub_zero]
    · rfl
  refine wp_slice (by omega) (by omega) (by omega) (by omega) ?_
  refine wp_vgetE (by omega) ?_
  rw [show ν3 (tau.cell s) = t from (t3 s (by omega)).trans mid.ti]
  have ucol' : ∀ i, i < ihi - (s + 1) → reflCol 1 ihi (entry ν2 A) s (s + 1 + i) =
      hvec .Forward .Columnwise (ihi - (s + 1)) (ventry ν3 (A.colv (s + 1) ihi s)) i := by
    intro i hi
    rw [ucol i hi]
    unfold hvec
    have : ventry ν3 (A.colv (s + 1) ihi s) i = ventry ν2 (A.colv (s + 1) ihi s) i := c3 (s + 1 + i) (by omega)
    simp only [this]
  refine wp_conseq (wp_larfAtL (u := reflCol 1 ihi (entry ν2 A) s) ok.inj ok.winj ok.Aw (by omega) (by omega) rfl ?_ (vw _) ?_ ucol' ?_) ?_
  · rintro i hi ⟨i', j', hi', hj', e⟩
    simp only [MatV.colv, MatV.sub] at hi hi' hj' e
    have := ok.inj _ _ _ _ (by omega) (by omega) (by omega) (by omega) e
    omega
  · exact le_trans (larfWorksize_left (by omega) (by omega)) hws.2
  · intro c _ hc
    exact reflCol_out (by omega) (by omega)
  rintro _ ν4 ⟨e4, f4⟩
  have t4 : ∀ j, j < tau.n → ventry ν4 tau j = ventry ν3 tau j := fun j hj =>
    f4 _ (fun ho => htA j hj (ho.sub (by omega) (by omega))) (ok.tw j hj)
  rw [hsq] at e3 e4
  refine ⟨h.inv.step hlo (by omega) hihi cs e3 e4 (fun i hi => ?_) ?_, fun i hi hh => ?_, fun l hA htl hwl => ?_⟩
  · rw [t4 i (by omega), t3 i (by omega), mid.tn i (by omega) (by omega)]
  · rw [t4 s (by omega), t3 s (by omega), mid.ti]
  · rw [t4 i (by omega), t3 i (by omega), mid.tn i (by omega) (by omega), h.tn i hi (by omega)]
  · rw [f4 l (fun ho => hA (ho.sub (by omega) (by omega))) hwl, f3 l (fun ho => hA (ho.sub (by omega) (by omega))) hwl,
      mid.frame l hA (fun e => htl ⟨s, by omega, e.symm⟩), h.frame l hA htl hwl]

theorem wp_gehd2 (hl : HhLaws 𝕜 p) {ilo ihi : Nat} {A : MatV L} {tau work : VecV L} (ok : QrOK A tau work)
    (hsq : A.m = A.n) (hn : 0 < A.n) (hlh : ilo < ihi) (hihi : ihi ≤ A.n) (ht : A.n - 1 ≤ tau.n)
    (hw : (gehd2Worksize ilo ihi A).size ≤ work.n) {μ : Store L 𝕜}
    (hb : frobSq A.n A.n (entry μ A) ≤ p.tbig ^ 2) (hsh : HessShape A.n ilo ihi (entry μ A)) :
    wp (gehd2 (hhOps p) ilo ihi A tau work) μ (fun r ν => r = 0 ∧ HessState ilo ihi A tau work μ (ihi - 1) ν) := by
  unfold gehd2
  simp only [wp_bind, wp_check]
  rw [if_pos (by simp [hsq]), if_pos (by simp [hn]; omega), if_neg (by omega)]
  simp only [wp_bind]
  refine wp_forUp_ (fun s ν => HessState ilo ihi A tau work μ s ν) (by omega) ?_ ?_ ?_
  · refine ⟨⟨?_, fun i h0 h1 => by omega, fun i h0 h1 => by omega, hsh, fun _ _ _ _ _ => rfl⟩, fun _ _ _ => rfl, fun _ _ _ _ => rfl⟩
    rw [Nat.sub_self]
    simp only [reflProd, List.range_zero, List.map_nil, List.prod_nil, Matrix.conjTranspose_one, Matrix.one_mul, Matrix.mul_one]
    rw [mat_ext_iff]
    intro r c _ _
    rw [hz_out (by omega)]
  · intro s ν h0 hs hν
    exact wp_gehd2Step hl ok hsq hihi ht hw h0 hs hb hν
  · intro ν hν
    rw [wp_pure]
    exact ⟨rfl, hν⟩

end TLA
