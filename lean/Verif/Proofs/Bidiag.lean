import Verif.Proofs.Hess

/-! gebd2 in exact arithmetic. -/

set_option linter.unusedSectionVars false
set_option linter.unusedTactic false
set_option linter.unreachableTactic false

namespace TLA
open Finset
variable {L 𝕜 : Type} [DecidableEq L] [RCLike 𝕜] [DecidableEq 𝕜] {p : HhPar}

/-- Entries satisfying `z` replaced by zero. -/
def maskF (z : Nat → Nat → Prop) [∀ r c, Decidable (z r c)] (G : Nat → Nat → 𝕜) : Nat → Nat → 𝕜 := fun r c =>
  if z r c then 0 else G r c

theorem mask_in {z : Nat → Nat → Prop} [∀ r c, Decidable (z r c)] {G : Nat → Nat → 𝕜} {r c : Nat} (h : z r c) :
    maskF z G r c = 0 := if_pos h
theorem mask_out {z : Nat → Nat → Prop} [∀ r c, Decidable (z r c)] {G : Nat → Nat → 𝕜} {r c : Nat} (h : ¬ z r c) :
    maskF z G r c = G r c := if_neg h

/-- A column step on a masked matrix. -/
theorem maskStep {M N P s : Nat} {t : 𝕜} {G0 G2 : Nat → Nat → 𝕜} (hP : P < M) (hs : s < N)
    (cs : ColStep M N P P M s (s + 1) N t G0 G2)
    (z0 z1 : Nat → Nat → Prop) [∀ r c, Decidable (z0 r c)] [∀ r c, Decidable (z1 r c)]
    (ha : ∀ k c, P ≤ k → c < s → z0 k c) (hb : ∀ k c, P ≤ k → s ≤ c → ¬ z0 k c)
    (hc : ∀ r c, z1 r c ↔ z0 r c ∨ (c = s ∧ P < r)) :
    mat M N (maskF z1 G2) = (mat M M (reflF t (colU P P M s G2))).conjTranspose * mat M N (maskF z0 G0) := by
  obtain ⟨u, hu⟩ : ∃ u, u = colU P P M s G2 := ⟨_, rfl⟩
  have uout : ∀ r, r < P → u r = 0 := fun r hr => by
    rw [hu]; unfold colU; rw [if_neg (by omega), if_neg (by omega)]
  rw [← hu, refl_conjTranspose, ← mat_applyL, mat_ext_iff]
  have hann := cs.ann
  have hrest := cs.rest
  rw [← hu] at hann hrest
  intro r c hr hcn
  by_cases hrP : r < P
  · unfold applyL
    rw [uout r hrP, mul_zero, zero_mul, sub_zero]
    have e : G2 r c = G0 r c := cs.same r c hr hcn (by omega)
    by_cases hz : z0 r c
    · rw [mask_in hz, mask_in ((hc r c).2 (Or.inl hz))]
    · rw [mask_out hz, mask_out (fun h => by rcases (hc r c).1 h with h | h; exact hz h; omega), e]
  · rcases Nat.lt_trichotomy c s with hlt | rfl | hgt
    · unfold applyL
      rw [Finset.sum_eq_zero, mul_zero, sub_zero, mask_in (ha r c (by omega) hlt),
        mask_in ((hc r c).2 (Or.inl (ha r c (by omega) hlt)))]
      intro k hk
      by_cases hkP : k < P
      · rw [uout k hkP, star_zero, zero_mul]
      · rw [mask_in (ha k c (by omega) hlt), mul_zero]
    · have e : applyL M (star t) u (maskF z0 G0) r c = G0 r c - star t * u r * ∑ k ∈ range M, star (u k) * G0 k c := by
        unfold applyL
        rw [mask_out (hb r c (by omega) (le_refl _))]
        congr 2
        refine Finset.sum_congr rfl fun k hk => ?_
        by_cases hkP : k < P
        · rw [uout k hkP, star_zero, zero_mul, zero_mul]
        · rw [mask_out (hb k c (by omega) (le_refl _))]
      rw [e, hann r hr]
      by_cases h1 : r = P
      · rw [if_pos h1, h1, mask_out (fun h => by
          rcases (hc P c).1 h with h | h
          · exact hb P c (le_refl _) (le_refl _) h
          · omega)]
      · rw [if_neg h1, if_pos (by omega), mask_in ((hc r c).2 (Or.inr ⟨rfl, by omega⟩))]
    · have e : applyL M (star t) u (maskF z0 G0) r c = applyL M (star t) u G0 r c := by
        unfold applyL
        rw [mask_out (hb r c (by omega) (by omega))]
        congr 2
        refine Finset.sum_congr rfl fun k hk => ?_
        by_cases hkP : k < P
        · rw [uout k hkP, star_zero, zero_mul, zero_mul]
        · rw [mask_out (hb k c (by omega) (by omega))]
      rw [e, ← hrest r c hr (by omega) hcn, mask_out]
      intro h
      rcases (hc r c).1 h with h | h
      · exact hb r c (by omega) (by omega) h
      · omega

/-- Entries reduced to zero after `sq` column and `sw` row steps. -/
def bz (sq sw r c : Nat) : Prop := (c < sq ∧ c < r) ∨ (r < sw ∧ r + 1 < c)

instance (sq sw r c : Nat) : Decidable (bz sq sw r c) := by unfold bz; infer_instance
instance (sq sw r c : Nat) : Decidable ((fun a b => bz sq sw b a) r c) := by unfold bz; infer_instance

structure BInv (M N : Nat) (A0 : Nat → Nat → 𝕜) (sq sw : Nat) (G : Nat → Nat → 𝕜) (v w : Nat → 𝕜) : Prop where
  prod : mat M N A0 = reflProd M 0 sq v (reflCol 0 M G) * mat M N (maskF (bz sq sw) G) *
    (reflProd N 0 sw w (reflRow 1 N G)).conjTranspose
  unitv : ∀ i, i < sq → (mat M M (reflF (v i) (reflCol 0 M G i))).conjTranspose * mat M M (reflF (v i) (reflCol 0 M G i)) = 1
  unitw : ∀ i, i < sw → (mat N N (reflF (w i) (reflRow 1 N G i))).conjTranspose * mat N N (reflF (w i) (reflRow 1 N G i)) = 1
  reald : ∀ i, i < sq → star (G i i) = G i i
  reale : ∀ i, i < sw → i + 1 < N → star (G i (i + 1)) = G i (i + 1)

theorem BInv.start (M N : Nat) (A0 : Nat → Nat → 𝕜) (v w : Nat → 𝕜) : BInv M N A0 0 0 A0 v w := by
  refine ⟨?_, fun i h => by omega, fun i h => by omega, fun i h => by omega, fun i h => by omega⟩
  simp only [reflProd, List.range_zero, List.map_nil, List.prod_nil, Matrix.conjTranspose_one, Matrix.one_mul, Matrix.mul_one]
  rw [mat_ext_iff]
  intro r c _ _
  rw [mask_out (by unfold bz; omega)]

theorem refl_congr {q : Nat} {t t' : 𝕜} {u u' : Nat → 𝕜} (ht : t' = t) (hu : ∀ r, r < q → u' r = u r) :
    mat q q (reflF t' u') = mat q q (reflF t u) := by
  rw [mat_ext_iff, ht]
  intro r c hr hc
  unfold reflF
  rw [hu r hr, hu c hc]

theorem BInv.col {M N s : Nat} {A0 G0 G2 : Nat → Nat → 𝕜} {v w v' w' : Nat → 𝕜} {t : 𝕜}
    (h : BInv M N A0 s s G0 v w) (hN : N ≤ M) (hs : s < N)
    (cs : ColStep M N s s M s (s + 1) N t G0 G2) (hv : ∀ i, i < s → v' i = v i) (ht : v' s = t)
    (hw : ∀ i, i < s → w' i = w i) : BInv M N A0 (s + 1) s G2 v' w' := by
  have hold : ∀ r c, r < M → c < N → r < s ∨ c < s → G2 r c = G0 r c := fun r c hr hc hh =>
    cs.same r c hr hc (by omega)
  have hcol : ∀ i, i < s → ∀ r, r < M → reflCol 0 M G2 i r = reflCol 0 M G0 i r := by
    intro i hi r hr
    unfold reflCol
    rw [hold r i hr (by omega) (by omega)]
  have hrow : ∀ i, i < s → ∀ c, c < N → reflRow 1 N G2 i c = reflRow 1 N G0 i c := by
    intro i hi c hc
    unfold reflRow
    rw [hold i c (by omega) hc (by omega)]
  have hnew : ∀ r, r < M → reflCol 0 M G2 s r = colU s s M s G2 r := fun r _ => (reflCol_colU (off := 0) r).symm
  have hH : mat M M (reflF (v' s) (reflCol 0 M G2 s)) = mat M M (reflF t (colU s s M s G2)) := refl_congr ht hnew
  have hunit : (mat M M (reflF t (colU s s M s G2))).conjTranspose * mat M M (reflF t (colU s s M s G2)) = 1 :=
    refl_unitary cs.unit
  have key := maskStep (by omega) hs cs (bz s s) (bz (s + 1) s) (fun k c h1 h2 => by unfold bz; omega)
    (fun k c h1 h2 => by unfold bz; omega) (fun r c => by unfold bz; omega)
  refine ⟨?_, fun i hi => ?_, fun i hi => ?_, fun i hi => ?_, fun i hi hi' => ?_⟩
  · rw [reflProd_succ, Nat.zero_add, hH, reflProd_congr (t' := v') (t := v) (fun i _ hi => hv i (by omega)) (fun i _ hi => hcol i (by omega)),
      reflProd_congr (t' := w') (t := w) (fun i _ hi => hw i (by omega)) (fun i _ hi => hrow i (by omega)), key, h.prod,
      Matrix.mul_assoc _ (mat M M (reflF t (colU s s M s G2))), ← Matrix.mul_assoc (mat M M (reflF t (colU s s M s G2))),
      mul_eq_one_comm.1 hunit, Matrix.one_mul]
  · by_cases e : i = s
    · subst e; rw [hH]; exact hunit
    · rw [refl_congr (hv i (by omega)) (hcol i (by omega))]
      exact h.unitv i (by omega)
  · rw [refl_congr (hw i (by omega)) (hrow i (by omega))]
    exact h.unitw i (by omega)
  · by_cases e : i = s
    · subst e; exact cs.real
    · rw [hold i i (by omega) (by omega) (by omega)]
      exact h.reald i (by omega)
  · rw [hold i (i + 1) (by omega) (by omega) (by omega)]
    exact h.reale i hi hi'

theorem starT_starT (F : Nat → Nat → 𝕜) : starT (starT F) = F := by
  funext r c; simp [starT]

theorem BInv.row {M N s : Nat} {A0 G2 G4 : Nat → Nat → 𝕜} {v w v' w' : Nat → 𝕜} {t : 𝕜}
    (h : BInv M N A0 (s + 1) s G2 v w) (hN : N ≤ M) (hs : s + 1 < N)
    (cs : ColStep N M (s + 1) (s + 1) N s (s + 1) M t (starT G2) (starT G4)) (hv : ∀ i, i < s + 1 → v' i = v i) (ht : w' s = t)
    (hw : ∀ i, i < s → w' i = w i) : BInv M N A0 (s + 1) (s + 1) G4 v' w' := by
  have hold : ∀ r c, r < M → c < N → r < s ∨ c < s + 1 → G4 r c = G2 r c := by
    intro r c hr hc hh
    have := cs.same c r hc hr (by omega)
    exact star_injective this
  have hcol : ∀ i, i < s + 1 → ∀ r, r < M → reflCol 0 M G4 i r = reflCol 0 M G2 i r := by
    intro i hi r hr
    unfold reflCol
    rw [hold r i hr (by omega) (by omega)]
  have hrow : ∀ i, i < s → ∀ c, c < N → reflRow 1 N G4 i c = reflRow 1 N G2 i c := by
    intro i hi c hc
    unfold reflRow
    rw [hold i c (by omega) hc (by omega)]
  have hnew : ∀ c, c < N → reflRow 1 N G4 s c = colU (s + 1) (s + 1) N s (starT G4) c := by
    intro c _
    rw [reflCol_colU]
    rfl
  have hH : mat N N (reflF (w' s) (reflRow 1 N G4 s)) = mat N N (reflF t (colU (s + 1) (s + 1) N s (starT G4))) :=
    refl_congr ht hnew
  have hunit : (mat N N (reflF t (colU (s + 1) (s + 1) N s (starT G4)))).conjTranspose *
      mat N N (reflF t (colU (s + 1) (s + 1) N s (starT G4))) = 1 := refl_unitary cs.unit
  have key := maskStep (by omega) (by omega) cs (fun a b => bz (s + 1) s b a) (fun a b => bz (s + 1) (s + 1) b a)
    (fun k c h1 h2 => by simp only [bz]; omega)
    (fun k c h1 h2 => by simp only [bz]; omega) (fun r c => by simp only [bz]; omega)
  have conv : ∀ (a b : Nat) (F : Nat → Nat → 𝕜), mat N M (maskF (fun x y => bz a b y x) (starT F)) =
      (mat M N (maskF (bz a b) F)).conjTranspose := by
    intro a b F
    rw [mat_conjTranspose, mat_ext_iff]
    intro r c _ _
    unfold maskF starT
    by_cases hz : bz a b c r
    · rw [if_pos hz, if_pos hz, star_zero]
    · rw [if_neg hz, if_neg hz]
  rw [conv, conv] at key
  have key2 := congrArg Matrix.conjTranspose key
  rw [Matrix.conjTranspose_mul, Matrix.conjTranspose_conjTranspose, Matrix.conjTranspose_conjTranspose,
    Matrix.conjTranspose_conjTranspose] at key2
  refine ⟨?_, fun i hi => ?_, fun i hi => ?_, fun i hi => ?_, fun i hi hi' => ?_⟩
  · rw [reflProd_succ N 0 s, Nat.zero_add, hH, reflProd_congr (t' := v') (t := v) (fun i _ hi => hv i (by omega)) (fun i _ hi => hcol i (by omega)),
      reflProd_congr (t' := w') (t := w) (fun i _ hi => hw i (by omega)) (fun i _ hi => hrow i (by omega)), key2, h.prod,
      Matrix.conjTranspose_mul]
    generalize mat N N (reflF t (colU (s + 1) (s + 1) N s (starT G4))) = H at hunit
    have h2 : H * H.conjTranspose = 1 := mul_eq_one_comm.1 hunit
    rw [← Matrix.mul_assoc, Matrix.mul_assoc _ _ H.conjTranspose, Matrix.mul_assoc (mat M N (maskF (bz (s + 1) s) G2)), h2, Matrix.mul_one]
  · rw [refl_congr (hv i (by omega)) (hcol i (by omega))]
    exact h.unitv i (by omega)
  · by_cases e : i = s
    · subst e; rw [hH]; exact hunit
    · rw [refl_congr (hw i (by omega)) (hrow i (by omega))]
      exact h.unitw i (by omega)
  · rw [hold i i (by omega) (by omega) (by omega)]
    exact h.reald i (by omega)
  · by_cases e : i = s
    · subst e
      have := cs.real
      simp only [starT, star_star] at this
      exact this.symm
    · rw [hold i (i + 1) (by omega) (by omega) (by omega)]
      exact h.reale i (by omega) hi'

/-- The last step has no row part. -/
theorem BInv.last {M N s : Nat} {A0 G : Nat → Nat → 𝕜} {v w v' w' : Nat → 𝕜}
    (h : BInv M N A0 (s + 1) s G v w) (hs : s + 1 = N) (hv : ∀ i, i < s + 1 → v' i = v i) (ht : w' s = 0)
    (hw : ∀ i, i < s → w' i = w i) : BInv M N A0 (s + 1) (s + 1) G v' w' := by
  have h1 : mat N N (reflF (w' s) (reflRow 1 N G s)) = 1 := by
    rw [ht, ← mat_idF, mat_ext_iff]
    intro r c _ _
    unfold reflF idF
    simp
  refine ⟨?_, fun i hi => ?_, fun i hi => ?_, h.reald, fun i hi hi' => h.reale i (by omega) hi'⟩
  · rw [reflProd_succ N 0 s, Nat.zero_add, h1, Matrix.mul_one,
      reflProd_congr (t' := v') (t := v) (fun i _ hi => hv i (by omega)) (fun i _ hi r _ => rfl),
      reflProd_congr (t' := w') (t := w) (fun i _ hi => hw i (by omega)) (fun i _ hi r _ => rfl), h.prod]
    refine congrArg₂ _ (congrArg₂ _ rfl ?_) rfl
    rw [mat_ext_iff]
    intro r c _ hc
    unfold maskF
    by_cases hz : bz (s + 1) s r c
    · rw [if_pos hz, if_pos (by unfold bz at hz ⊢; omega)]
    · rw [if_neg hz, if_neg (by unfold bz at hz ⊢; omega)]
  · rw [refl_congr (hv i (by omega)) (fun r _ => rfl)]
    exact h.unitv i hi
  · by_cases e : i = s
    · subst e; rw [h1]; simp
    · rw [refl_congr (hw i (by omega)) (fun r _ => rfl)]
      exact h.unitw i (by omega)

theorem BInv.frob {M N sq sw : Nat} {A0 G : Nat → Nat → 𝕜} {v w : Nat → 𝕜} (h : BInv M N A0 sq sw G v w) :
    frobSq M N (maskF (bz sq sw) G) = frobSq M N A0 := by
  have hq := reflProd_unitary (lo := 0) (k := sq) fun i _ h1 => h.unitv i (by omega)
  have hw := reflProd_unitary (lo := 0) (k := sw) fun i _ h1 => h.unitw i (by omega)
  refine (frobSq_unitary hq ?_ h.prod).symm
  rw [Matrix.conjTranspose_conjTranspose]
  exact hw

theorem BInv.bound {M N sq sw : Nat} {A0 G : Nat → Nat → 𝕜} {v w : Nat → 𝕜} (h : BInv M N A0 sq sw G v w) {b : ℝ}
    (hb : 0 ≤ b) (hf : frobSq M N A0 ≤ b ^ 2) {r c : Nat} (hr : r < M) (hc : c < N) (hz : ¬ bz sq sw r c) : ‖G r c‖ ≤ b := by
  have := frobSq_bound hb (h.frob.le.trans hf) hr hc
  rwa [mask_out hz] at this

theorem BInv.congrG {M N s : Nat} {A0 G G' : Nat → Nat → 𝕜} {v w : Nat → 𝕜} (h : BInv M N A0 s s G v w)
    (e : ∀ r c, r < M → c < N → G' r c = G r c) (hs : s ≤ M) (hs' : s ≤ N) : BInv M N A0 s s G' v w := by
  have hcol : ∀ i, i < s → ∀ r, r < M → reflCol 0 M G' i r = reflCol 0 M G i r := by
    intro i hi r hr
    unfold reflCol
    rw [e r i hr (by omega)]
  have hrow : ∀ i, i < s → ∀ c, c < N → reflRow 1 N G' i c = reflRow 1 N G i c := by
    intro i hi c hc
    unfold reflRow
    rw [e i c (by omega) hc]
  refine ⟨?_, fun i hi => ?_, fun i hi => ?_, fun i hi => ?_, fun i hi hi' => ?_⟩
  · rw [reflProd_congr (t' := v) (t := v) (fun i _ hi => rfl) (fun i _ hi => hcol i (by omega)),
      reflProd_congr (t' := w) (t := w) (fun i _ hi => rfl) (fun i _ hi => hrow i (by omega)), h.prod]
    refine congrArg₂ _ (congrArg₂ _ rfl ?_) rfl
    rw [mat_ext_iff]
    intro r c hr hc
    unfold maskF
    rw [e r c hr hc]
  · rw [refl_congr rfl (hcol i hi)]; exact h.unitv i hi
  · rw [refl_congr rfl (hrow i hi)]; exact h.unitw i hi
  · rw [e i i (by omega) (by omega)]; exact h.reald i hi
  · rw [e i (i + 1) (by omega) (by omega)]; exact h.reale i hi hi'

/-- The loop invariant, `G` being read through `f`. -/
structure BState (M N k : Nat) (f : Store L 𝕜 → Nat → Nat → 𝕜) (A : MatV L) (tc tr work : VecV L) (μ : Store L 𝕜)
    (sq sw : Nat) (ν : Store L 𝕜) : Prop where
  inv : BInv M N (f μ) sq sw (f ν) (ventry ν tc) (ventry ν tr)
  frame : ∀ l, ¬ A.Owns l → ¬ (tc.sub 0 k).Owns l → ¬ (tr.sub 0 k).Owns l → ¬ work.Owns l → ν l = μ l

theorem QrOK.tauA {A : MatV L} {tau work : VecV L} (ok : QrOK A tau work) {j : Nat} (hj : j < tau.n) :
    ¬ A.Owns (tau.cell j) := by
  rintro ⟨r, c', hr, hc', e⟩
  exact ok.At r c' hr hc' ⟨j, hj, e.symm⟩

/-- The scalar factors after a half step. -/
theorem QrMid.taus {store : StoreV} {B : MatV L} {tau tau' work : VecV L} {P r0 r1 c i : Nat} {t : 𝕜} {ν ν2 ν3 : Store L 𝕜}
    (mid : QrMid store B tau P r0 r1 c i t ν ν2) (ok : QrOK B tau work) (ok' : QrOK B tau' work) (hd : tau.Disj tau') (hi : i < tau.n)
    (fr : ∀ l, ¬ B.Owns l → ¬ work.Owns l → ν3 l = ν2 l) :
    ventry ν3 tau i = t ∧ (∀ j, j < tau.n → j ≠ i → ventry ν3 tau j = ventry ν tau j) ∧
    ∀ j, j < tau'.n → ventry ν3 tau' j = ventry ν tau' j := by
  refine ⟨?_, fun j hj hne => ?_, fun j hj => ?_⟩
  · rw [← mid.ti]; exact fr _ (ok.tauA hi) (ok.tw i hi)
  · rw [← mid.tn j hj hne]; exact fr _ (ok.tauA hj) (ok.tw j hj)
  · unfold ventry
    rw [fr _ (ok'.tauA hj) (ok'.tw j hj)]
    refine mid.frame _ (ok'.tauA hj) fun e => ?_
    exact hd i hi ⟨j, hj, e⟩

theorem wp_gebd2Row (hl : HhLaws 𝕜 p) {A : MatV L} {tauv tauw work : VecV L} (ok : BrdOK A tauv tauw work)
    (hmn : A.n ≤ A.m) (htv : A.n ≤ tauv.n) (htw : A.n ≤ tauw.n)
    (hw : larfWorksize .Right (A.m - 1) (A.n - 1) ≤ work.n) {μ ν : Store L 𝕜} {s : Nat} (hs : s + 1 < A.n)
    (hb : frobSq A.m A.n (entry μ A) ≤ p.tbig ^ 2)
    (h : BState A.m A.n A.n (fun ν => entry ν A) A tauv tauw work μ (s + 1) s ν) :
    wp (gebd2Row (hhOps p) A tauw work s) ν (fun _ ν' =>
      BState A.m A.n A.n (fun ν => entry ν A) A tauv tauw work μ (s + 1) (s + 1) ν') := by
  have htb := hl.tbig_one
  unfold gebd2Row
  simp only [wp_bind]
  refine wp_sliceRow (by omega) (by omega) (by omega) ?_
  have hmtr : A.tr.m = A.n := rfl
  have hntr : A.tr.n = A.m := rfl
  refine wp_qrGen hl ok.qw.tr (store := .Rowwise) (dir := .Forward) (P := s + 1) (r0 := s + 1) (r1 := A.n) (c := s)
    (by omega) (by omega) (by omega) (by simp [pidx]) (by omega) ?_ ?_
  · intro r hr0 hr1
    show ‖star (entry ν A s r)‖ ≤ _
    rw [norm_star]
    exact h.inv.bound (by linarith) hb (by omega) (by omega) (by unfold bz; omega)
  intro t ν2 mid
  rw [if_pos (by omega)]
  simp only [wp_bind]
  refine wp_slice (by omega) (by omega) (by omega) (by omega) ?_
  refine wp_vgetE (by omega) ?_
  rw [show ν2 (tauw.cell s) = t from mid.ti]
  refine wp_conseq (wp_qrApplyR ok.qw.tr (c0 := s + 1) (c1 := A.m) (by omega) (by omega) (by omega) (by omega) (by omega) (by simp [pidx]) ?_ mid) ?_
  · exact le_trans (larfWorksize_right (by omega) (by omega)) hw
  rintro _ ν3 ⟨cs, fr⟩
  have lg : ∀ ν : Store L 𝕜, LG .Rowwise ν A.tr = starT (entry ν A) := fun _ => rfl
  rw [lg, lg] at cs
  obtain ⟨t1, t2, t3⟩ := mid.taus ok.qw.tr ok.qv.tr ok.vw.symm (by omega) fr
  refine ⟨h.inv.row hmn hs cs (fun i hi => t3 i (by omega)) t1 (fun i hi => t2 i (by omega) (by omega)), fun l a b c d => ?_⟩
  rw [fr l (fun ho => a (MatV.tr_owns.1 ho)) d, mid.frame l (fun ho => a (MatV.tr_owns.1 ho))
    (fun e => c ⟨s, by simp [VecV.sub]; omega, by simp [VecV.sub, e]⟩), h.frame l a b c d]

theorem wp_gebd2StepU (hl : HhLaws 𝕜 p) {A : MatV L} {tauv tauw work : VecV L} (ok : BrdOK A tauv tauw work)
    (hmn : A.n ≤ A.m) (htv : A.n ≤ tauv.n) (htw : A.n ≤ tauw.n)
    (hw : (gebd2Worksize A).size ≤ work.n) {μ ν : Store L 𝕜} {s : Nat} (hs : s < A.n)
    (hb : frobSq A.m A.n (entry μ A) ≤ p.tbig ^ 2)
    (h : BState A.m A.n A.n (fun ν => entry ν A) A tauv tauw work μ s s ν) :
    wp (gebd2StepU (hhOps p) A tauv tauw work s) ν (fun _ ν' =>
      BState A.m A.n A.n (fun ν => entry ν A) A tauv tauw work μ (s + 1) (s + 1) ν') := by
  have htb := hl.tbig_one
  have hws : A.n > 1 → larfWorksize .Left A.m (A.n - 1) ≤ work.n ∧ larfWorksize .Right (A.m - 1) (A.n - 1) ≤ work.n := by
    intro h1
    unfold gebd2Worksize at hw
    rw [if_pos h1, if_pos (by omega), minMax_ofSize] at hw
    omega
  unfold gebd2StepU
  simp only [wp_bind]
  refine wp_sliceCol (by omega) (by omega) (by omega) ?_
  refine wp_qrGen hl ok.qv (P := s) (by omega) (le_refl _) (by omega) (by simp [pidx]) (by omega) ?_ ?_
  · intro r hr0 hr1
    show ‖entry ν A r s‖ ≤ _
    exact h.inv.bound (by linarith) hb (by omega) (by omega) (by unfold bz; omega)
  intro t ν2 mid
  have lg : ∀ ν : Store L 𝕜, LG .Columnwise ν A = entry ν A := fun _ => rfl
  by_cases hlast : s < A.n - 1
  · rw [if_pos hlast]
    simp only [wp_bind]
    refine wp_slice (by omega) (by omega) (by omega) (by omega) ?_
    refine wp_vgetE (by omega) ?_
    rw [show ν2 (tauv.cell s) = t from mid.ti]
    refine wp_conseq (wp_qrApplyL ok.qv (by omega) (le_refl _) (by omega) (le_refl _) (by omega) (by simp [pidx]) ?_ mid) ?_
    · exact le_trans (larfWorksize_left (by omega) (by omega)) (hws (by omega)).1
    rintro _ ν3 ⟨cs, fr⟩
    rw [lg, lg] at cs
    obtain ⟨t1, t2, t3⟩ := mid.taus ok.qv ok.qw ok.vw (by omega) fr
    refine wp_gebd2Row hl ok hmn htv htw (hws (by omega)).2 (by omega) hb ?_
    refine ⟨h.inv.col hmn hs cs (fun i hi => t2 i (by omega) (by omega)) t1 (fun i hi => t3 i (by omega)), fun l a b c d => ?_⟩
    rw [fr l a d, mid.frame l a (fun e => b ⟨s, by simp [VecV.sub]; omega, by simp [VecV.sub, e]⟩), h.frame l a b c d]
  · rw [if_neg hlast]
    refine wp_vsetE (by omega) ?_
    have cs := mid.cs.extend (c0 := s + 1) (c1 := A.n) (le_refl _) (by omega) (le_refl _) (by omega) (by omega) (fun _ _ _ _ _ => rfl)
          (fun i j hi hj => by omega)
    rw [lg, lg] at cs
    obtain ⟨t1, t2, t3⟩ := mid.taus ok.qv ok.qw ok.vw (by omega) (ν3 := ν2) (fun _ _ _ => rfl)
    have b2 := h.inv.col hmn hs cs (fun i hi => t2 i (by omega) (by omega)) t1 (fun i hi => t3 i (by omega))
    have hA : ∀ r c, r < A.m → c < A.n → entry (upd ν2 (tauw.cell s) 0) A r c = entry ν2 A r c := by
      intro r c hr hc
      unfold entry upd
      rw [if_neg (fun e => ok.qw.At r c hr hc ⟨s, by omega, e.symm⟩)]
    have hv : ∀ i, i < tauv.n → ventry (upd ν2 (tauw.cell s) 0) tauv i = ventry ν2 tauv i := by
      intro i hi
      unfold ventry upd
      rw [if_neg (fun e => ok.vw i hi ⟨s, by omega, e.symm⟩)]
    refine ⟨?_, fun l a b c d => ?_⟩
    · have b3 := b2.last (v' := ventry (upd ν2 (tauw.cell s) 0) tauv) (w' := ventry (upd ν2 (tauw.cell s) 0) tauw)
        (by omega) (fun i hi => hv i (by omega)) (by simp [ventry, upd]) (fun i hi => ?_)
      · refine b3.congrG hA (by omega) (by omega)
      · unfold ventry upd
        rw [if_neg (fun e => by have := ok.qw.tinj _ _ (by omega) (by omega) e; omega)]
    · have : l ≠ tauw.cell s := fun e => c ⟨s, by simp [VecV.sub]; omega, by simp [VecV.sub, e]⟩
      unfold upd
      rw [if_neg this, mid.frame l a (fun e => b ⟨s, by simp [VecV.sub]; omega, by simp [VecV.sub, e]⟩), h.frame l a b c d]

/-! The case `m < n`: the conjugate transpose of the other one. -/

theorem wp_gebd2Col (hl : HhLaws 𝕜 p) {A : MatV L} {tauv tauw work : VecV L} (ok : BrdOK A tauv tauw work)
    (hmn : A.m < A.n) (htv : A.m ≤ tauv.n) (htw : A.m ≤ tauw.n)
    (hw : larfWorksize .Left A.m (A.n - 1) ≤ work.n) {μ ν : Store L 𝕜} {s : Nat} (hs : s + 1 < A.m)
    (hb : frobSq A.n A.m (starT (entry μ A)) ≤ p.tbig ^ 2)
    (h : BState A.n A.m A.m (fun ν => starT (entry ν A)) A tauw tauv work μ (s + 1) s ν) :
    wp (gebd2Col (hhOps p) A tauv work s) ν (fun _ ν' =>
      BState A.n A.m A.m (fun ν => starT (entry ν A)) A tauw tauv work μ (s + 1) (s + 1) ν') := by
  have htb := hl.tbig_one
  unfold gebd2Col
  simp only [wp_bind]
  refine wp_sliceCol (by omega) (by omega) (by omega) ?_
  refine wp_qrGen hl ok.qv (P := s + 1) (by omega) (le_refl _) (by omega) (by simp [pidx]) (by omega) ?_ ?_
  · intro r hr0 hr1
    show ‖entry ν A r s‖ ≤ _
    rw [← norm_star]
    exact h.inv.bound (r := s) (c := r) (by linarith) hb (by omega) (by omega) (by unfold bz; omega)
  intro t ν2 mid
  rw [if_pos (by omega)]
  simp only [wp_bind]
  refine wp_slice (by omega) (by omega) (by omega) (by omega) ?_
  refine wp_vgetE (by omega) ?_
  rw [show ν2 (tauv.cell s) = t from mid.ti]
  refine wp_conseq (wp_qrApplyL ok.qv (c0 := s + 1) (c1 := A.n) (by omega) (by omega) (by omega) (by omega) (by omega) (by simp [pidx]) ?_ mid) ?_
  · exact le_trans (larfWorksize_left (by omega) (by omega)) hw
  rintro _ ν3 ⟨cs, fr⟩
  have lg : ∀ ν : Store L 𝕜, LG .Columnwise ν A = starT (starT (entry ν A)) := fun _ => (starT_starT _).symm
  rw [lg, lg] at cs
  obtain ⟨t1, t2, t3⟩ := mid.taus ok.qv ok.qw ok.vw (by omega) fr
  refine ⟨h.inv.row (by omega) hs cs (fun i hi => t3 i (by omega)) t1 (fun i hi => t2 i (by omega) (by omega)), fun l a b c d => ?_⟩
  rw [fr l a d, mid.frame l a (fun e => c ⟨s, by simp [VecV.sub]; omega, by simp [VecV.sub, e]⟩), h.frame l a b c d]

theorem wp_gebd2StepL (hl : HhLaws 𝕜 p) {A : MatV L} {tauv tauw work : VecV L} (ok : BrdOK A tauv tauw work)
    (hmn : A.m < A.n) (htv : A.m ≤ tauv.n) (htw : A.m ≤ tauw.n)
    (hw : (gebd2Worksize A).size ≤ work.n) (hw2 : larfWorksize .Right (A.m - 1) A.n ≤ work.n) {μ ν : Store L 𝕜} {s : Nat} (hs : s < A.m)
    (hb : frobSq A.n A.m (starT (entry μ A)) ≤ p.tbig ^ 2)
    (h : BState A.n A.m A.m (fun ν => starT (entry ν A)) A tauw tauv work μ s s ν) :
    wp (gebd2StepL (hhOps p) A tauv tauw work s) ν (fun _ ν' =>
      BState A.n A.m A.m (fun ν => starT (entry ν A)) A tauw tauv work μ (s + 1) (s + 1) ν') := by
  have htb := hl.tbig_one
  have hws : larfWorksize .Left A.m (A.n - 1) ≤ work.n := by
    unfold gebd2Worksize at hw
    rw [if_pos (by omega)] at hw
    by_cases h1 : A.m > 1
    · simp only [h1, if_true] at hw
      rw [minMax_ofSize] at hw
      omega
    · simp only [h1, if_false] at hw
      simpa [WorkInfo.ofSize, WorkInfo.size] using hw
  have lg : ∀ ν : Store L 𝕜, LG .Rowwise ν A.tr = starT (entry ν A) := fun _ => rfl
  have hmtr : A.tr.m = A.n := rfl
  have hntr : A.tr.n = A.m := rfl
  unfold gebd2StepL
  simp only [wp_bind]
  refine wp_sliceRow (by omega) (by omega) (by omega) ?_
  refine wp_qrGen hl ok.qw.tr (store := .Rowwise) (dir := .Forward) (P := s) (r0 := s) (r1 := A.n) (c := s)
    (by omega) (by omega) (by omega) (by simp [pidx]) (by omega) ?_ ?_
  · intro r hr0 hr1
    show ‖starT (entry ν A) r s‖ ≤ _
    exact h.inv.bound (by linarith) hb (by omega) (by omega) (by unfold bz; omega)
  intro t ν2 mid
  by_cases hlast : s < A.m - 1
  · rw [if_pos hlast]
    simp only [wp_bind]
    refine wp_slice (by omega) (by omega) (by omega) (by omega) ?_
    refine wp_vgetE (by omega) ?_
    rw [show ν2 (tauw.cell s) = t from mid.ti]
    refine wp_conseq (wp_qrApplyR ok.qw.tr (c0 := s + 1) (c1 := A.m) (by omega) (by omega) (by omega) (by omega) (by omega) (by simp [pidx]) ?_ mid) ?_
    · exact le_trans (larfWorksize_right (by omega) (by omega)) hw2
    rintro _ ν3 ⟨cs, fr⟩
    rw [lg, lg] at cs
    obtain ⟨t1, t2, t3⟩ := mid.taus ok.qw.tr ok.qv.tr ok.vw.symm (by omega) fr
    refine wp_gebd2Col hl ok hmn htv htw hws (by omega) hb ?_
    refine ⟨h.inv.col (by omega) hs cs (fun i hi => t2 i (by omega) (by omega)) t1 (fun i hi => t3 i (by omega)), fun l a b c d => ?_⟩
    rw [fr l (fun ho => a (MatV.tr_owns.1 ho)) d, mid.frame l (fun ho => a (MatV.tr_owns.1 ho))
      (fun e => b ⟨s, by simp [VecV.sub]; omega, by simp [VecV.sub, e]⟩), h.frame l a b c d]
  · rw [if_neg hlast]
    refine wp_vsetE (by omega) ?_
    have cs := mid.cs.extend (c0 := s + 1) (c1 := A.m) (by omega) (by omega) (by omega) (by omega) (by omega) (fun _ _ _ _ _ => rfl)
          (fun i j hi hj => by omega)
    rw [lg, lg] at cs
    obtain ⟨t1, t2, t3⟩ := mid.taus ok.qw.tr ok.qv.tr ok.vw.symm (by omega) (ν3 := ν2) (fun _ _ _ => rfl)
    have b2 := h.inv.col (by omega) hs cs (fun i hi => t2 i (by omega) (by omega)) t1 (fun i hi => t3 i (by omega))
    have hA : ∀ r c, r < A.n → c < A.m → starT (entry (upd ν2 (tauv.cell s) 0) A) r c = starT (entry ν2 A) r c := by
      intro r c hr hc
      unfold starT entry upd
      rw [if_neg (fun e => ok.qv.At c r hc hr ⟨s, by omega, e.symm⟩)]
    have hv : ∀ i, i < tauw.n → ventry (upd ν2 (tauv.cell s) 0) tauw i = ventry ν2 tauw i := by
      intro i hi
      unfold ventry upd
      rw [if_neg (fun e => ok.vw.symm i hi ⟨s, by omega, e.symm⟩)]
    refine ⟨?_, fun l a b c d => ?_⟩
    · have b3 := b2.last (v' := ventry (upd ν2 (tauv.cell s) 0) tauw) (w' := ventry (upd ν2 (tauv.cell s) 0) tauv)
        (by omega) (fun i hi => hv i (by omega)) (by simp [ventry, upd]) (fun i hi => ?_)
      · refine b3.congrG hA (by omega) (by omega)
      · unfold ventry upd
        rw [if_neg (fun e => by have := ok.qv.tinj _ _ (by omega) (by omega) e; omega)]
    · have : l ≠ tauv.cell s := fun e => c ⟨s, by simp [VecV.sub]; omega, by simp [VecV.sub, e]⟩
      unfold upd
      rw [if_neg this, mid.frame l (fun ho => a (MatV.tr_owns.1 ho)) (fun e => b ⟨s, by simp [VecV.sub]; omega, by simp [VecV.sub, e]⟩), h.frame l a b c d]

theorem wp_gebd2_ge (hl : HhLaws 𝕜 p) {A : MatV L} {tauv tauw work : VecV L} (ok : BrdOK A tauv tauw work)
    (hmn : A.n ≤ A.m) (htv : A.n ≤ tauv.n) (htw : A.n ≤ tauw.n)
    (hw : (gebd2Worksize A).size ≤ work.n) {μ : Store L 𝕜}
    (hb : frobSq A.m A.n (entry μ A) ≤ p.tbig ^ 2) :
    wp (gebd2 (hhOps p) A tauv tauw work) μ (fun r ν => r = 0 ∧
      BState A.m A.n A.n (fun ν => entry ν A) A tauv tauw work μ A.n A.n ν) := by
  unfold gebd2
  simp only [wp_bind, wp_check]
  rw [if_pos (by simp; omega), if_pos (by simp; omega)]
  have st : BState A.m A.n A.n (fun ν => entry ν A) A tauv tauw work μ 0 0 μ := ⟨BInv.start _ _ _ _ _, fun _ _ _ _ _ => rfl⟩
  by_cases h0 : A.n = 0
  · rw [if_pos h0, wp_pure]
    refine ⟨rfl, ?_⟩
    have e : ∀ k, k = A.n → BState A.m A.n A.n (fun ν => entry ν A) A tauv tauw work μ k k μ := by
      intro k hk; rw [hk.trans h0]; exact st
    exact e _ rfl
  rw [if_neg h0, if_pos hmn]
  simp only [wp_bind]
  refine wp_forUp_ (fun s ν => BState A.m A.n A.n (fun ν => entry ν A) A tauv tauw work μ s s ν) (Nat.zero_le _) st ?_ ?_
  · intro s ν _ hs hν
    exact wp_gebd2StepU hl ok hmn htv htw hw hs hb hν
  · intro ν hν
    rw [wp_pure]
    exact ⟨rfl, hν⟩

theorem wp_gebd2_lt (hl : HhLaws 𝕜 p) {A : MatV L} {tauv tauw work : VecV L} (ok : BrdOK A tauv tauw work)
    (hmn : A.m < A.n) (htv : A.m ≤ tauv.n) (htw : A.m ≤ tauw.n)
    (hw : (gebd2Worksize A).size ≤ work.n) (hw2 : larfWorksize .Right (A.m - 1) A.n ≤ work.n) {μ : Store L 𝕜}
    (hb : frobSq A.n A.m (starT (entry μ A)) ≤ p.tbig ^ 2) :
    wp (gebd2 (hhOps p) A tauv tauw work) μ (fun r ν => r = 0 ∧
      BState A.n A.m A.m (fun ν => starT (entry ν A)) A tauw tauv work μ A.m A.m ν) := by
  unfold gebd2
  simp only [wp_bind, wp_check]
  rw [if_pos (by simp; omega), if_pos (by simp; omega), if_neg (by omega), if_neg (by omega)]
  simp only [wp_bind]
  refine wp_forUp_ (fun s ν => BState A.n A.m A.m (fun ν => starT (entry ν A)) A tauw tauv work μ s s ν) (Nat.zero_le _)
    ⟨BInv.start _ _ _ _ _, fun _ _ _ _ _ => rfl⟩ ?_ ?_
  · intro s ν _ hs hν
    exact wp_gebd2StepL hl ok hmn htv htw hw hw2 hs hb hν
  · intro ν hν
    rw [wp_pure]
    exact ⟨rfl, hν⟩

end TLA
