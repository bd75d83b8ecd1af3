import Verif.Proofs.SchurBlkF
import Verif.Proofs.NormExact
import Verif.Proofs.Larfb
import Verif.Props.Lasy2

set_option linter.unusedTactic false
set_option linter.unusedSectionVars false
set_option linter.unusedVariables false
set_option linter.unreachableTactic false
set_option linter.unusedSimpArgs false

/-! schur_swap for real matrices: the exchange of two blocks of order two. -/

namespace TLA
open Matrix Finset
variable {L : Type} [DecidableEq L] {hp : HhPar}
variable {wantq : Bool} {A Q B V D : MatV L} {μ ν : Store L ℝ} {FA FQ G : Nat → Nat → ℝ} {n j0 n1 n2 : Nat}

theorem wp_rd22 {X : MatV L} {i j : Nat} (hi : i + 1 < X.m) (hj : j + 1 < X.n) {F : Nat → Nat → ℝ} {K : (Nat → Nat → ℝ) → Store L ℝ → Prop} {E}
    (hF : ∀ r c, r < X.m → c < X.n → ν (X.cell r c) = F r c)
    (hK : ∀ f, (f 0 0 = F i j ∧ f 0 1 = F i (j + 1) ∧ f 1 0 = F (i + 1) j ∧ f 1 1 = F (i + 1) (j + 1)) → K f ν) : wp (rd22 X i j) ν K E := by
  unfold rd22
  simp only [wp_bind]
  refine wp_getE ⟨by omega, by omega⟩ ?_
  refine wp_getE ⟨by omega, by omega⟩ ?_
  refine wp_getE ⟨by omega, by omega⟩ ?_
  refine wp_getE ⟨by omega, by omega⟩ ?_
  rw [wp_pure]
  refine hK _ ⟨?_, ?_, ?_, ?_⟩ <;> simp [hF _ _ (by omega : i < X.m) (by omega : j < X.n), hF _ _ (by omega : i < X.m) hj,
    hF _ _ hi (by omega : j < X.n), hF _ _ hi hj]

/-- What is written to `V`. -/
def swVF (X : Nat → Nat → ℝ) (s : ℝ) : Nat → Nat → ℝ := fun r c =>
  if r < 2 then X r c else if r = c + 2 then -s else 0

theorem wp_swV (hV : V.Inj) (vm : V.m = 4) (vn : V.n = 2) (X : Nat → Nat → ℝ) (s : ℝ) :
    wp (swV V X s) ν (fun _ ν' => MState V ν (swVF X s) ν') := by
  have h0 : MState V ν (entry ν V) ν := MState.init V ν _ (fun _ _ _ _ => rfl)
  unfold swV
  simp only [wp_bind]
  refine wp_conseq (wp_setM h0 hV (by omega) (by omega) _) ?_
  intro _ ν1 h1
  refine wp_conseq (wp_setM h1 hV (by omega) (by omega) _) ?_
  intro _ ν2 h2
  refine wp_conseq (wp_setM h2 hV (by omega) (by omega) _) ?_
  intro _ ν3 h3
  refine wp_conseq (wp_setM h3 hV (by omega) (by omega) _) ?_
  intro _ ν4 h4
  refine wp_conseq (wp_setM h4 hV (by omega) (by omega) _) ?_
  intro _ ν5 h5
  refine wp_conseq (wp_setM h5 hV (by omega) (by omega) _) ?_
  intro _ ν6 h6
  refine wp_conseq (wp_setM h6 hV (by omega) (by omega) _) ?_
  intro _ ν7 h7
  refine wp_conseq (wp_setM h7 hV (by omega) (by omega) _) ?_
  intro _ ν8 h8
  refine h8.congr fun r c hr hc => ?_
  rcases (by omega : r = 0 ∨ r = 1 ∨ r = 2 ∨ r = 3) with rfl | rfl | rfl | rfl <;> rcases (by omega : c = 0 ∨ c = 1) with rfl | rfl <;> simp [swVF]

theorem mul_max_le {e a b d : ℝ} (h1 : e * a ≤ d) (h2 : e * b ≤ d) : e * max a b ≤ d := by
  rcases le_total a b with h | h
  · rw [max_eq_right h]; exact h2
  · rw [max_eq_left h]; exact h1

theorem swLasy {eps small δ : ℝ} (hs : 0 < small) (h : SwSep hp eps small j0 FA δ) {TL TR Bk : Nat → Nat → ℝ}
    (h1 : TL 0 0 = FA j0 j0 ∧ TL 0 1 = FA j0 (j0 + 1) ∧ TL 1 0 = FA (j0 + 1) j0 ∧ TL 1 1 = FA (j0 + 1) (j0 + 1))
    (h2 : TR 0 0 = FA (j0 + 2) (j0 + 2) ∧ TR 0 1 = FA (j0 + 2) (j0 + 3) ∧ TR 1 0 = FA (j0 + 3) (j0 + 2) ∧ TR 1 1 = FA (j0 + 3) (j0 + 3))
    (h3 : Bk 0 0 = FA j0 (j0 + 2) ∧ Bk 0 1 = FA j0 (j0 + 3) ∧ Bk 1 0 = FA (j0 + 1) (j0 + 2) ∧ Bk 1 1 = FA (j0 + 1) (j0 + 3)) :
    ∃ o, Kernel.lasy2 eps small .NoTrans .NoTrans (-1) 2 2 TL TR Bk (fun _ _ => 0) = some (.ok o) ∧ 0 < o.scale ∧ o.scale ≤ 1 ∧
      (∀ i j, i < 2 → j < 2 → |o.X i j| ≤ hp.tbig / 4) ∧
      blkM FA j0 2 * mat 2 2 o.X - mat 2 2 o.X * blkM FA (j0 + 2) 2 = o.scale • mat 2 2 (fun r k => FA (j0 + r) (j0 + 2 + k)) := by
  obtain ⟨o, E, e, hi, s0, s1, -, hsol, -, hE, hsing⟩ := Kernel.C94_lasy2_22 (eps := eps) hs .NoTrans .NoTrans (-1) TL TR Bk (fun _ _ => 0)
  have eTL : Kernel.op2 .NoTrans (Kernel.mat2 TL) = blkM FA j0 2 := by
    unfold Kernel.op2
    rw [if_neg (by decide)]
    ext a b
    fin_cases a <;> fin_cases b
    · exact h1.1
    · exact h1.2.1
    · exact h1.2.2.1
    · exact h1.2.2.2
  have eTR : Kernel.op2 .NoTrans (Kernel.mat2 TR) = blkM FA (j0 + 2) 2 := by
    unfold Kernel.op2
    rw [if_neg (by decide)]
    ext a b
    fin_cases a <;> fin_cases b
    · exact h2.1
    · exact h2.2.1
    · exact h2.2.2.1
    · exact h2.2.2.2
  have eB : Kernel.mat2 Bk = mat 2 2 (fun r k => FA (j0 + r) (j0 + 2 + k)) := by
    ext a b
    fin_cases a <;> fin_cases b
    · exact h3.1
    · exact h3.2.1
    · exact h3.2.2.1
    · exact h3.2.2.2
  have hsm : Kernel.la2Smin eps small TL TR ≤ δ := by
    unfold Kernel.la2Smin
    have b := h.big
    have b00 := b 0 0 (by omega) (by omega)
    have b01 := b 0 1 (by omega) (by omega)
    have b10 := b 1 0 (by omega) (by omega)
    have b11 := b 1 1 (by omega) (by omega)
    rw [h1.1, h1.2.1, h1.2.2.1, h1.2.2.2, h2.1, h2.2.1, h2.2.2.1, h2.2.2.2]
    exact max_le (mul_max_le (mul_max_le (mul_max_le b00.2 b01.2) (mul_max_le b10.2 b11.2)) (mul_max_le (mul_max_le b00.1 b01.1) (mul_max_le b10.1 b11.1))) h.small
  rw [eTL, eTR] at hsol hsing
  have i0 : o.info = 0 := by
    rcases hi with hi | hi
    · exact hi
    · obtain ⟨E', X, a, b, c⟩ := hsing hi
      exact absurd (h.sep E' X (fun i j k l => lt_of_lt_of_le (a i j k l) hsm) c) b
  have hs' : blkM FA j0 2 * mat 2 2 o.X - mat 2 2 o.X * blkM FA (j0 + 2) 2 = o.scale • mat 2 2 (fun r k => FA (j0 + r) (j0 + 2 + k)) := by
    rw [← eB, ← hsol, hE i0]
    unfold Kernel.sylv
    have : (Matrix.of fun i j => ∑ k, ∑ l, (0 : Fin 2 → Fin 2 → Fin 2 → Fin 2 → ℝ) i j k l * Kernel.mat2 o.X k l) = (0 : Matrix (Fin 2) (Fin 2) ℝ) := by
      ext i j; simp
    rw [this, add_zero, neg_smul, one_smul, ← sub_eq_add_neg]
    rfl
  exact ⟨o, e, s0, s1, fun i j hi hj => h.bnd _ _ s0 s1 hs' ⟨i, hi⟩ ⟨j, hj⟩, hs'⟩

theorem swEmb_congr {ι : Nat → Nat} {l : Nat} {f : (Nat → ℝ) → Nat → ℝ} {H : Matrix (Fin l) (Fin l) ℝ} (hf : SwLin l f H) {x y : Nat → ℝ}
    (h : ∀ k, k < l → x (ι k) = y (ι k)) {r : Nat} (hr : x r = y r) : swEmb ι l f x r = swEmb ι l f y r := by
  unfold swEmb
  rw [hr]
  congr 1
  refine sum_congr rfl fun k hk => if_congr Iff.rfl ?_ rfl
  have hk := mem_range.1 hk
  rw [h k hk]
  congr 1
  refine Eq.trans (congrFun (hf fun i => x (ι i)) ⟨k, hk⟩) (Eq.trans (congrFun (congrArg _ ?_) _) (congrFun (hf fun i => y (ι i)) ⟨k, hk⟩).symm)
  exact vec_ext_iff.2 fun i hi => h i hi

set_option maxHeartbeats 2000000 in
theorem wp_schurSwap22 (hl : HhLaws ℝ hp) {eps small δ : ℝ} (hs : 0 < small) (ok : SchurOK wantq A Q) (hV : V.Inj) (vm : V.m = 4) (vn : V.n = 2)
    (hD : D.Inj) (dm : D.m = 4) (dn : D.n = 4) (hAV : A.Disj V) (hQV : wantq = true → Q.Disj V) (hAD : A.Disj D) (hQD : wantq = true → Q.Disj D)
    (hDV : D.Disj V) (h : SwMem wantq A Q μ FA FQ μ) (hj : j0 + 4 ≤ A.n) (w : SwWin A.n j0 2 2 FA) (sp : SwSep hp eps small j0 FA δ) :
    wp (schurSwap22 (hhOps (𝕜 := ℝ) hp) eps small wantq A Q V D j0) μ (fun x ν => x = 0 ∧ ∃ G GQ, SwExch A.n j0 2 2 FA G ∧
      SwEq wantq A.n FA FQ G GQ ∧ SwRes wantq A Q (fun l => V.Owns l ∨ D.Owns l) μ G GQ ν) := by
  have k1 := ok.Am
  have htb := sp.tbig
  unfold schurSwap22
  simp only [wp_bind]
  refine wp_slice (by omega) (by omega) (by omega) (by omega) ?_
  have hAD' : (A.sub j0 (j0 + 4) j0 (j0 + 4)).Disj D := fun i j hi hj' => by
    simp only [MatV.sub] at hi hj' ⊢
    exact hAD _ _ (by omega) (by omega)
  refine wp_conseq (wp_lacpyG (by simp only [MatV.sub]; omega) (by simp only [MatV.sub]; omega) hD hAD' μ) ?_
  rintro _ ν1 ⟨f1, e1⟩
  have d1 : MState D μ (fun r c => FA (j0 + r) (j0 + c)) ν1 := ⟨fun i j hi hj' => by
    have := congrFun (congrFun e1 ⟨i, hi⟩) ⟨j, hj'⟩
    refine Eq.trans this ?_
    exact h.a _ _ (by omega) (by omega), f1⟩
  unfold lange
  refine wp_conseq (wp_langeG exact_laws (by decide) (by decide) (by omega) (by omega)) ?_
  rintro dnorm ν1' ⟨rfl, -⟩
  refine wp_rd22 (by omega) (by omega) d1.val ?_
  intro TL h1
  refine wp_rd22 (by omega) (by omega) d1.val ?_
  intro TR h2
  refine wp_rd22 (by omega) (by omega) d1.val ?_
  intro Bk h3
  obtain ⟨s, es, s0, s1, xb, hx⟩ := swLasy hs sp h1 h2 h3
  rw [es]
  dsimp only
  simp only [wp_bind]
  refine wp_conseq (wp_swV hV vm vn s.X s.scale) ?_
  intro _ ν2 v2
  refine wp_conseq (wp_swGen hl hV (by omega) vn v2 fun c hc => ?_) ?_
  · rw [vm]
    simp only [sum_range_succ, sum_range_zero, zero_add]
    have b0 := xb 0 c (by omega) hc
    have b1 := xb 1 c (by omega) hc
    have c0 : s.X 0 c ^ 2 ≤ (hp.tbig / 4) ^ 2 := by rw [← sq_abs]; exact pow_le_pow_left₀ (abs_nonneg _) b0 2
    have c1 : s.X 1 c ^ 2 ≤ (hp.tbig / 4) ^ 2 := by rw [← sq_abs]; exact pow_le_pow_left₀ (abs_nonneg _) b1 2
    have c2 : s.scale ^ 2 ≤ 1 := by nlinarith
    rcases (by omega : c = 0 ∨ c = 1) with rfl | rfl <;> simp [swVF] <;> nlinarith
  rintro g ν3 ⟨hg, hf3⟩
  rw [vm] at hg
  have lin : SwLin 4 (swP 4 g.1 g.2.1 g.2.2.1 g.2.2.2) (swM 4 g.1 g.2.1 g.2.2.1 g.2.2.2) := swP_mulVec (by omega) _ _ _ _
  have d3 : MState D ν3 (fun r c => FA (j0 + r) (j0 + c)) ν3 := ⟨fun i j hi hj' => by
    rw [hf3 _ (hDV i j hi hj')]
    exact d1.val i j hi hj', fun _ _ => rfl⟩
  have inj : ∀ a b, a < 4 → b < 4 → (id a : Nat) = id b → a = b := fun a b _ _ e => e
  refine wp_conseq (wp_swApply hD inj (fun k hk => by rw [dm]; exact hk) (by omega) g.1 g.2.2.1 g.2.1 g.2.2.2 (by omega) (by omega) d3) ?_
  intro _ ν4 d4
  refine wp_conseq (wp_swApplyR hD inj (fun k hk => by rw [dn]; exact hk) (by omega) g.1 g.2.2.1 g.2.1 g.2.2.2 (by omega) d4) ?_
  intro _ ν5 d5
  obtain ⟨f, hfe⟩ : ∃ f, f = swP 4 g.1 g.2.1 g.2.2.1 g.2.2.2 := ⟨_, rfl⟩
  rw [← hfe] at lin d5
  have d6 : MState D ν3 (swBoth id 4 f fun r c => FA (j0 + r) (j0 + c)) ν5 := d5.congr fun r c hr hc => by
    rw [if_pos (by omega)]
    exact swEmb_congr lin (fun k hk => by rw [if_pos ⟨by omega, by simpa using hk⟩]) (by rw [if_pos (by omega)])
  -- the algebra
  have ex := SwAlg.case22 (H := swM 4 g.1 g.2.1 g.2.2.1 g.2.2.2) (M := mat 4 4 fun r c => FA (j0 + r) (j0 + c)) (V := mat 4 2 (swVF s.X s.scale)) (s := s.scale) hg.orth
    ⟨w.zm _ _ (by simp) (by simp) (by simp) (by simp), w.zm _ _ (by simp) (by simp) (by simp) (by simp),
      w.zm _ _ (by simp) (by simp) (by simp) (by simp), w.zm _ _ (by simp) (by simp) (by simp) (by simp)⟩
    s0.ne' ⟨by simp [mat, swVF], by simp [mat, swVF], by simp [mat, swVF], by simp [mat, swVF]⟩ (by
      have q : ∀ a b : Fin 2, _ := fun a b => congrFun (congrFun hx a) b
      have q00 := q 0 0
      have q01 := q 0 1
      have q10 := q 1 0
      have q11 := q 1 1
      simp only [Matrix.sub_apply, Matrix.mul_apply, Fin.sum_univ_two, blkM, mat, Matrix.of_apply, Matrix.smul_apply, smul_eq_mul] at q00 q01 q10 q11
      simp at q00 q01 q10 q11
      simp only [show j0 + 2 + 1 = j0 + 3 from rfl] at q00 q01 q10 q11
      have z20 := w.zm (j0 + 2) j0 (by omega) (by omega) (by omega) (by omega)
      have z21 := w.zm (j0 + 2) (j0 + 1) (by omega) (by omega) (by omega) (by omega)
      have z30 := w.zm (j0 + 3) j0 (by omega) (by omega) (by omega) (by omega)
      have z31 := w.zm (j0 + 3) (j0 + 1) (by omega) (by omega) (by omega) (by omega)
      ext a b
      rw [Matrix.mul_apply, Matrix.mul_apply, Fin.sum_univ_four, Fin.sum_univ_two]
      fin_cases a <;> fin_cases b <;> simp [mat, swVF, z20, z21, z30, z31] <;>
        first
        | linear_combination q00
        | linear_combination q01
        | linear_combination q10
        | linear_combination q11
        | ring)
    ⟨swP_zero (by omega) (by omega : 1 < 4) (hg.z0 1 (by omega) (by omega)), swP_zero (by omega) (by omega : 2 < 4) (hg.z0 2 (by omega) (by omega)),
      swP_zero (by omega) (by omega : 3 < 4) (hg.z0 3 (by omega) (by omega))⟩
    ⟨swP_zero (by omega) (by omega : 2 < 4) (hg.z1 2 (by omega) (by omega)), swP_zero (by omega) (by omega : 3 < 4) (hg.z1 3 (by omega) (by omega))⟩
  have hw0 := swBoth_win (ι := id) inj lin (fun r c => FA (j0 + r) (j0 + c))
  have ex0 := ex
  rw [show (mat 4 4 fun r c => FA (j0 + r) (j0 + c)) = mat 4 4 fun r c => FA (j0 + id r) (j0 + id c) from rfl, ← hw0] at ex0
  obtain ⟨⟨a20, a21, a30, a31⟩, -⟩ := ex0
  change swBoth id 4 f (fun r c => FA (j0 + r) (j0 + c)) 2 0 = 0 at a20
  change swBoth id 4 f (fun r c => FA (j0 + r) (j0 + c)) 2 1 = 0 at a21
  change swBoth id 4 f (fun r c => FA (j0 + r) (j0 + c)) 3 0 = 0 at a30
  change swBoth id 4 f (fun r c => FA (j0 + r) (j0 + c)) 3 1 = 0 at a31
  refine wp_rd22 (by omega) (by omega) d6.val ?_
  rintro Ek ⟨g1, g2, g3, g4⟩
  rw [g1, g2, g3, g4, a20, a21, a30, a31, if_neg (by
    simp only [abs_zero, max_self]
    exact not_lt.2 (le_trans hs.le (le_max_right _ _)))]
  have hoff : ∀ l, ¬ (V.Owns l ∨ D.Owns l) → ν5 l = μ l := fun l hl' => by
    rw [d6.frame l fun h => hl' (.inr h), hf3 l fun h => hl' (.inl h)]
    exact f1 l fun h => hl' (.inr h)
  have m5 : SwMem wantq A Q ν5 FA FQ ν5 := ⟨fun r c hr hc => (hoff _ (not_or.2 ⟨hAV r c hr hc, hAD r c hr hc⟩)).trans (h.a r c hr hc),
    fun w r c hr hc => (hoff _ (not_or.2 ⟨hQV w r c hr hc, hQD w r c hr hc⟩)).trans (h.q w r c hr hc), fun _ _ _ => rfl⟩
  have hi : SwIdx (fun k => j0 + k) 4 j0 A.n := ⟨fun a b _ _ e => by omega, fun k hk => by omega, fun k hk => by omega, by omega, by omega⟩
  simp only [wp_bind]
  refine wp_conseq (wp_swSim ok hi g m5 w.zl fun r k a b c => w.zb r k (by omega) b (by omega)) ?_
  intro _ ν6 m6
  rw [← hfe] at m6
  have hw := swBoth_win hi.inj lin FA
  rw [← hw] at ex
  obtain ⟨S, hS⟩ : ∃ S, S = swBoth (fun k => j0 + k) 4 f FA := ⟨_, rfl⟩
  rw [← hS] at ex m6
  obtain ⟨⟨z20, z21, z30, z31⟩, ⟨t1, t2⟩, t3, t4⟩ := ex
  change S (j0 + 2) j0 = 0 at z20
  change S (j0 + 2) (j0 + 1) = 0 at z21
  change S (j0 + 3) j0 = 0 at z30
  change S (j0 + 3) (j0 + 1) = 0 at z31
  have core := swCore (wantq := wantq) (FQ := FQ) (n1 := 2) (n2 := 2) hi lin hg.orth rfl w (by
    rw [← hS]
    intro r k a b c d
    rcases (by omega : k = j0 ∨ k = j0 + 1) with rfl | rfl
    · rcases (by omega : r = k + 2 ∨ r = k + 3) with rfl | rfl
      · exact z20
      · exact z30
    · rcases (by omega : r = j0 + 2 ∨ r = j0 + 3) with rfl | rfl
      · exact z21
      · exact z31) (by
    rw [← hS]
    exact blkM_two _ _ t1 t2) (by
    rw [← hS]
    exact blkM_two _ _ t3 t4)
  rw [← hS] at core
  refine wp_conseq (m6.zero ok (by omega) (by omega) z20) ?_
  intro _ ν7 m7
  refine wp_conseq (m7.zero ok (by omega) (by omega) z21) ?_
  intro _ ν8 m8
  refine wp_conseq (m8.zero ok (by omega) (by omega) z30) ?_
  intro _ ν9 m9
  refine wp_conseq (m9.zero ok (by omega) (by omega) z31) ?_
  intro _ ν10 m10
  rw [wp_pure]
  exact ⟨rfl, _, _, core.1, core.2, m10.res hoff⟩

end TLA
