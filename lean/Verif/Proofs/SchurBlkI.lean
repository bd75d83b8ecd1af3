import Verif.Proofs.SchurBlkH

set_option linter.unusedTactic false
set_option linter.unusedSectionVars false
set_option linter.unusedVariables false
set_option linter.unreachableTactic false
set_option linter.unusedSimpArgs false

/-! schur_swap for real matrices: the whole routine for blocks that do not split. -/

namespace TLA
open Matrix Finset
variable {L : Type} [DecidableEq L] {hp : HhPar}
variable {wantq : Bool} {A Q B V D : MatV L} {μ ν : Store L ℝ} {FA FQ F G : Nat → Nat → ℝ} {n j0 n1 n2 : Nat}

theorem blkM_congr {F G : Nat → Nat → ℝ} {j m : Nat} (h : ∀ r k, j ≤ r → r < j + m → j ≤ k → k < j + m → F r k = G r k) : blkM F j m = blkM G j m := by
  ext a b
  exact h _ _ (by omega) (by omega) (by omega) (by omega)

theorem SwExch.congrG {G' : Nat → Nat → ℝ} (e : SwExch n j0 n1 n2 F G) (h : ∀ r k, r < n → k < n → G' r k = G r k) (hj : j0 + n1 + n2 ≤ n) :
    SwExch n j0 n1 n2 F G' := by
  obtain ⟨w, o, c1, c2⟩ := e
  refine ⟨⟨fun r k a b c => ?_, fun r k a b c => ?_, fun r k a b c d => ?_⟩, fun r k a b c d => ?_, ?_, ?_⟩
  · rw [h _ _ b (by omega), w.zl r k a b c]
  · rw [h _ _ b (by omega), w.zb r k a b c]
  · rw [h _ _ (by omega) (by omega), w.zm r k a b c d]
  · rw [h _ _ a b, o r k a b c d]
  · rw [← c1, blkM_congr fun r k a b c d => h r k (by omega) (by omega)]
  · rw [← c2, blkM_congr fun r k a b c d => h r k (by omega) (by omega)]

theorem SwExch.std1 {c s : ℝ} (e : SwExch n j0 n1 2 F G) (hj : j0 + n1 + 2 ≤ n)
    (hc : (blkM (simRot j0 (j0 + 1) c s G) j0 2).charpoly = (blkM G j0 2).charpoly) : SwExch n j0 n1 2 F (simRot j0 (j0 + 1) c s G) := by
  obtain ⟨w, o, c1, c2⟩ := e
  refine ⟨⟨?_, ?_, ?_⟩, ?_, hc.trans c1, ?_⟩
  · intro r k h1 h2 h3
    exact simRot_zero_col (by omega) (by omega) (w.zl r k h1 h2 h3) fun _ => ⟨w.zl _ _ (by omega) (by omega) h3, w.zl _ _ (by omega) (by omega) h3⟩
  · intro r k h1 h2 h3
    exact simRot_zero_row (by omega) (by omega) (w.zb r k h1 h2 h3) fun _ => ⟨w.zb _ _ h1 h2 (by omega), w.zb _ _ h1 h2 (by omega)⟩
  · intro r k h1 h2 h3 h4
    exact simRot_zero_row (by omega) (by omega) (w.zm r k h1 h2 h3 h4) fun _ => ⟨w.zm _ _ h1 h2 (by omega) (by omega), w.zm _ _ h1 h2 (by omega) (by omega)⟩
  · intro r k b1 b2 h1 h2
    rw [simRot_out (by omega) (by omega) (by omega) (by omega), o r k b1 b2 h1 h2]
  · rw [← c2, blkM_congr fun r k a b c d => simRot_out (by omega) (by omega) (by omega) (by omega)]

theorem SwExch.std2 {c s : ℝ} (e : SwExch n j0 2 n2 F G) (hj : j0 + 2 + n2 ≤ n)
    (hc : (blkM (simRot (j0 + n2) (j0 + n2 + 1) c s G) (j0 + n2) 2).charpoly = (blkM G (j0 + n2) 2).charpoly) :
    SwExch n j0 2 n2 F (simRot (j0 + n2) (j0 + n2 + 1) c s G) := by
  obtain ⟨w, o, c1, c2⟩ := e
  refine ⟨⟨?_, ?_, ?_⟩, ?_, ?_, hc.trans c2⟩
  · intro r k h1 h2 h3
    exact simRot_zero_col (by omega) (by omega) (w.zl r k h1 h2 h3) fun _ => ⟨w.zl _ _ (by omega) (by omega) h3, w.zl _ _ (by omega) (by omega) h3⟩
  · intro r k h1 h2 h3
    exact simRot_zero_row (by omega) (by omega) (w.zb r k h1 h2 h3) fun _ => ⟨w.zb _ _ h1 h2 (by omega), w.zb _ _ h1 h2 (by omega)⟩
  · intro r k h1 h2 h3 h4
    exact simRot_zero_col (by omega) (by omega) (w.zm r k h1 h2 h3 h4) fun _ => ⟨w.zm _ _ (by omega) (by omega) h3 h4, w.zm _ _ (by omega) (by omega) h3 h4⟩
  · intro r k b1 b2 h1 h2
    rw [simRot_out (by omega) (by omega) (by omega) (by omega), o r k b1 b2 h1 h2]
  · rw [← c1, blkM_congr fun r k a b c d => simRot_out (by omega) (by omega) (by omega) (by omega)]

theorem CplxBlk.of {F G : Nat → Nat → ℝ} {j i : Nat} (h : (blkM F j 2).charpoly = (blkM G i 2).charpoly) (c : CplxBlk G i) : CplxBlk F j := by
  unfold CplxBlk at c ⊢
  rw [Matrix.trace_eq_neg_charpoly_coeff, Matrix.det_eq_sign_charpoly_coeff, h, ← Matrix.trace_eq_neg_charpoly_coeff, ← Matrix.det_eq_sign_charpoly_coeff]
  exact c

theorem CplxBlk.disc {F : Nat → Nat → ℝ} {j : Nat} (c : CplxBlk F j) :
    ((F j j - F (j + 1) (j + 1)) / 2) * ((F j j - F (j + 1) (j + 1)) / 2) + F j (j + 1) * F (j + 1) j < 0 := by
  unfold CplxBlk at c
  rw [Matrix.trace_fin_two, Matrix.det_fin_two] at c
  change (F j j + F (j + 1) (j + 1)) ^ 2 < 4 * (F j j * F (j + 1) (j + 1) - F j (j + 1) * F (j + 1) j) at c
  nlinarith

theorem CplxBlk.ne {F : Nat → Nat → ℝ} {j : Nat} (c : CplxBlk F j) : F (j + 1) j ≠ 0 := fun h => by
  have := c.disc
  rw [h, mul_zero, add_zero] at this
  exact absurd this (not_lt.2 (mul_self_nonneg _))

theorem CplxBlk.std {F : Nat → Nat → ℝ} {j : Nat} (c : CplxBlk F j) (h : F j j = F (j + 1) (j + 1) ∨ F j (j + 1) + F (j + 1) j ≠ 0) : StdOK F j := by
  refine ⟨?_, h.imp_right .inr⟩
  by_cases e : F j j = F (j + 1) (j + 1)
  · have := c.disc
    rw [e, sub_self, zero_div, mul_zero, zero_add] at this
    exact .inr this.le
  · exact .inl e

set_option maxHeartbeats 1000000 in
theorem wp_schurStds {pr : Kernel.SchurPar} (he : 0 < pr.eps) (hm : 0 < pr.safmn2) (ok : SchurOK wantq A Q) {A0 Q0 : Nat → Nat → ℝ}
    (h : SwMem wantq A Q ν FA FQ ν) (hj : j0 + n1 + n2 ≤ A.n) (ex : SwExch A.n j0 n1 n2 F FA) (eq : SwEq wantq A.n A0 Q0 FA FQ)
    (h1 : n1 = 1 ∨ n1 = 2) (h2 : n2 = 1 ∨ n2 = 2) (s2 : n2 = 2 → CplxBlk FA j0 ∧ StdOK FA j0) (s1 : n1 = 2 → CplxBlk FA (j0 + n2) ∧ StdOK FA (j0 + n2)) :
    wp (schurStds pr wantq A Q j0 n1 n2) ν (fun _ ν' => ∃ G GQ, SwExch A.n j0 n1 n2 F G ∧ SwEq wantq A.n A0 Q0 G GQ ∧ SwMem wantq A Q ν G GQ ν' ∧
      (n2 = 2 → Kernel.StdSchur (blkM G j0 2)) ∧ (n1 = 2 → Kernel.StdSchur (blkM G (j0 + n2) 2))) := by
  unfold schurStds
  rw [wp_bind]
  have first : wp (if n2 = 2 then schurStd pr wantq A Q j0 else pure () : M L ℝ Unit) ν (fun _ ν' => ∃ G GQ, SwExch A.n j0 n1 n2 F G ∧
      SwEq wantq A.n A0 Q0 G GQ ∧ SwMem wantq A Q ν G GQ ν' ∧ (n2 = 2 → Kernel.StdSchur (blkM G j0 2)) ∧
      ∀ r k, j0 + n2 ≤ r → j0 + n2 ≤ k → G r k = FA r k) := by
    rw [wp_ite]
    split
    · next e =>
      subst e
      refine wp_conseq (wp_schurStd he hm ok h (by omega) ex.win.zl (fun r k a b c => ?_) (s2 rfl).2) ?_
      · by_cases hk : k < j0
        · exact ex.win.zl r k (by omega) b hk
        · by_cases hr : r < j0 + (2 + n1)
          · exact ex.win.zm r k a hr (by omega) c
          · exact ex.win.zb r k (by omega) b (by omega)
      rintro _ ν1 ⟨c, s, hr, hc, hs, m⟩
      exact ⟨_, _, ex.std1 (by omega) hc, eq.rot (by omega) (by omega) (by omega) hr, m, fun _ => hs ((s2 rfl).1.disc).ne,
        fun r k a b => simRot_out (by omega) (by omega) (by omega) (by omega)⟩
    · next e =>
      rw [wp_pure]
      exact ⟨FA, FQ, ex, eq, h, fun e' => absurd e' e, fun _ _ _ _ => rfl⟩
  refine wp_conseq first ?_
  rintro _ ν1 ⟨G, GQ, ex1, eq1, m1, st1, same⟩
  rw [wp_ite]
  split
  · next e =>
    subst e
    have eb : blkM G (j0 + n2) 2 = blkM FA (j0 + n2) 2 := blkM_congr fun r k a b c d => same r k a c
    have hst : StdOK G (j0 + n2) := by
      have := (s1 rfl).2
      unfold StdOK at this ⊢
      rw [same _ _ (le_refl _) (le_refl _), same _ _ (le_refl _) (by omega), same _ _ (by omega) (le_refl _), same _ _ (by omega) (by omega)]
      exact this
    refine wp_conseq (wp_schurStd he hm ok m1 (by omega) (fun r k a b c => ?_) (fun r k a b c => ex1.win.zb r k (by omega) b (by omega)) hst) ?_
    · by_cases hk : k < j0
      · exact ex1.win.zl r k (by omega) b hk
      · by_cases hr : r < j0 + (n2 + 2)
        · exact ex1.win.zm r k a hr (by omega) c
        · exact ex1.win.zb r k (by omega) b (by omega)
    rintro _ ν2 ⟨c, s, hr, hc, hs, m⟩
    refine ⟨_, _, ex1.std2 (by omega) hc, eq1.rot (by omega) (by omega) (by omega) hr, m, fun e2 => ?_, fun _ => hs ?_⟩
    · rw [blkM_congr fun r k a b c d => simRot_out (by omega) (by omega) (by omega) (by omega)]
      exact st1 e2
    · rw [same _ _ (le_refl _) (le_refl _), same _ _ (le_refl _) (by omega), same _ _ (by omega) (le_refl _), same _ _ (by omega) (by omega)]
      exact ((s1 rfl).1.disc).ne
  · next e =>
    rw [wp_pure]
    exact ⟨G, GQ, ex1, eq1, m1, st1, fun e' => absurd e' e⟩

/-- The routine after the checks, for blocks that do not split. -/
theorem wp_schurSwapR_nosplit {o : HhOps ℝ ℝ} {ro : RotOps ℝ} {pr : Kernel.SchurPar} {eps small : ℝ} (ok : SchurOK wantq A Q)
    (h1 : n1 = 1 ∨ n1 = 2) (h2 : n2 = 1 ∨ n2 = 2) (hj : j0 + n1 + n2 ≤ A.n) (c1 : n1 = 2 → entry μ A (j0 + 1) j0 ≠ 0)
    (c2 : n2 = 2 → entry μ A (j0 + n1 + 1) (j0 + n1) ≠ 0) {K : Nat → Store L ℝ → Prop}
    (h : wp (schurExch o ro eps small wantq A Q B V D j0 n1 n2) μ (fun r ν => if r = 1 then K 1 ν else
      wp (schurStds pr wantq A Q j0 n1 n2) ν (fun _ ν' => K 0 ν'))) :
    wp (schurSwapR o ro pr eps small wantq A Q B V D j0 n1 n2) μ K := by
  have k1 := ok.Am
  have k2 := ok.Qm
  have k3 := ok.Qn
  rw [schurSwapR]
  simp only [wp_bind]
  rw [wp_check, if_pos (by simpa using k1), wp_check, if_pos (by simpa using k2), wp_check, if_pos (by simpa using k3), wp_check, if_pos (by simpa using hj),
    wp_check, if_pos (by simpa using h1), wp_check, if_pos (by simpa using h2)]
  have t1 : wp (if n1 = 2 then do
      let x ← A.get (j0 + 1) j0
      pure (decide (x = 0))
      else pure false : M L ℝ Bool) μ (fun z ν => ν = μ ∧ z = false) := by
    rw [wp_ite]
    split
    · next e =>
      rw [wp_bind]
      refine wp_getE ⟨by omega, by omega⟩ ?_
      rw [wp_pure]
      exact ⟨rfl, decide_eq_false (c1 e)⟩
    · rw [wp_pure]; exact ⟨rfl, rfl⟩
  refine wp_conseq t1 ?_
  rintro _ ν0 ⟨e0, rfl⟩
  rw [e0]
  rw [dif_neg (by simp)]
  simp only [wp_bind]
  have t2 : wp (if n2 = 2 then do
      let x ← A.get (j0 + n1 + 1) (j0 + n1)
      pure (decide (x = 0))
      else pure false : M L ℝ Bool) μ (fun z ν => ν = μ ∧ z = false) := by
    rw [wp_ite]
    split
    · next e =>
      rw [wp_bind]
      refine wp_getE ⟨by omega, by omega⟩ ?_
      rw [wp_pure]
      exact ⟨rfl, decide_eq_false (c2 e)⟩
    · rw [wp_pure]; exact ⟨rfl, rfl⟩
  refine wp_conseq t2 ?_
  rintro _ ν0 ⟨e0, rfl⟩
  rw [e0]
  rw [dif_neg (by simp)]
  simp only [wp_bind]
  refine wp_conseq h ?_
  intro r ν hr
  rw [wp_ite]
  split
  · next e => rw [if_pos e] at hr; rw [wp_pure]; exact hr
  · next e =>
    rw [if_neg e] at hr
    rw [wp_bind]
    refine wp_conseq hr ?_
    intro _ ν' h'
    rw [wp_pure]; exact h'

end TLA
