import Verif.Proofs.SchurBlkE

set_option linter.unusedTactic false
set_option linter.unusedSectionVars false
set_option linter.unusedVariables false
set_option linter.unreachableTactic false
set_option linter.unusedSimpArgs false

/-! schur_swap for real matrices: the exchange of a block of order one with one of order two. -/

namespace TLA
open Matrix Finset
variable {L : Type} [DecidableEq L] {hp : HhPar}
variable {wantq : Bool} {A Q B : MatV L} {μ ν : Store L ℝ} {FA FQ G : Nat → Nat → ℝ} {n j0 n1 n2 : Nat}

theorem swCore {ι : Nat → Nat} {l : Nat} {f : (Nat → ℝ) → Nat → ℝ} {H : Matrix (Fin l) (Fin l) ℝ} (hi : SwIdx ι l j0 n) (hf : SwLin l f H)
    (hH : H * Hᵀ = 1) (hl : n1 + n2 = l) (w : SwWin n j0 n1 n2 FA)
    (zm : ∀ r k, j0 + n2 ≤ r → r < j0 + (n2 + n1) → j0 ≤ k → k < j0 + n2 → swBoth ι l f FA r k = 0)
    (c1 : (blkM (swBoth ι l f FA) j0 n2).charpoly = (blkM FA (j0 + n1) n2).charpoly)
    (c2 : (blkM (swBoth ι l f FA) (j0 + n2) n1).charpoly = (blkM FA j0 n1).charpoly) :
    SwExch n j0 n1 n2 FA (swBoth ι l f FA) ∧ SwEq wantq n FA FQ (swBoth ι l f FA) (fun r c => swEmb ι l f (FQ r) c) := by
  have hU := swU_orth hi.inj (fun k hk => hi.lt hk) hH
  have nin : ∀ r, (r < j0 ∨ j0 + l ≤ r) → ∀ k, k < l → ι k ≠ r := fun r hr k hk => by
    have := hi.lo k hk; have := hi.hi k hk; omega
  refine ⟨⟨⟨?_, ?_, zm⟩, ?_, c1, c2⟩, ?_⟩
  · intro r k h1 h2 h3
    rw [swBoth_zc hf (nin k (.inl h3)) (fun i hi' => w.zl _ _ (hi.lo i hi') (hi.lt hi') h3), w.zl r k h1 h2 h3]
  · intro r k h1 h2 h3
    rw [swBoth_zr hf (nin r (.inr (by omega))) (fun i hi' => w.zb _ _ (by omega) h2 (by have := hi.hi i hi'; omega)), w.zb r k (by omega) h2 (by omega)]
  · intro r k _ _ hr hk
    exact swBoth_out (nin r (by omega)) (nin k (by omega))
  · have e0 : SwEq wantq n FA FQ FA FQ := ⟨1, by simp, by simp, by simp⟩
    exact e0.ortho hU (swBoth_mat hi.inj (fun k hk => hi.lt hk) hf FA) (fun _ => swEmb_matR hi.inj (fun k hk => hi.lt hk) hf n FQ)

set_option maxHeartbeats 1000000 in
theorem wp_schurSwap12 (hl : HhLaws ℝ hp) (ok : SchurOK wantq A Q) (hB : B.Inj) (bm : B.m = 3) (bn : B.n = 2) (hAB : A.Disj B)
    (hQB : wantq = true → Q.Disj B) (h : SwMem wantq A Q μ FA FQ μ) (hj : j0 + 3 ≤ A.n) (w : SwWin A.n j0 1 2 FA)
    (bd : ∀ r k, j0 ≤ r → r < j0 + 3 → j0 ≤ k → k < j0 + 3 → |FA r k| ≤ hp.tbig / 4) :
    wp (schurSwap12 (hhOps (𝕜 := ℝ) hp) wantq A Q B j0) μ (fun _ ν => ∃ G GQ, SwExch A.n j0 1 2 FA G ∧ SwEq wantq A.n FA FQ G GQ ∧
      SwRes wantq A Q B.Owns μ G GQ ν) := by
  have k1 := ok.Am
  unfold schurSwap12
  simp only [wp_bind]
  refine wp_conseq (wp_swB12 k1 hB bm bn hAB hj h.a) ?_
  intro _ ν1 h1
  have bt := bd j0 j0 (by omega) (by omega) (by omega) (by omega)
  have htb := hl.tbig_one
  refine wp_conseq (wp_swGen hl hB (by omega) bn h1 fun c hc => ?_) ?_
  · rw [bm]
    refine sum_bound (c := hp.tbig / 2) (by linarith) (fun k hk => ?_) (by push_cast; nlinarith)
    have b1 := bd (j0 + k) (j0 + (c + 1)) (by omega) (by omega) (by omega) (by omega)
    beta_reduce
    split
    · exact le_trans (abs_sub _ _) (by linarith)
    · rw [sub_zero]; linarith
  rintro g ν2 ⟨hg, hf2⟩
  rw [bm] at hg
  have m2 := h.off hAB hQB hf2
  have hi : SwIdx (fun k => j0 + k) 3 j0 A.n := ⟨fun a b _ _ e => by omega, fun k hk => by omega, fun k hk => by omega,
    by omega, by omega⟩
  refine wp_conseq (wp_swSim ok hi g m2 w.zl fun r k a b c => w.zb r k (by omega) b (by omega)) ?_
  intro _ ν3 m3
  have lin : SwLin 3 (swP 3 g.1 g.2.1 g.2.2.1 g.2.2.2) (swM 3 g.1 g.2.1 g.2.2.1 g.2.2.2) := swP_mulVec (by omega) _ _ _ _
  have q1 := swP_zero (by omega) (by omega : 2 < 3) (hg.z0 2 (by omega) (by omega))
  have q2 := swP_zero (by omega) (by omega : 2 < 3) (hg.z1 2 (by omega) (by omega))
  have hw := swBoth_win hi.inj lin FA
  have ex := SwAlg.case12 (M := mat 3 3 fun r c => FA (j0 + r) (j0 + c)) hg.orth (w.zm _ _ (by simp) (by simp) (by simp) (by simp))
    (w.zm _ _ (by simp) (by simp) (by simp) (by simp)) (by
      refine Eq.trans (congrArg (fun y => Matrix.mulVec _ y _) ?_) q1
      funext k
      fin_cases k <;> simp [vec, mat]) (by
      refine Eq.trans (congrArg (fun y => Matrix.mulVec _ y _) ?_) q2
      funext k
      fin_cases k <;> simp [vec, mat])
  obtain ⟨S, hS⟩ : ∃ S, S = swBoth (fun k => j0 + k) 3 (swP 3 g.1 g.2.1 g.2.2.1 g.2.2.2) FA := ⟨_, rfl⟩
  rw [← hS] at hw m3
  rw [← hw] at ex
  obtain ⟨z20, z21, e22, t1, t2⟩ := ex
  change S (j0 + 2) (j0 + 0) = 0 at z20
  change S (j0 + 2) (j0 + 1) = 0 at z21
  change S (j0 + 2) (j0 + 2) = FA (j0 + 0) (j0 + 0) at e22
  change S (j0 + 0) (j0 + 0) + S (j0 + 1) (j0 + 1) = FA (j0 + 1) (j0 + 1) + FA (j0 + 2) (j0 + 2) at t1
  change S (j0 + 0) (j0 + 0) ^ 2 + 2 * (S (j0 + 0) (j0 + 1) * S (j0 + 1) (j0 + 0)) + S (j0 + 1) (j0 + 1) ^ 2 =
    FA (j0 + 1) (j0 + 1) ^ 2 + 2 * (FA (j0 + 1) (j0 + 2) * FA (j0 + 2) (j0 + 1)) + FA (j0 + 2) (j0 + 2) ^ 2 at t2
  rw [Nat.add_zero] at z20 e22 t1 t2
  have core := swCore (wantq := wantq) (FQ := FQ) (n1 := 1) (n2 := 2) hi lin hg.orth rfl w (by
    rw [← hS]
    intro r k a b c d
    rcases (by omega : k = j0 ∨ k = j0 + 1) with rfl | rfl
    · rw [show r = k + 2 by omega]; exact z20
    · rw [show r = j0 + 2 by omega]; exact z21) (by
    rw [← hS]
    exact blkM_two _ _ t1 t2) (by
    rw [← hS]
    exact blkM_one _ _ e22)
  rw [← hS] at core
  refine wp_conseq (m3.zero ok (by omega) (by omega) z20) ?_
  intro _ ν4 m4
  refine wp_conseq (m4.zero ok (by omega) (by omega) z21) ?_
  intro _ ν5 m5
  exact ⟨_, _, core.1, core.2, m5.res hf2⟩

set_option maxHeartbeats 1000000 in
theorem wp_schurSwap21 (hl : HhLaws ℝ hp) (ok : SchurOK wantq A Q) (hB : B.Inj) (bm : B.m = 3) (bn : B.n = 2) (hAB : A.Disj B)
    (hQB : wantq = true → Q.Disj B) (h : SwMem wantq A Q μ FA FQ μ) (hj : j0 + 3 ≤ A.n) (w : SwWin A.n j0 2 1 FA)
    (bd : ∀ r k, j0 ≤ r → r < j0 + 3 → j0 ≤ k → k < j0 + 3 → |FA r k| ≤ hp.tbig / 4) :
    wp (schurSwap21 (hhOps (𝕜 := ℝ) hp) wantq A Q B j0) μ (fun _ ν => ∃ G GQ, SwExch A.n j0 2 1 FA G ∧ SwEq wantq A.n FA FQ G GQ ∧
      SwRes wantq A Q B.Owns μ G GQ ν) := by
  have k1 := ok.Am
  unfold schurSwap21
  simp only [wp_bind]
  refine wp_conseq (wp_swB21 k1 hB bm bn hAB hj h.a) ?_
  intro _ ν1 h1
  have bt := bd (j0 + 2) (j0 + 2) (by omega) (by omega) (by omega) (by omega)
  have htb := hl.tbig_one
  refine wp_conseq (wp_swGen hl hB (by omega) bn h1 fun c hc => ?_) ?_
  · rw [bm]
    refine sum_bound (c := hp.tbig / 2) (by linarith) (fun k hk => ?_) (by push_cast; nlinarith)
    have b1 := bd (j0 + (2 - (c + 1))) (j0 + (2 - k)) (by omega) (by omega) (by omega) (by omega)
    beta_reduce
    split
    · exact le_trans (abs_sub _ _) (by linarith)
    · rw [sub_zero]; linarith
  rintro g ν2 ⟨hg, hf2⟩
  rw [bm] at hg
  have m2 := h.off hAB hQB hf2
  have hi : SwIdx (fun k => j0 + (2 - k)) 3 j0 A.n := ⟨fun a b _ _ e => by omega, fun k hk => by omega, fun k hk => by omega,
    by omega, by omega⟩
  refine wp_conseq (wp_swSim ok hi g m2 w.zl fun r k a b c => w.zb r k (by omega) b (by omega)) ?_
  intro _ ν3 m3
  have lin : SwLin 3 (swP 3 g.1 g.2.1 g.2.2.1 g.2.2.2) (swM 3 g.1 g.2.1 g.2.2.1 g.2.2.2) := swP_mulVec (by omega) _ _ _ _
  have q1 := swP_zero (by omega) (by omega : 2 < 3) (hg.z0 2 (by omega) (by omega))
  have q2 := swP_zero (by omega) (by omega : 2 < 3) (hg.z1 2 (by omega) (by omega))
  have hw := swBoth_win hi.inj lin FA
  have ex := SwAlg.case21 (M := mat 3 3 fun r c => FA (j0 + (2 - r)) (j0 + (2 - c))) hg.orth (w.zm _ _ (by simp) (by simp) (by simp) (by simp))
    (w.zm _ _ (by simp) (by simp) (by simp) (by simp)) (by
      refine Eq.trans (congrArg (fun y => Matrix.mulVec _ y _) ?_) q1
      funext k
      fin_cases k <;> simp [vec, mat]) (by
      refine Eq.trans (congrArg (fun y => Matrix.mulVec _ y _) ?_) q2
      funext k
      fin_cases k <;> simp [vec, mat])
  obtain ⟨S, hS⟩ : ∃ S, S = swBoth (fun k => j0 + (2 - k)) 3 (swP 3 g.1 g.2.1 g.2.2.1 g.2.2.2) FA := ⟨_, rfl⟩
  rw [← hS] at hw m3
  rw [← hw] at ex
  obtain ⟨z02, z12, e22, t1, t2⟩ := ex
  change S (j0 + 2) (j0 + 0) = 0 at z02
  change S (j0 + 1) (j0 + 0) = 0 at z12
  change S (j0 + 0) (j0 + 0) = FA (j0 + 2) (j0 + 2) at e22
  change S (j0 + 2) (j0 + 2) + S (j0 + 1) (j0 + 1) = FA (j0 + 1) (j0 + 1) + FA j0 j0 at t1
  change S (j0 + 2) (j0 + 2) ^ 2 + 2 * (S (j0 + 2) (j0 + 1) * S (j0 + 1) (j0 + 2)) + S (j0 + 1) (j0 + 1) ^ 2 =
    FA (j0 + 1) (j0 + 1) ^ 2 + 2 * (FA (j0 + 1) j0 * FA j0 (j0 + 1)) + FA j0 j0 ^ 2 at t2
  rw [Nat.add_zero] at z02 z12 e22
  have core := swCore (wantq := wantq) (FQ := FQ) (n1 := 2) (n2 := 1) hi lin hg.orth rfl w (by
    rw [← hS]
    intro r k a b c d
    obtain rfl : k = j0 := by omega
    rcases (by omega : r = k + 1 ∨ r = k + 2) with rfl | rfl
    · exact z12
    · exact z02) (by
    rw [← hS]
    exact blkM_one _ _ e22) (by
    rw [← hS]
    refine blkM_two _ _ ?_ ?_
    · show S (j0 + 1) (j0 + 1) + S (j0 + 2) (j0 + 2) = FA j0 j0 + FA (j0 + 1) (j0 + 1)
      linarith
    · show S (j0 + 1) (j0 + 1) ^ 2 + 2 * (S (j0 + 1) (j0 + 2) * S (j0 + 2) (j0 + 1)) + S (j0 + 2) (j0 + 2) ^ 2 =
        FA j0 j0 ^ 2 + 2 * (FA j0 (j0 + 1) * FA (j0 + 1) j0) + FA (j0 + 1) (j0 + 1) ^ 2
      linear_combination t2)
  rw [← hS] at core
  refine wp_conseq (m3.zero ok (by omega) (by omega) z12) ?_
  intro _ ν4 m4
  refine wp_conseq (m4.zero ok (by omega) (by omega) z02) ?_
  intro _ ν5 m5
  exact ⟨_, _, core.1, core.2, m5.res hf2⟩

end TLA
