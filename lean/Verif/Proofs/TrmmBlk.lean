import Verif.SpecBlasX
import Verif.Proofs.TrmmOut
import Verif.Proofs.Larfb
import Verif.Proofs.Potf2

set_option linter.unusedTactic false
set_option linter.unreachableTactic false
set_option linter.unusedSectionVars false
set_option linter.unusedVariables false

/-! trmm_blocked_mixed. -/

namespace TLA
variable {L 𝕜 : Type} [DecidableEq L] [RCLike 𝕜]
open Finset

theorem wp_trmmBlocked {nb : Nat} {diag : Diag} {alpha : 𝕜} {A B : MatV L} {work : VecV L} {μ : Store L 𝕜}
    (hnb : 0 < nb) (h : TrmmBlkOK nb A B work) :
    wp (trmmBlockedMixed nb .Left .Upper .NoTrans diag alpha A B work) μ (fun _ ν =>
      (∀ l, ¬ B.Owns l → ¬ work.Owns l → ν l = μ l) ∧
      mat B.m B.n (entry ν B) = alpha • (mat B.m B.m (triF .Upper diag (entry μ A)) * mat B.m B.n (entry μ B))) := by
  obtain ⟨h1, h2, hB, hw, hAB, hAw, hBw, wn⟩ := h
  unfold trmmBlockedMixed
  simp only [wp_bind, wp_check]
  rw [if_pos (by decide), if_pos (by decide), if_pos (by decide), if_pos (by simp; omega), if_pos (by simp; omega)]
  refine wp_reshapeWM wn ?_
  simp only [reduceIte, and_self, wp_bind]
  by_cases hm0 : B.m = 0
  · rw [forStep, dif_neg (by omega)]
    simp only [wp_pure]
    refine ⟨fun _ _ _ => trivial, ?_⟩
    rw [mat_mul, mat_smul, mat_ext_iff]
    intro i j hi; omega
  refine wp_forStep (fun i ν => (∀ l, ¬ B.Owns l → ¬ work.Owns l → ν l = μ l) ∧
    mat (min i B.m) B.n (entry ν B) = alpha • (mat (min i B.m) (min i B.m) (triF .Upper diag (entry μ A)) *
      mat (min i B.m) B.n (entry μ B)) ∧
    ∀ r c, r < B.m → c < B.n → min i B.m ≤ r → entry ν B r c = entry μ B r c) (by omega) ?_ ?_ 0 μ ?_
  · rintro i ν hi ⟨hf, he, hr⟩
    obtain ⟨ib, hib⟩ : ∃ ib, min (min nb B.m) (B.m - i) = ib := ⟨_, rfl⟩
    have hib0 : 0 < ib := by omega
    have hle : i + ib ≤ B.m := by omega
    rw [show min i B.m = i by omega] at he hr
    unfold trmmBlockedStep
    simp only [hib, wp_bind]
    refine wp_slice (by omega) (by omega) (by omega) (by omega) ?_
    refine wp_slice (by omega) (by omega) (by omega) (by omega) ?_
    refine wp_slice (by omega) (by omega) (by omega) (by omega) ?_
    refine wp_slice (by omega) (by omega) (by omega) (by omega) ?_
    refine wp_slice (by omega) (by simp only [wview]; omega) (by omega) (by simp only [wview]; omega) ?_
    have hW : (wview work (min nb B.m) B.n).Inj := wview_inj hw wn
    have hBW : B.Disj (wview work (min nb B.m) B.n) := wview_disj wn hBw
    have hAW : A.Disj (wview work (min nb B.m) B.n) := wview_disj wn hAw
    generalize hWe : wview work (min nb B.m) B.n = W at hW hBW hAW
    have hWm : W.m = min nb B.m := by rw [← hWe]
    have hWn : W.n = B.n := by rw [← hWe]
    have hWo : ∀ l, W.Owns l → work.Owns l := fun l ho => wview_owns wn (by rw [hWe]; exact ho)
    have hWB : W.Disj B := hBW.symm
    refine wp_conseq (wp_lacpyG (by simp [MatV.sub]) (by simp [MatV.sub, hWn]) (hW.sub (by omega) (by omega))
      ((hBW.sub_left (by omega) (by omega)).sub_right (by omega) (by omega)) ν) ?_
    rintro _ ν1 ⟨o1, e1⟩
    refine wp_conseq (wp_gemm_m (m := i) (n := B.n) (k := ib) ⟨by decide, by decide, by simp [MatV.sub],
      by simp [MatV.sub], by simp [MatV.sub], by simp [MatV.sub], by simp [MatV.sub], by simp [MatV.sub],
      hB.sub (by omega) (by omega), (hAB.sub_left (by omega) (by omega)).sub_right (by omega) (by omega),
      (hWB.sub_left (by omega) (by omega)).sub_right (by omega) (by omega)⟩) ?_
    rintro _ ν2 ⟨o2, e2⟩
    refine wp_conseq (wp_trmmL_m (m := ib) (n := B.n) (by simp [MatV.sub]) (by simp [MatV.sub])
      ⟨Or.inl rfl, Or.inl rfl, by decide, by simp [MatV.sub], by simp [MatV.sub], hB.sub (by omega) (by omega),
        (hAB.sub_left (by omega) (by omega)).sub_right (by omega) (by omega)⟩) ?_
    rintro _ ν3 ⟨o3, e3⟩
    simp only [wp_pure]
    have O1 : Only W ν ν1 := o1.sub (by omega) (by omega)
    have O2 : Only B ν1 ν2 := o2.sub (by omega) (by omega)
    have O3 : Only B ν2 ν3 := o3.sub (by omega) (by omega)
    have kA : ∀ r c, r < A.m → c < A.n → entry ν A r c = entry μ A r c := fun r c hr hc =>
      hf _ (fun ho => hAB r c hr hc ho) (fun ho => hAw r c hr hc ho)
    have kA1 : ∀ r c, r < A.m → c < A.n → entry ν1 A r c = entry μ A r c := fun r c hr hc =>
      (O1.keep hAW r c hr hc).trans (kA r c hr hc)
    have kA2 : ∀ r c, r < A.m → c < A.n → entry ν2 A r c = entry μ A r c := fun r c hr hc =>
      (O2.keep hAB r c hr hc).trans (kA1 r c hr hc)
    have kB1 : ∀ r c, r < B.m → c < B.n → entry ν1 B r c = entry ν B r c := O1.keep hBW
    have bi : mat ib B.n (sh i 0 (entry ν B)) = mat ib B.n (sh i 0 (entry μ B)) := by
      rw [mat_ext_iff]
      exact fun r c h1 h2 => hr _ _ (by omega) (by omega) (by omega)
    have bi1 : mat ib B.n (sh i 0 (entry ν1 B)) = mat ib B.n (sh i 0 (entry ν B)) := by
      rw [mat_ext_iff]
      exact fun r c h1 h2 => kB1 _ _ (by omega) (by omega)
    have b01 : mat i B.n (entry ν1 B) = mat i B.n (entry ν B) := by
      rw [mat_ext_iff]
      exact fun r c h1 h2 => kB1 _ _ (by omega) (by omega)
    have a0i : mat i ib (sh 0 i (entry ν1 A)) = mat i ib (sh 0 i (entry μ A)) := by
      rw [mat_ext_iff]
      exact fun r c h1 h2 => kA1 _ _ (by omega) (by omega)
    have aii : mat ib ib (triF .Upper diag (sh i i (entry ν2 A))) = mat ib ib (triF .Upper diag (sh i i (entry μ A))) :=
      mat_triF_congr (fun _ r h1 => kA2 _ _ (by omega) (by omega)) (fun r c h1 h2 _ _ => kA2 _ _ (by omega) (by omega))
    have e1' : mat ib B.n (entry ν1 (W.sub 0 ib 0 B.n)) = mat ib B.n (sh i 0 (entry μ B)) := by
      have e1 := e1
      simp only [MatV.sub, Nat.sub_zero] at e1 ⊢
      exact e1.trans bi
    have nt : ∀ g : Nat → Nat → 𝕜, opF .NoTrans g = g := fun g => rfl
    have e2' : mat i B.n (entry ν2 B) = alpha • (mat i ib (sh 0 i (entry ν1 A)) *
        mat ib B.n (entry ν1 (W.sub 0 ib 0 B.n))) + (1 : 𝕜) • mat i B.n (entry ν1 B) := by
      have := e2
      simp only [sh_entry, sh_zero, Coef.toVal] at this
      simpa [nt, sh_entry, sh_zero, sh] using this
    have e3' : mat ib B.n (sh i 0 (entry ν3 B)) = alpha • (mat ib ib (triF .Upper diag (sh i i (entry ν2 A))) *
        mat ib B.n (sh i 0 (entry ν2 B))) := by
      simpa only [sh_entry, nt] using e3
    have t2 := o2.blk hB (by omega) (by omega) (p := ib) (q := B.n) (r := i) (c := 0) (by omega) (by omega) (by omega)
    have t3 := o3.blk hB (by omega) (by omega) (p := i) (q := B.n) (r := 0) (c := 0) (by omega) (by omega) (by omega)
    simp only [sh_zero] at t3
    rw [show min (i + min nb B.m) B.m = i + ib by omega]
    refine ⟨fun l hl hl' => ?_, ?_, ?_⟩
    · rw [O3 l hl, O2 l hl, O1 l (fun ho => hl' (hWo l ho)), hf l hl hl']
    · have := mat_ax_rows (n := B.n) (a := i) (b := ib) (k := i + ib) (g := entry ν3 B) (p := entry μ B)
        (t := triF .Upper diag (entry μ A)) (c := entry μ B) (al := alpha) (be := 0) ?_ ?_
      · rw [this, zero_smul, add_zero]
      · rw [t3, e2', b01, he, a0i, e1', mat_mul_inner, triU_01, smul_add, one_smul, zero_smul, add_zero, add_comm]
      · rw [e3', aii, t2, bi1, bi, mat_mul_inner, triU_10, sh_sh]
        simp only [Nat.zero_add, Nat.add_zero]
        rw [triF_sh (Or.inl rfl), Matrix.zero_mul, zero_add, zero_smul, add_zero]
    · intro r c h3 h4 h5
      rw [o3.out hB (by omega) (by omega) h3 h4 (by omega), o2.out hB (by omega) (by omega) h3 h4 (by omega),
        kB1 r c h3 h4, hr r c h3 h4 (by omega)]
  · rintro i ν hi ⟨hf, he, hr⟩
    rw [show min i B.m = B.m by omega] at he
    exact ⟨hf, he⟩
  · refine ⟨fun _ _ _ => rfl, ?_, fun _ _ _ _ _ => rfl⟩
    rw [mat_mul, mat_smul, mat_ext_iff]
    intro i j hi; omega

end TLA
