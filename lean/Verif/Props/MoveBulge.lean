import Verif.Proofs.MoveBulge
import Verif.Props.Lahqr
import Verif.Proofs.Steqr
import Verif.Props.Examples
set_option linter.unusedTactic false
set_option linter.unusedVariables false
set_option linter.unusedSimpArgs false

/-! # C91: moving a bulge down by one position -/

namespace TLA
open Matrix Finset
variable {L 𝕜 : Type} [DecidableEq L] [RCLike 𝕜] [DecidableEq 𝕜] {hp : HhPar} {p : HqrPar 𝕜}

/-- The last row after the delayed update: `(0, 0, H(3,2))` times the reflector stored in `v`. -/
def bulgeRow (H : MatV L) (v : VecV L) (μ : Store L 𝕜) : Fin 3 → 𝕜 :=
  ![0, 0, entry μ H 3 2] ᵥ* refl3 (ventry μ v)

/-- The trailing 3 by 3 block of `H`, with a collapsed bulge. -/
def bulgeBlk (H : MatV L) (μ : Store L 𝕜) : Nat → Nat → 𝕜 := fun i k => if i = 2 ∧ k < 2 then 0 else entry μ H (1 + i) (1 + k)

theorem bulgeRow_val (H : MatV L) (v : VecV L) (μ : Store L 𝕜) :
    bulgeRow H v μ 0 = -(ventry μ v 0 * ventry μ v 2 * entry μ H 3 2) ∧
    bulgeRow H v μ 1 = -(ventry μ v 0 * ventry μ v 2 * entry μ H 3 2) * star (ventry μ v 1) ∧
    bulgeRow H v μ 2 = entry μ H 3 2 - ventry μ v 0 * ventry μ v 2 * entry μ H 3 2 * star (ventry μ v 2) := by
  unfold bulgeRow refl3 reflF hvec
  simp only [vecMul, dotProduct, Fin.sum_univ_three, mat, of_apply, pidx]
  refine ⟨?_, ?_, ?_⟩ <;> simp <;> ring

theorem refl3_adj (g : Nat → 𝕜) (x : Fin 3 → 𝕜) (i : Fin 3) :
    ((refl3 g)ᴴ *ᵥ x) i = x i - star (g 0) * (if i = 0 then 1 else g i) * (x 0 + star (g 1) * x 1 + star (g 2) * x 2) := by
  unfold refl3 reflF hvec
  fin_cases i <;> simp [mulVec, dotProduct, Fin.sum_univ_three, mat, pidx, conjTranspose_apply] <;> ring

/-- The common end of the exact cases. -/
theorem mb_exact {H : MatV L} {v vt : VecV L} {μ ν' : Store L 𝕜} {F : Nat → Nat → 𝕜} {g g' t : Nat → 𝕜} {beta tau : 𝕜}
    (hg : Larfg3 g g' beta tau) (m : MbMem H v vt μ F (up1 g' 0 tau) t ν') :
    refl3 (ventry ν' v) = refl3 (up1 g' 0 tau) ∧ (refl3 (ventry ν' v))ᴴ * refl3 (ventry ν' v) = 1 ∧
      (refl3 (ventry ν' v))ᴴ *ᵥ ![g 0, g 1, g 2] = ![beta, 0, 0] := by
  have e : refl3 (ventry ν' v) = refl3 (up1 g' 0 tau) := by
    unfold refl3
    refine mat_ext_iff.2 fun i j hi hj => ?_
    have q : ∀ i, i < 3 → ventry ν' v i = up1 g' 0 tau i := fun i hi => m.hv i hi
    unfold reflF hvec
    simp only [q 0 (by omega), q i hi, q j hj]
  refine ⟨e, by rw [e]; exact hg.uni, ?_⟩
  rw [e]
  have h := hg.ann
  have e1 : vec 3 g = ![g 0, g 1, g 2] := by ext i; fin_cases i <;> rfl
  have e2 : vec 3 (fun i => if i = 0 then beta else 0) = ![beta, 0, 0] := by ext i; fin_cases i <;> simp [vec]
  rw [e1, e2] at h
  exact h

set_option maxHeartbeats 2000000 in
/-- **C91** move_bulge: the delayed reflector is applied to the last row, the reflector `P` left in `v` is unitary and
`P^H (H(1,0), H(2,0), H(3,0)) = (H'(1,0), 0, 0)`: exactly, unless the bulge had collapsed, in which case the two
entries dropped are at most `3/2 eps (|H(0,0)| + |H(1,1)| + |H(2,2)|)`, provided that `H(2,0) = 0` on entry; all other entries of `H` are unchanged.
(`sc` is the shift column routine, of C55.) -/
theorem C91_move_bulge (hl : HhLaws 𝕜 hp) (hq : HqLaws p) {sc : (Nat → Nat → 𝕜) → Option (𝕜 × 𝕜 × 𝕜)}
    (hext : ∀ f g : Nat → Nat → 𝕜, (∀ i j, i < 3 → j < 3 → f i j = g i j) → sc f = sc g)
    {H : MatV L} {v vt : VecV L} (ok : BulgeOK H v vt) (μ : Store L 𝕜)
    (hd : ‖entry μ H 1 0‖ ≤ hp.tbig ∧ ‖entry μ H 2 0‖ ≤ hp.tbig ∧ ‖bulgeRow H v μ 0‖ ≤ hp.tbig)
    (hs : bulgeRow H v μ = 0 → ∃ a b c, sc (bulgeBlk H μ) = some (a, b, c) ∧ ‖a‖ ≤ hp.tbig ∧ ‖b‖ ≤ hp.tbig ∧ ‖c‖ ≤ hp.tbig) :
    ∃ ν, moveBulge (hhOps hp) p sc H v vt μ = (.ok (), ν) ∧
      (refl3 (ventry ν v))ᴴ * refl3 (ventry ν v) = 1 ∧
      entry ν H 3 1 = bulgeRow H v μ 1 ∧ entry ν H 3 2 = bulgeRow H v μ 2 ∧ entry ν H 2 0 = 0 ∧ entry ν H 3 0 = 0 ∧
      (∀ i j, i < 4 → j < 4 → (i, j) ∉ [(1, 0), (2, 0), (3, 0), (3, 1), (3, 2)] → entry ν H i j = entry μ H i j) ∧
      (bulgeRow H v μ ≠ 0 ∨ entry μ H 2 0 = 0 → ∃ δ : Fin 3 → 𝕜, (bulgeRow H v μ ≠ 0 → δ = 0) ∧ δ 0 = 0 ∧
        ‖δ 1‖ + ‖δ 2‖ ≤ 3 / 2 * p.eps * (‖entry μ H 0 0‖ + ‖entry μ H 1 1‖ + ‖entry μ H 2 2‖) ∧
        (refl3 (ventry ν v))ᴴ *ᵥ ![entry μ H 1 0, entry μ H 2 0, bulgeRow H v μ 0] = ![entry ν H 1 0, 0, 0] + δ) ∧
      ∀ l, ¬ H.Owns l → ¬ v.Owns l → ¬ vt.Owns l → ν l = μ l := by
  suffices key : wp (moveBulge (hhOps hp) p sc H v vt) μ (fun _ ν =>
      (refl3 (ventry ν v))ᴴ * refl3 (ventry ν v) = 1 ∧
      entry ν H 3 1 = bulgeRow H v μ 1 ∧ entry ν H 3 2 = bulgeRow H v μ 2 ∧ entry ν H 2 0 = 0 ∧ entry ν H 3 0 = 0 ∧
      (∀ i j, i < 4 → j < 4 → (i, j) ∉ [(1, 0), (2, 0), (3, 0), (3, 1), (3, 2)] → entry ν H i j = entry μ H i j) ∧
      (bulgeRow H v μ ≠ 0 ∨ entry μ H 2 0 = 0 → ∃ δ : Fin 3 → 𝕜, (bulgeRow H v μ ≠ 0 → δ = 0) ∧ δ 0 = 0 ∧
        ‖δ 1‖ + ‖δ 2‖ ≤ 3 / 2 * p.eps * (‖entry μ H 0 0‖ + ‖entry μ H 1 1‖ + ‖entry μ H 2 2‖) ∧
        (refl3 (ventry ν v))ᴴ *ᵥ ![entry μ H 1 0, entry μ H 2 0, bulgeRow H v μ 0] = ![entry ν H 1 0, 0, 0] + δ) ∧
      ∀ l, ¬ H.Owns l → ¬ v.Owns l → ¬ vt.Owns l → ν l = μ l) by
    obtain ⟨ν, h1, h2⟩ := wp_unit key
    exact ⟨ν, h1, h2⟩
  obtain ⟨r0, r1, r2⟩ := bulgeRow_val H v μ
  have m0 : MbMem H v vt μ (entry μ H) (ventry μ v) (ventry μ vt) μ :=
    ⟨fun _ _ _ _ => rfl, fun _ _ => rfl, fun _ _ => rfl, fun _ _ _ _ => rfl⟩
  have hR : bulgeRow H v μ = 0 ↔ bulgeRow H v μ 0 = 0 ∧ bulgeRow H v μ 1 = 0 ∧ bulgeRow H v μ 2 = 0 := by
    constructor
    · intro h; rw [h]; exact ⟨rfl, rfl, rfl⟩
    · rintro ⟨a, b, c⟩; ext i; fin_cases i <;> assumption
  have tol0 : 0 ≤ 3 / 2 * p.eps * (‖entry μ H 0 0‖ + ‖entry μ H 1 1‖ + ‖entry μ H 2 2‖) := by
    have := hq.eps; positivity
  generalize hg0 : bulgeRow H v μ 0 = ρ0 at *
  generalize hg1 : bulgeRow H v μ 1 = ρ1 at *
  generalize hg2 : bulgeRow H v μ 2 = ρ2 at *
  unfold moveBulge
  simp only [wp_bind]
  refine m0.getV ok (by omega) (m0.getV ok (by omega) (m0.getV ok (by omega) (m0.getH ok (by omega) (by omega) ?_)))
  rw [← r0]
  have r2' : entry μ H 3 2 - ventry μ v 0 * ventry μ v 2 * entry μ H 3 2 * star (ventry μ v 2) = ρ2 := r2.symm
  rw [← r0] at r1
  rw [← r1, r2']
  refine m0.setH ok (by omega) (by omega) _ fun ν1 m1 => ?_
  refine m1.setH ok (by omega) (by omega) _ fun ν2 m2 => ?_
  refine m2.setH ok (by omega) (by omega) _ fun ν3 m3 => ?_
  refine m3.getH ok (by omega) (by omega) (m3.getH ok (by omega) (by omega) (m3.getH ok (by omega) (by omega) ?_))
  refine m3.setV ok (by omega) _ fun ν4 m4 => ?_
  refine m4.setV ok (by omega) _ fun ν5 m5 => ?_
  refine m5.setV ok (by omega) _ fun ν6 m6 => ?_
  have eg : up1 (up1 (up1 (ventry μ v) 0 (entry μ H 1 0)) 1 (entry μ H 2 0)) 2 ρ0 = fun i =>
      if i = 2 then ρ0 else if i = 1 then entry μ H 2 0 else if i = 0 then entry μ H 1 0 else ventry μ v i := by
    funext i; simp only [up1]
  simp only [up2] at m6
  simp only [show ¬ (1 : Nat) = 3 by omega, show ¬ (2 : Nat) = 3 by omega, show ¬ (0 : Nat) = 1 by omega, show ¬ (0 : Nat) = 2 by omega, false_and, and_false, if_false,
    and_self, if_true, eg] at m6
  refine m6.larfgV ok hl (fun i hi => ?_) fun ν7 g' beta tau hg m7 => ?_
  · by_cases h2 : i = 2
    · rw [if_pos h2]; exact hd.2.2
    rw [if_neg h2]
    by_cases h1 : i = 1
    · rw [if_pos h1]; exact hd.2.1
    rw [if_neg h1, if_pos (by omega)]; exact hd.1
  refine m7.getV ok (by omega) ?_
  rw [hg.piv]
  refine m7.setV ok (by omega) _ fun ν8 m8 => ?_
  refine m8.getH ok (by omega) (by omega) (m8.getH ok (by omega) (by omega) (m8.getH ok (by omega) (by omega) ?_))
  have u0 : up2 (up2 (up2 (entry μ H) 3 0 ρ0) 3 1 ρ1) 3 2 ρ2 3 0 = ρ0 := by simp [up2]
  have u1 : up2 (up2 (up2 (entry μ H) 3 0 ρ0) 3 1 ρ1) 3 2 ρ2 3 1 = ρ1 := by simp [up2]
  have u2 : up2 (up2 (up2 (entry μ H) 3 0 ρ0) 3 1 ρ1) 3 2 ρ2 3 2 = ρ2 := by simp [up2]
  have ux : ∀ r c, r < 3 → up2 (up2 (up2 (entry μ H) 3 0 ρ0) 3 1 ρ1) 3 2 ρ2 r c = entry μ H r c := by
    intro r c hr; simp only [up2]; rw [if_neg (by omega), if_neg (by omega), if_neg (by omega)]
  have ux3 : up2 (up2 (up2 (entry μ H) 3 0 ρ0) 3 1 ρ1) 3 2 ρ2 3 3 = entry μ H 3 3 := by simp [up2]
  rw [u0, u1, u2]
  -- the exact end
  have fin : ∀ (t' : Nat → 𝕜) ν9, MbMem H v vt μ (up2 (up2 (up2 (fun r c => if r = 3 ∧ c = 2 then ρ2 else if r = 3 ∧ c = 1 then ρ1 else
      if r = 3 ∧ c = 0 then ρ0 else entry μ H r c) 1 0 beta) 2 0 0) 3 0 0) (up1 g' 0 tau) t' ν9 →
      ((refl3 (ventry ν9 v))ᴴ * refl3 (ventry ν9 v) = 1 ∧
      entry ν9 H 3 1 = ρ1 ∧ entry ν9 H 3 2 = ρ2 ∧ entry ν9 H 2 0 = 0 ∧ entry ν9 H 3 0 = 0 ∧
      (∀ i j, i < 4 → j < 4 → (i, j) ∉ [(1, 0), (2, 0), (3, 0), (3, 1), (3, 2)] → entry ν9 H i j = entry μ H i j) ∧
      (bulgeRow H v μ ≠ 0 ∨ entry μ H 2 0 = 0 → ∃ δ : Fin 3 → 𝕜, (bulgeRow H v μ ≠ 0 → δ = 0) ∧ δ 0 = 0 ∧
        ‖δ 1‖ + ‖δ 2‖ ≤ 3 / 2 * p.eps * (‖entry μ H 0 0‖ + ‖entry μ H 1 1‖ + ‖entry μ H 2 2‖) ∧
        (refl3 (ventry ν9 v))ᴴ *ᵥ ![entry μ H 1 0, entry μ H 2 0, ρ0] = ![entry ν9 H 1 0, 0, 0] + δ) ∧
      ∀ l, ¬ H.Owns l → ¬ v.Owns l → ¬ vt.Owns l → ν9 l = μ l) := by
    intro t' ν9 m9
    obtain ⟨e1, e2, e3⟩ := mb_exact hg m9
    have q : ∀ i j, i < 4 → j < 4 → entry ν9 H i j = _ := fun i j hi hj => m9.h i j hi hj
    refine ⟨e2, ?_, ?_, ?_, ?_, fun i j hi hj hn => ?_, fun _ => ⟨0, fun _ => rfl, rfl, by simpa using tol0, ?_⟩, m9.frame⟩
    · rw [q _ _ (by omega) (by omega)]; simp [up2]
    · rw [q _ _ (by omega) (by omega)]; simp [up2]
    · rw [q _ _ (by omega) (by omega)]; simp [up2]
    · rw [q _ _ (by omega) (by omega)]; simp [up2]
    · rw [q _ _ hi hj]
      simp only [List.mem_cons, Prod.mk.injEq, List.not_mem_nil, or_false, not_or] at hn
      simp only [up2]
      rw [if_neg hn.2.2.1, if_neg hn.2.1, if_neg hn.1, if_neg hn.2.2.2.2, if_neg hn.2.2.2.1, if_neg hn.2.2.1]
    · rw [add_zero, q 1 0 (by omega) (by omega)]
      simpa [up2] using e3
  by_cases hc : ρ0 ≠ 0 ∨ ρ1 ≠ 0 ∨ ρ2 ≠ 0
  · rw [if_pos hc]
    exact wp_mbCol ok m8 _ fun ν9 m9 => fin _ ν9 m9
  rw [if_neg hc]
  push Not at hc
  obtain ⟨z0, z1, z2⟩ := hc
  have hRz := hR.2 ⟨z0, z1, z2⟩
  unfold mbRestart
  simp only [wp_bind]
  refine wp_slice (by omega) (by rw [ok.Hm]) (by omega) (by rw [ok.Hn]) ?_
  refine wp_rd33 ok m8 fun f hf => ?_
  obtain ⟨a, b, c, esc, na, nb, nc⟩ := hs hRz
  rw [hext f (bulgeBlk H μ) (by
    intro i j hi hj
    rw [hf]
    unfold bulgeBlk
    have i3 : i = 0 ∨ i = 1 ∨ i = 2 := by omega
    have j3 : j = 0 ∨ j = 1 ∨ j = 2 := by omega
    rcases i3 with rfl | rfl | rfl <;> rcases j3 with rfl | rfl | rfl <;> simp [u1, u2, ux3, ux, z1, z2, up2]), esc]
  refine wp_liftO_some rfl ?_
  dsimp only
  refine m8.setT ok (by omega) _ fun ν9 m9 => ?_
  refine m9.setT ok (by omega) _ fun ν10 m10 => ?_
  refine m10.setT ok (by omega) _ fun ν11 m11 => ?_
  refine m11.larfgT ok hl (fun i hi => ?_) fun ν12 t' bt tt hgt m12 => ?_
  · unfold up1
    by_cases h2 : i = 2
    · rw [if_pos h2]; exact nc
    rw [if_neg h2]
    by_cases h1 : i = 1
    · rw [if_pos h1]; exact nb
    rw [if_neg h1, if_pos (by omega)]; exact na
  refine m12.setT ok (by omega) _ fun ν13 m13 => ?_
  refine m13.getT ok (by omega) (m13.getT ok (by omega) (m13.getT ok (by omega) ?_))
  refine m13.getH ok (by omega) (by omega) (m13.getH ok (by omega) (by omega) (m13.getH ok (by omega) (by omega)
    (m13.getH ok (by omega) (by omega) (m13.getH ok (by omega) (by omega) ?_))))
  simp only [ux 0 0 (by omega), ux 1 0 (by omega), ux 2 0 (by omega), ux 1 1 (by omega), ux 2 2 (by omega)]
  by_cases ht : p.abs1 (entry μ H 2 0 - (star (up1 t' 0 tt 0) * entry μ H 1 0 + star (up1 t' 0 tt 1) * entry μ H 2 0) * up1 t' 0 tt 1) +
      p.abs1 ((star (up1 t' 0 tt 0) * entry μ H 1 0 + star (up1 t' 0 tt 1) * entry μ H 2 0) * up1 t' 0 tt 2) >
      p.eps * (p.abs1 (entry μ H 0 0) + p.abs1 (entry μ H 1 1) + p.abs1 (entry μ H 2 2))
  · rw [if_pos ht]
    exact wp_mbCol ok m13 _ fun ν14 m14 => fin _ ν14 m14
  rw [if_neg ht]
  rw [wp_bind]
  refine wp_mbCol ok m13 _ fun ν14 m14 => ?_
  simp only [wp_bind]
  refine m14.setV ok (by omega) _ fun ν15 m15 => ?_
  refine m15.setV ok (by omega) _ fun ν16 m16 => ?_
  refine m16.setV ok (by omega) _ fun ν17 m17 => ?_
  generalize hu : up1 t' 0 tt = u at *
  have ev : ∀ i, i < 3 → ventry ν17 v i = u i := by
    intro i hi
    refine (m17.hv i hi).trans ?_
    simp only [up1]
    by_cases h2 : i = 2
    · rw [if_pos h2, h2]
    rw [if_neg h2]
    by_cases h1 : i = 1
    · rw [if_pos h1, h1]
    rw [if_neg h1, if_pos (by omega), show i = 0 by omega]
  have er : refl3 (ventry ν17 v) = refl3 u := by
    unfold refl3
    refine mat_ext_iff.2 fun i j hi hj => ?_
    unfold reflF hvec
    simp only [ev 0 (by omega), ev i hi, ev j hj]
  have q : ∀ i j, i < 4 → j < 4 → entry ν17 H i j = _ := fun i j hi hj => m17.h i j hi hj
  refine ⟨by rw [er, ← hu]; exact hgt.uni, ?_, ?_, ?_, ?_, fun i j hi hj hn => ?_, fun hh => ?_, m17.frame⟩
  · rw [q _ _ (by omega) (by omega)]; simp [up2]
  · rw [q _ _ (by omega) (by omega)]; simp [up2]
  · rw [q _ _ (by omega) (by omega)]; simp [up2]
  · rw [q _ _ (by omega) (by omega)]; simp [up2]
  · rw [q _ _ hi hj]
    simp only [List.mem_cons, Prod.mk.injEq, List.not_mem_nil, or_false, not_or] at hn
    simp only [up2]
    rw [if_neg hn.2.2.1, if_neg hn.2.1, if_neg hn.1, if_neg hn.2.2.2.2, if_neg hn.2.2.2.1, if_neg hn.2.2.1]
  · have h20 : entry μ H 2 0 = 0 := by
      rcases hh with h | h
      · exact absurd hRz h
      · exact h
    rw [h20] at ht ⊢
    simp only [mul_zero, add_zero, zero_sub] at ht
    refine ⟨![0, -(star (u 0) * entry μ H 1 0 * u 1), -(star (u 0) * entry μ H 1 0 * u 2)], fun h => absurd hRz h, rfl, ?_, ?_⟩
    · show ‖-(star (u 0) * entry μ H 1 0 * u 1)‖ + ‖-(star (u 0) * entry μ H 1 0 * u 2)‖ ≤ _
      rw [norm_neg, norm_neg]
      push Not at ht
      have a1 := hq.lo (-(star (u 0) * entry μ H 1 0 * u 1))
      have a2 := hq.lo (star (u 0) * entry μ H 1 0 * u 2)
      have b0 := hq.hi (entry μ H 0 0)
      have b1 := hq.hi (entry μ H 1 1)
      have b2 := hq.hi (entry μ H 2 2)
      rw [norm_neg] at a1
      have : p.eps * (p.abs1 (entry μ H 0 0) + p.abs1 (entry μ H 1 1) + p.abs1 (entry μ H 2 2)) ≤
          p.eps * (3 / 2 * (‖entry μ H 0 0‖ + ‖entry μ H 1 1‖ + ‖entry μ H 2 2‖)) :=
        mul_le_mul_of_nonneg_left (by linarith) hq.eps
      linarith
    · rw [er, q 1 0 (by omega) (by omega), z0]
      ext i
      rw [refl3_adj]
      fin_cases i <;> simp [up2, h20, hu] <;> ring


theorem shiftcol3_ext (s1 s2 : ℂ) (f g : Nat → Nat → ℝ) (h : ∀ i j, i < 3 → j < 3 → f i j = g i j) :
    Kernel.shiftcol3 f s1 s2 = Kernel.shiftcol3 g s1 s2 := by
  unfold Kernel.shiftcol3
  simp only [h 0 0 (by omega) (by omega), h 0 1 (by omega) (by omega), h 0 2 (by omega) (by omega), h 1 0 (by omega) (by omega),
    h 1 1 (by omega) (by omega), h 1 2 (by omega) (by omega), h 2 0 (by omega) (by omega), h 2 1 (by omega) (by omega), h 2 2 (by omega) (by omega)]

theorem shiftcol3C_ext (s1 s2 : ℂ) (f g : Nat → Nat → ℂ) (h : ∀ i j, i < 3 → j < 3 → f i j = g i j) :
    Kernel.shiftcol3C f s1 s2 = Kernel.shiftcol3C g s1 s2 := by
  unfold Kernel.shiftcol3C
  simp only [h 0 0 (by omega) (by omega), h 0 1 (by omega) (by omega), h 0 2 (by omega) (by omega), h 1 0 (by omega) (by omega),
    h 1 1 (by omega) (by omega), h 1 2 (by omega) (by omega), h 2 0 (by omega) (by omega), h 2 1 (by omega) (by omega), h 2 2 (by omega) (by omega)]

/-- larfg on `(3, 4, 0)`: `tau = 8/5`, `u = (1, 1/2, 0)`. -/
theorem larfg3_340 {t' : Nat → ℝ} {bt tt : ℝ} {a : Nat → ℝ} (h : Larfg3 a t' bt tt) (a0 : a 0 = 3) (a1 : a 1 = 4) (a2 : a 2 = 0) :
    tt = 8 / 5 ∧ t' 1 = 1 / 2 ∧ t' 2 = 0 := by
  have an : ∀ i : Fin 3, ((refl3 (up1 t' 0 tt))ᴴ *ᵥ vec 3 a) i = if i = 0 then bt else 0 := by
    intro i; rw [h.ann]; fin_cases i <;> simp [vec]
  have e0 := an 0
  have e1 := an 1
  have e2 := an 2
  rw [refl3_adj] at e0 e1 e2
  simp [vec, a0, a1, a2, up1] at e0 e1 e2
  have nm := h.spec.norm
  simp [sum_range_succ, a0, a1, a2] at nm
  have hb : (bt - 5) * (bt + 5) = 0 := by nlinarith
  have k1 : (3 - bt) * t' 1 = 4 := by linear_combination t' 1 * e0 - e1
  have e2' : tt * t' 2 * (3 + t' 1 * 4) = 0 := by
    rcases e2 with (q | q) | q <;> rw [q] <;> ring
  have k2 : (3 - bt) * t' 2 = 0 := by linear_combination t' 2 * e0 + e2'
  rcases mul_eq_zero.1 hb with hb | hb
  · have hb' : bt = 5 := by linarith
    rw [hb'] at k1 e0
    have : t' 1 = -2 := by linarith
    rw [this] at e0
    have : tt = 2 / 5 := by linarith
    rcases h.spec.tau with q | ⟨q, -, -⟩
    · rw [q] at this; norm_num at this
    · rw [this] at q; norm_num at q
  · have hb' : bt = -5 := by linarith
    rw [hb'] at k1 k2 e0
    have h1 : t' 1 = 1 / 2 := by linarith
    rw [h1] at e0
    exact ⟨by linarith, h1, by linarith⟩

set_option maxHeartbeats 2000000 in
/-- **C91, violated**: when the bulge has collapsed and `H(2,0) ≠ 0`, the sum `H(1,0) + conj(v1) H(2,0)` is multiplied by `tau` only in its first
term.  With `H(0:3,0) = (h, 15, 16, 0)`, trailing block `[0 3 *; 1 4 *; 0 0 *]` and zero shifts the routine accepts the new reflector and stores
`H(1,0) = -17`, `H(2,0) = 0`, although no orthogonal matrix maps `(15, 16, 0)` to `(-17, 0, 0)` (the squared norms are 481 and 289): the
transformation it performs is not a similarity, whatever the value of `eps`. -/
theorem C91_restart_violated (hl : HhLaws ℝ hp) (hb : 21 ≤ hp.tbig) {p : HqrPar ℝ} (hq : HqLaws p) {H : MatV L} {v vt : VecV L} (ok : BulgeOK H v vt)
    (μ : Store L ℝ) (e10 : entry μ H 1 0 = 15) (e20 : entry μ H 2 0 = 16) (e11 : entry μ H 1 1 = 0) (e12 : entry μ H 1 2 = 3)
    (e21 : entry μ H 2 1 = 1) (e22 : entry μ H 2 2 = 4) (e32 : entry μ H 3 2 = 0) :
    ∃ ν, moveBulge (hhOps hp) p (fun f => Kernel.shiftcol3 f 0 0) H v vt μ = (.ok (), ν) ∧
      entry ν H 1 0 = -17 ∧ entry ν H 2 0 = 0 ∧ entry ν H 3 0 = 0 ∧
      ∀ P : Matrix (Fin 3) (Fin 3) ℝ, Pᴴ * P = 1 → P *ᵥ ![15, 16, 0] ≠ ![entry ν H 1 0, 0, 0] := by
  suffices key : wp (moveBulge (hhOps hp) p (fun f => Kernel.shiftcol3 f 0 0) H v vt) μ (fun _ ν =>
      entry ν H 1 0 = -17 ∧ entry ν H 2 0 = 0 ∧ entry ν H 3 0 = 0) by
    obtain ⟨ν, h1, h2, h3, h4⟩ := wp_unit key
    refine ⟨ν, h1, h2, h3, h4, fun P hP h => ?_⟩
    have : (P *ᵥ ![15, 16, 0]) ⬝ᵥ (P *ᵥ ![15, 16, 0]) = ![15, 16, 0] ⬝ᵥ ![(15 : ℝ), 16, 0] := by
      rw [dotProduct_mulVec, vecMul_mulVec, ← conjTranspose_eq_transpose_of_trivial, hP, vecMul_one]
    rw [h, h2] at this
    simp [dotProduct, Fin.sum_univ_three] at this
    norm_num at this
  have m0 : MbMem H v vt μ (entry μ H) (ventry μ v) (ventry μ vt) μ :=
    ⟨fun _ _ _ _ => rfl, fun _ _ => rfl, fun _ _ => rfl, fun _ _ _ _ => rfl⟩
  have tb := hb
  unfold moveBulge
  simp only [wp_bind]
  refine m0.getV ok (by omega) (m0.getV ok (by omega) (m0.getV ok (by omega) (m0.getH ok (by omega) (by omega) ?_)))
  rw [e32]
  simp only [mul_zero, neg_zero, zero_mul, sub_zero]
  refine m0.setH ok (by omega) (by omega) _ fun ν1 m1 => ?_
  refine m1.setH ok (by omega) (by omega) _ fun ν2 m2 => ?_
  refine m2.setH ok (by omega) (by omega) _ fun ν3 m3 => ?_
  refine m3.getH ok (by omega) (by omega) (m3.getH ok (by omega) (by omega) (m3.getH ok (by omega) (by omega) ?_))
  refine m3.setV ok (by omega) _ fun ν4 m4 => ?_
  refine m4.setV ok (by omega) _ fun ν5 m5 => ?_
  refine m5.setV ok (by omega) _ fun ν6 m6 => ?_
  have ux : ∀ r c, r < 3 → up2 (up2 (up2 (entry μ H) 3 0 0) 3 1 0) 3 2 0 r c = entry μ H r c := by
    intro r c hr; simp only [up2]; rw [if_neg (by omega), if_neg (by omega), if_neg (by omega)]
  have u0 : up2 (up2 (up2 (entry μ H) 3 0 0) 3 1 0) 3 2 0 3 0 = 0 := by simp [up2]
  have u1 : up2 (up2 (up2 (entry μ H) 3 0 0) 3 1 0) 3 2 0 3 1 = 0 := by simp [up2]
  have u2 : up2 (up2 (up2 (entry μ H) 3 0 0) 3 1 0) 3 2 0 3 2 = 0 := by simp [up2]
  refine m6.larfgV ok hl (fun i hi => ?_) fun ν7 g' beta tau hg m7 => ?_
  · have : i = 0 ∨ i = 1 ∨ i = 2 := by omega
    rcases this with rfl | rfl | rfl
    · simp [up1, ux, e10]; linarith
    · simp [up1, ux, e20]; linarith
    · simp [up1, u0]; linarith
  refine m7.getV ok (by omega) ?_
  refine m7.setV ok (by omega) _ fun ν8 m8 => ?_
  refine m8.getH ok (by omega) (by omega) (m8.getH ok (by omega) (by omega) (m8.getH ok (by omega) (by omega) ?_))
  rw [u0, u1, u2, if_neg (by simp)]
  unfold mbRestart
  simp only [wp_bind]
  refine wp_slice (by omega) (by rw [ok.Hm]) (by omega) (by rw [ok.Hn]) ?_
  refine wp_rd33 ok m8 fun f hf => ?_
  have esc : Kernel.shiftcol3 f 0 0 = some (3, 4, 0) := by
    have f00 : f 0 0 = 0 := by rw [hf]; simp [ux, e11]
    have f01 : f 0 1 = 3 := by rw [hf]; simp [ux, e12]
    have f10 : f 1 0 = 1 := by rw [hf]; simp [ux, e21]
    have f11 : f 1 1 = 4 := by rw [hf]; simp [ux, e22]
    have f20 : f 2 0 = 0 := by rw [hf]; simp [u1]
    have f21 : f 2 1 = 0 := by rw [hf]; simp [u2]
    unfold Kernel.shiftcol3
    simp [f00, f01, f10, f11, f20, f21, Kernel.dv]
  rw [esc]
  refine wp_liftO_some rfl ?_
  dsimp only
  refine m8.setT ok (by omega) _ fun ν9 m9 => ?_
  refine m9.setT ok (by omega) _ fun ν10 m10 => ?_
  refine m10.setT ok (by omega) _ fun ν11 m11 => ?_
  refine m11.larfgT ok hl (fun i hi => ?_) fun ν12 t' bt tt hgt m12 => ?_
  · have : i = 0 ∨ i = 1 ∨ i = 2 := by omega
    rcases this with rfl | rfl | rfl
    · simp [up1]; linarith
    · simp [up1]; linarith
    · simp [up1]; linarith
  obtain ⟨q0, q1, q2⟩ := larfg3_340 hgt (by simp [up1]) (by simp [up1]) (by simp [up1])
  refine m12.setT ok (by omega) _ fun ν13 m13 => ?_
  refine m13.getT ok (by omega) (m13.getT ok (by omega) (m13.getT ok (by omega) ?_))
  refine m13.getH ok (by omega) (by omega) (m13.getH ok (by omega) (by omega) (m13.getH ok (by omega) (by omega)
    (m13.getH ok (by omega) (by omega) (m13.getH ok (by omega) (by omega) ?_))))
  simp only [ux 0 0 (by omega), ux 1 0 (by omega), ux 2 0 (by omega), ux 1 1 (by omega), ux 2 2 (by omega)]
  have v0 : up1 t' 0 tt 0 = 8 / 5 := by simp [up1, q0]
  have v1 : up1 t' 0 tt 1 = 1 / 2 := by simp [up1, q1]
  have v2 : up1 t' 0 tt 2 = 0 := by simp [up1, q2]
  have nn : ∀ x : ℝ, 0 ≤ p.abs1 x := fun x => le_trans (norm_nonneg _) (hq.lo x)
  have az : p.abs1 0 = 0 := le_antisymm (by simpa using hq.hi 0) (nn 0)
  rw [v0, v1, v2, e10, e20, e11, e22]
  rw [if_neg (by
    rw [show ((16 : ℝ) - (star (8 / 5 : ℝ) * 15 + star (1 / 2 : ℝ) * 16) * (1 / 2)) = 0 by simp; norm_num, mul_zero, az]
    have := nn (entry μ H 0 0)
    have := nn 4
    have := hq.eps
    push Not
    rw [add_zero]
    positivity)]
  rw [wp_bind]
  refine wp_mbCol ok m13 _ fun ν14 m14 => ?_
  simp only [wp_bind]
  refine m14.setV ok (by omega) _ fun ν15 m15 => ?_
  refine m15.setV ok (by omega) _ fun ν16 m16 => ?_
  refine m16.setV ok (by omega) _ fun ν17 m17 => ?_
  have q : ∀ i j, i < 4 → j < 4 → entry ν17 H i j = _ := fun i j hi hj => m17.h i j hi hj
  refine ⟨?_, ?_, ?_⟩
  · rw [q _ _ (by omega) (by omega)]; simp [up2]; norm_num
  · rw [q _ _ (by omega) (by omega)]; simp [up2]
  · rw [q _ _ (by omega) (by omega)]; simp [up2]

example : BulgeOK (mkM 0 4 4) (mkV 1 3) (mkV 2 3) ∧ HhLaws ℝ (doublePar true) ∧ HhLaws ℂ (doublePar false) ∧ 21 ≤ (doublePar true).tbig := by
  refine ⟨?_, doublePar_laws true (fun _ z => by simp), doublePar_laws false (fun h => by simp at h), ?_⟩
  · constructor <;> adm
  · unfold doublePar
    exact le_trans (by norm_num : (21 : ℝ) ≤ 2 ^ 5) (pow_le_pow_right₀ (by norm_num) (by norm_num))

end TLA
