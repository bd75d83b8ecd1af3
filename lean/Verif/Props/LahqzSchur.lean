import Verif.Proofs.LahqzSchur
set_option linter.unusedTactic false
set_option linter.unusedVariables false
set_option linter.unusedSimpArgs false

/-!
# C100: the generalized Schur form of a real 2 by 2 pencil
-/

namespace TLA.Kernel
open Matrix

set_option maxHeartbeats 1000000 in
/-- **C100** For a real pencil with upper triangular `B`, lahqz_schur22 returns orthogonal `Q` and `Z` with `A + E = Q S Zᵀ` and `B + F = Q T Zᵀ`, where `E` has at most the
entry below the diagonal, of size `eps (|A00| + |A11|)`, and `F` is diagonal, of size `eps` times the size of `B`.  `T` is upper triangular with nonnegative diagonal; either `S` is
upper triangular too and the eigenvalues are read off the diagonals, or nothing is perturbed, `T` is diagonal and positive and the eigenvalues are those of the pencil, not real. -/
theorem C100_lahqz_schur22 {o : RotOps ℝ} (ho : RotLaws o) {sm eps : ℝ} (hs : 0 < sm) (he : 0 < eps) (hse : Real.sqrt sm ≤ eps) (x : Pen) (hb : x.b10 = 0) (e : (ℂ × ℝ) × (ℂ × ℝ)) :
    ∃ w er f0 f1, lahqzSchur22 o sm eps x e = some w ∧ w.Qᵀ * w.Q = 1 ∧ w.Zᵀ * w.Z = 1 ∧
      x.A + !![0, 0; er, 0] = w.Q * w.p.A * w.Zᵀ ∧ x.B + !![f0, 0; 0, f1] = w.Q * w.p.B * w.Zᵀ ∧
      |er| ≤ eps * (|x.a00| + |x.a11|) ∧ |f0| ≤ eps * max (max |x.b00| (|x.b01| + |x.b11|)) sm ∧ |f1| ≤ eps * max (max |x.b00| (|x.b01| + |x.b11|)) sm ∧
      w.p.b10 = 0 ∧ 0 ≤ w.p.b00 ∧ 0 ≤ w.p.b11 ∧
      ((w.p.a10 = 0 ∧ w.e1 = ((w.p.a00 : ℂ), w.p.b00) ∧ w.e2 = ((w.p.a11 : ℂ), w.p.b11)) ∨
       (er = 0 ∧ f0 = 0 ∧ f1 = 0 ∧ w.p.a10 ≠ 0 ∧ w.p.b01 = 0 ∧ 0 < w.p.b00 ∧ 0 < w.p.b11 ∧ w.e1.1.im ≠ 0 ∧ PencilEigs (cmat x.A) (cmat x.B) w.e1 w.e2)) := by
  obtain ⟨an, han⟩ : ∃ an, an = max (max (|x.a00| + |x.a10|) (|x.a01| + |x.a11|)) sm := ⟨_, rfl⟩
  obtain ⟨bn, hbn⟩ : ∃ bn, bn = max (max |x.b00| (|x.b01| + |x.b11|)) sm := ⟨_, rfl⟩
  have pa : 0 < an := han ▸ lt_of_lt_of_le hs (le_max_right _ _)
  have pb : 0 < bn := hbn ▸ lt_of_lt_of_le hs (le_max_right _ _)
  have q0 : |x.b00| ≤ bn := hbn ▸ (le_max_left _ _).trans (le_max_left _ _)
  have q12 : |x.b01| + |x.b11| ≤ bn := hbn ▸ (le_max_right _ _).trans (le_max_left _ _)
  have q1 : |x.b01| ≤ bn := by linarith [abs_nonneg x.b11]
  have q2 : |x.b11| ≤ bn := by linarith [abs_nonneg x.b01]
  have le1 : ∀ t, |t| ≤ bn → |t * (1 / bn)| ≤ 1 := by
    intro t ht
    rw [abs_mul, abs_of_pos (by positivity : 0 < 1 / bn), mul_one_div, div_le_one pb]
    exact ht
  obtain ⟨y, hy⟩ : ∃ y : Pen, y = ⟨x.a00 * (1 / an), x.a01 * (1 / an), x.a10 * (1 / an), x.a11 * (1 / an), x.b00 * (1 / bn), x.b01 * (1 / bn), x.b10, x.b11 * (1 / bn)⟩ := ⟨_, rfl⟩
  have yA : x.A = an • y.A := by
    rw [hy]; ext i j; fin_cases i <;> fin_cases j <;> simp [Pen.A] <;> field_simp
  have yB : x.B = bn • y.B := by
    rw [hy]; ext i j; fin_cases i <;> fin_cases j <;> simp [Pen.B, hb] <;> field_simp
  obtain ⟨z, e', er, f0, f1, em, rel, be, b0, b1, alt⟩ := qsMid ho hs he hse (y := y) (by rw [hy]; exact hb) (by rw [hy]; exact le1 _ q0) (by rw [hy]; exact le1 _ q1)
    (by rw [hy]; exact le1 _ q2) e
  obtain ⟨p, s0, s1, es, hs0, hs1, pA, pB, n0, n1, p10, pa0, pb0⟩ := qsSign_ok rel.b10
  obtain ⟨p', hp'⟩ : ∃ p' : Pen, p' = ⟨p.a00 * an, p.a01 * an, p.a10 * an, p.a11 * an, p.b00 * bn, p.b01 * bn, p.b10 * bn, p.b11 * bn⟩ := ⟨_, rfl⟩
  have ap : p'.a10 = 0 ↔ p.a10 = 0 := by rw [hp']; simp [pa.ne']
  have hal : lahqzSchur22 o sm eps x e = if p'.a10 = 0 then some ⟨p', ((p'.a00 : ℂ), p'.b00), ((p'.a11 : ℂ), p'.b11), z.cl, z.sl, z.cr, z.sr, s0, s1⟩
      else some ⟨p', (e'.1.1 * an, e'.1.2 * bn), (e'.2.1 * an, e'.2.2 * bn), z.cl, z.sl, z.cr, z.sr, s0, s1⟩ := by
    unfold lahqzSchur22
    dsimp only
    rw [← han, ← hbn, dv_ne pa.ne', dv_ne pb.ne']
    simp only [bind_s]
    have em' := em
    rw [hy] at em'
    dsimp only at em'
    rw [em']
    simp only [bind_s]
    rw [es]
    dsimp only
    rw [hp']
    rfl
  have hor : ∀ w : QsOut, w.cl = z.cl → w.sl = z.sl → w.cr = z.cr → w.sr = z.sr → w.scal0 = s0 → w.scal1 = s1 → w.p = p' →
      w.Qᵀ * w.Q = 1 ∧ w.Zᵀ * w.Z = 1 ∧ x.A + !![0, 0; an * er, 0] = w.Q * w.p.A * w.Zᵀ ∧ x.B + !![bn * f0, 0; 0, bn * f1] = w.Q * w.p.B * w.Zᵀ := by
    intro w h1 h2 h3 h4 h5 h6 h7
    have hQ : w.Q = (G z.cl z.sl)ᵀ := by
      unfold QsOut.Q G; rw [h1, h2]; ext i j; fin_cases i <;> fin_cases j <;> rfl
    have hZ : w.Z = (G z.cr z.sr)ᵀ * !![s0, 0; 0, s1] := by
      unfold QsOut.Z G; rw [h3, h4, h5, h6]
      congr 1
      ext i j; fin_cases i <;> fin_cases j <;> rfl
    have gl : G z.cl z.sl * (G z.cl z.sl)ᵀ = 1 := by
      have := rel.ul
      ext i j; fin_cases i <;> fin_cases j <;> simp [G, Matrix.mul_apply, Fin.sum_univ_two] <;> linarith
    have gr : G z.cr z.sr * (G z.cr z.sr)ᵀ = 1 := by
      have := rel.ur
      ext i j; fin_cases i <;> fin_cases j <;> simp [G, Matrix.mul_apply, Fin.sum_univ_two] <;> linarith
    have gl' := mul_eq_one_comm.1 gl
    have gr' := mul_eq_one_comm.1 gr
    have dt : (!![s0, 0; 0, s1] : Matrix (Fin 2) (Fin 2) ℝ)ᵀ = !![s0, 0; 0, s1] := by
      ext i j; fin_cases i <;> fin_cases j <;> rfl
    have dd : (!![s0, 0; 0, s1] : Matrix (Fin 2) (Fin 2) ℝ) * !![s0, 0; 0, s1] = 1 := by
      ext i j; fin_cases i <;> fin_cases j <;> simp [Matrix.mul_apply, Fin.sum_univ_two, hs0, hs1]
    have ep : ∀ (k : ℝ) (X P : Matrix (Fin 2) (Fin 2) ℝ), P = k • (G z.cl z.sl * X * (G z.cr z.sr)ᵀ * !![s0, 0; 0, s1]) → k • X = w.Q * P * w.Zᵀ := by
      intro k X P h
      rw [hQ, hZ, h, Matrix.transpose_mul, Matrix.transpose_transpose, dt, Matrix.mul_smul, Matrix.smul_mul]
      congr 1
      have : (G z.cl z.sl)ᵀ * (G z.cl z.sl * X * (G z.cr z.sr)ᵀ * !![s0, 0; 0, s1]) * (!![s0, 0; 0, s1] * G z.cr z.sr) =
          ((G z.cl z.sl)ᵀ * G z.cl z.sl) * X * ((G z.cr z.sr)ᵀ * (!![s0, 0; 0, s1] * !![s0, 0; 0, s1]) * G z.cr z.sr) := by
        simp only [Matrix.mul_assoc]
      rw [this, gl', dd, Matrix.mul_one, gr', Matrix.one_mul, Matrix.mul_one]
    refine ⟨?_, ?_, ?_, ?_⟩
    · rw [hQ, Matrix.transpose_transpose, gl]
    · rw [hZ, Matrix.transpose_mul, Matrix.transpose_transpose, dt, Matrix.mul_assoc, ← Matrix.mul_assoc (G z.cr z.sr), gr, Matrix.one_mul, dd]
    · rw [h7, ← ep an (y.A + !![0, 0; er, 0]) p'.A, yA, smul_add]
      · congr 1
        ext i j; fin_cases i <;> fin_cases j <;> simp
      · rw [← rel.A, ← pA, hp']
        ext i j; fin_cases i <;> fin_cases j <;> simp [Pen.A, mul_comm]
    · rw [h7, ← ep bn (y.B + !![f0, 0; 0, f1]) p'.B, yB, smul_add]
      · congr 1
        ext i j; fin_cases i <;> fin_cases j <;> simp
      · rw [← rel.B, ← pB, hp']
        ext i j; fin_cases i <;> fin_cases j <;> simp [Pen.B, mul_comm]
  have bE : |an * er| ≤ eps * (|x.a00| + |x.a11|) := by
    rw [abs_mul, abs_of_pos pa]
    have k0 : |y.a00| = |x.a00| / an := by rw [hy]; simp only [mul_one_div]; rw [abs_div, abs_of_pos pa]
    have k1 : |y.a11| = |x.a11| / an := by rw [hy]; simp only [mul_one_div]; rw [abs_div, abs_of_pos pa]
    rw [k0, k1] at be
    calc an * |er| ≤ an * (eps * (|x.a00| / an + |x.a11| / an)) := mul_le_mul_of_nonneg_left be pa.le
      _ = _ := by field_simp
  have bF : ∀ f, |f| ≤ eps → |bn * f| ≤ eps * bn := by
    intro f hf
    rw [abs_mul, abs_of_pos pb, mul_comm]
    exact mul_le_mul_of_nonneg_right hf pb.le
  have m0 : 0 ≤ p'.b00 := by rw [hp']; exact mul_nonneg n0 pb.le
  have m1 : 0 ≤ p'.b11 := by rw [hp']; exact mul_nonneg n1 pb.le
  have m10 : p'.b10 = 0 := by rw [hp']; simp [p10]
  rw [← hbn]
  rcases alt with a0 | ⟨rfl, rfl, rfl, a1, a2, a3, a4, a5, a6⟩
  · rw [hal, if_pos (ap.2 (pa0 a0))]
    obtain ⟨o1, o2, o3, o4⟩ := hor ⟨p', ((p'.a00 : ℂ), p'.b00), ((p'.a11 : ℂ), p'.b11), z.cl, z.sl, z.cr, z.sr, s0, s1⟩ rfl rfl rfl rfl rfl rfl rfl
    exact ⟨_, an * er, bn * f0, bn * f1, rfl, o1, o2, o3, o4, bE, bF _ b0, bF _ b1, m10, m0, m1, Or.inl ⟨ap.2 (pa0 a0), rfl, rfl⟩⟩
  · have s0n : s0 ≠ 0 := fun h => by rw [h] at hs0; simp at hs0
    have s1n : s1 ≠ 0 := fun h => by rw [h] at hs1; simp at hs1
    have en : p.a10 = z.p.a10 * s0 := by
      have := congrFun (congrFun pA 1) 0
      simpa [Pen.A, Matrix.mul_apply, Fin.sum_univ_two] using this
    have e0 : p.b00 = z.p.b00 * s0 := by
      have := congrFun (congrFun pB 0) 0
      simpa [Pen.B, Matrix.mul_apply, Fin.sum_univ_two] using this
    have e1 : p.b11 = z.p.b11 * s1 := by
      have := congrFun (congrFun pB 1) 1
      simpa [Pen.B, Matrix.mul_apply, Fin.sum_univ_two] using this
    have np : p'.a10 ≠ 0 := fun h => by
      rw [ap, en] at h
      exact (mul_ne_zero a1 s0n) h
    rw [hal, if_neg np]
    obtain ⟨o1, o2, o3, o4⟩ := hor ⟨p', (e'.1.1 * an, e'.1.2 * bn), (e'.2.1 * an, e'.2.2 * bn), z.cl, z.sl, z.cr, z.sr, s0, s1⟩ rfl rfl rfl rfl rfl rfl rfl
    refine ⟨_, an * 0, bn * 0, bn * 0, rfl, o1, o2, o3, o4, bE, bF _ b0, bF _ b1, m10, m0, m1, Or.inr ⟨mul_zero _, mul_zero _, mul_zero _, np, ?_, ?_, ?_, ?_, a6.scale yA yB⟩⟩
    · rw [hp']; simp [pb0 a2]
    · refine lt_of_le_of_ne m0 (Ne.symm ?_)
      rw [hp']; exact mul_ne_zero (e0 ▸ mul_ne_zero a3 s0n) pb.ne'
    · refine lt_of_le_of_ne m1 (Ne.symm ?_)
      rw [hp']; exact mul_ne_zero (e1 ▸ mul_ne_zero a4 s1n) pb.ne'
    · dsimp only
      simp [a5, pa.ne']

/-- A rotation with a full triangular `B` meets the hypotheses, with double precision constants. -/
example : ∃ w er f0 f1, lahqzSchur22 (rotOpsR ⟨2⁻¹ ^ 1022, 2 ^ 1022, 2⁻¹ ^ 52⟩) (2⁻¹ ^ 1022) (2⁻¹ ^ 52) ⟨1, 2, -2, 1, 1, 1, 0, 1⟩ 0 = some w ∧
    (⟨1, 2, -2, 1, 1, 1, 0, 1⟩ : Pen).A + !![0, 0; er, 0] = w.Q * w.p.A * w.Zᵀ ∧ (⟨1, 2, -2, 1, 1, 1, 0, 1⟩ : Pen).B + !![f0, 0; 0, f1] = w.Q * w.p.B * w.Zᵀ := by
  have hl : RotLaws (rotOpsR ⟨2⁻¹ ^ 1022, 2 ^ 1022, 2⁻¹ ^ 52⟩) := rotLaws_real (by dsimp only; positivity) (by dsimp only; positivity)
  obtain ⟨w, er, f0, f1, h, -, -, h1, h2, -⟩ := C100_lahqz_schur22 hl (sm := 2⁻¹ ^ 1022) (eps := 2⁻¹ ^ 52) (by positivity) (by positivity)
    (by
      rw [Real.sqrt_le_left (by positivity), ← pow_mul]
      exact pow_le_pow_of_le_one (by positivity) (by norm_num) (by norm_num)) ⟨1, 2, -2, 1, 1, 1, 0, 1⟩ rfl 0
  exact ⟨w, er, f0, f1, h, h1, h2⟩

end TLA.Kernel
