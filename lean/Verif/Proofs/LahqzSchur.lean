import Verif.SpecLahqzSchur
import Verif.Props.Lahqz
import Verif.Props.Kernel
set_option linter.unusedTactic false
set_option linter.unusedVariables false
set_option linter.unusedSimpArgs false
set_option linter.unreachableTactic false

namespace TLA.Kernel
open Matrix

/-- `z` is `y`, perturbed, in rotated coordinates. -/
structure QsRel (e f0 f1 : ℝ) (y : Pen) (z : Qs) : Prop where
  ul : z.cl * z.cl + z.sl * z.sl = 1
  ur : z.cr * z.cr + z.sr * z.sr = 1
  b10 : z.p.b10 = 0
  A : z.p.A = G z.cl z.sl * (y.A + !![0, 0; e, 0]) * (G z.cr z.sr)ᵀ
  B : z.p.B = G z.cl z.sl * (y.B + !![f0, 0; 0, f1]) * (G z.cr z.sr)ᵀ

theorem qsRotg_ok {o : RotOps ℝ} (ho : RotLaws o) (a b : ℝ) :
    ∃ r c s, qzRotg o a b = some (r, c, s) ∧ c * c + s * s = 1 ∧ c * a + s * b = r ∧ c * b = s * a := by
  obtain ⟨r, z, c, s, e, ⟨hc1, hc2⟩, hr, hz⟩ := ho a b
  refine ⟨r, c, s, by unfold qzRotg; rw [e], by simpa using hc2, hr, by simpa using hz⟩

theorem qsA10_ok {y : Pen} (hb : y.b10 = 0) : QsRel (-y.a10) 0 0 y (qsA10 y) := by
  refine ⟨by simp [qsA10], by simp [qsA10], hb, ?_, ?_⟩
  · ext i j; fin_cases i <;> fin_cases j <;> simp [qsA10, Pen.A, G, Matrix.mul_apply, Fin.sum_univ_two]
  · ext i j; fin_cases i <;> fin_cases j <;> simp [qsA10, Pen.B, G, Matrix.mul_apply, Fin.sum_univ_two, hb]

theorem qsB00_ok {o : RotOps ℝ} (ho : RotLaws o) {y : Pen} (hb : y.b10 = 0) : ∃ z, qsB00 o y = some z ∧ QsRel 0 (-y.b00) 0 y z ∧ z.p.a10 = 0 := by
  obtain ⟨r, c, s, e, h1, h2, h3⟩ := qsRotg_ok ho y.a00 y.a10
  unfold qsB00
  rw [e]
  simp only [bind_s]
  refine ⟨_, rfl, ⟨h1, by simp, hb, ?_, ?_⟩, rfl⟩
  · ext i j; fin_cases i <;> fin_cases j <;> simp [Pen.A, G, Matrix.mul_apply, Fin.sum_univ_two] <;> linarith
  · ext i j; fin_cases i <;> fin_cases j <;> simp [Pen.B, G, Matrix.mul_apply, Fin.sum_univ_two, hb] <;> linarith

theorem qsB11_ok {o : RotOps ℝ} (ho : RotLaws o) {y : Pen} (hb : y.b10 = 0) : ∃ z, qsB11 o y = some z ∧ QsRel 0 0 (-y.b11) y z ∧ z.p.a10 = 0 := by
  obtain ⟨r, c, s, e, h1, h2, h3⟩ := qsRotg_ok ho y.a11 y.a10
  unfold qsB11
  rw [e]
  simp only [bind_s]
  refine ⟨_, rfl, ⟨by simp, by simpa using h1, hb, ?_, ?_⟩, rfl⟩
  · ext i j; fin_cases i <;> fin_cases j <;> simp [Pen.A, G, Matrix.mul_apply, Fin.sum_univ_two] <;> linarith
  · ext i j; fin_cases i <;> fin_cases j <;> simp [Pen.B, G, Matrix.mul_apply, Fin.sum_univ_two, hb] <;> linarith

theorem lapy2R_pos {x y : ℝ} : 0 < lapy2R x y ↔ x ≠ 0 ∨ y ≠ 0 := by
  unfold lapy2R
  rw [Real.sqrt_pos]
  constructor
  · intro h
    by_contra hn
    push Not at hn
    rw [hn.1, hn.2] at h
    simp at h
  · rintro (h | h)
    · nlinarith [mul_self_nonneg y, mul_self_pos.2 h]
    · nlinarith [mul_self_nonneg x, mul_self_pos.2 h]

/-- The right rotation makes the first columns of `A` and `B` parallel. -/
theorem qsRight_ok {o : RotOps ℝ} (ho : RotLaws o) {y : Pen} (hb : y.b10 = 0) {al be : ℝ} (hd : (be • y.A - al • y.B).det = 0) :
    ∃ p c s, qsRight o y al be = some (p, c, s) ∧ c * c + s * s = 1 ∧ p.A = y.A * (G c s)ᵀ ∧ p.B = y.B * (G c s)ᵀ ∧
      be * p.a00 = al * p.b00 ∧ be * p.a10 = al * p.b10 := by
  have hd' : (be * y.a00 - al * y.b00) * (be * y.a11 - al * y.b11) - (be * y.a01 - al * y.b01) * (be * y.a10) = 0 := by
    rw [Matrix.det_fin_two] at hd
    simp [Pen.A, Pen.B, hb] at hd
    linarith
  obtain ⟨r, c, s, e, h1, h2, h3⟩ : ∃ r c s, (if lapy2R (be * y.a00 - al * y.b00) (be * y.a01 - al * y.b01) > lapy2R (be * y.a10) (be * y.a11 - al * y.b11) then
      qzRotg o (be * y.a01 - al * y.b01) (be * y.a00 - al * y.b00) else qzRotg o (be * y.a11 - al * y.b11) (be * y.a10)) = some (r, c, s) ∧ c * c + s * s = 1 ∧
      c * (be * y.a00 - al * y.b00) = s * (be * y.a01 - al * y.b01) ∧ c * (be * y.a10) = s * (be * y.a11 - al * y.b11) := by
    revert hd'
    generalize be * y.a00 - al * y.b00 = h00
    generalize be * y.a01 - al * y.b01 = h01
    generalize be * y.a10 = h10
    generalize be * y.a11 - al * y.b11 = h11
    intro hd'
    by_cases h : lapy2R h00 h01 > lapy2R h10 h11
    · rw [if_pos h]
      obtain ⟨r, c, s, e, h1, h2, h3⟩ := qsRotg_ok ho h01 h00
      refine ⟨r, c, s, e, h1, h3, ?_⟩
      have k0 : h00 * (c * h10 - s * h11) = 0 := by linear_combination h10 * h3 - s * hd'
      have k1 : h01 * (c * h10 - s * h11) = 0 := by linear_combination h11 * h3 - c * hd'
      rcases lapy2R_pos.1 (lt_of_le_of_lt (Real.sqrt_nonneg _) h) with n | n
      · linarith [(mul_eq_zero.1 k0).resolve_left n]
      · linarith [(mul_eq_zero.1 k1).resolve_left n]
    · rw [if_neg h]
      obtain ⟨r, c, s, e, h1, h2, h3⟩ := qsRotg_ok ho h11 h10
      refine ⟨r, c, s, e, h1, ?_, h3⟩
      by_cases n : h10 ≠ 0 ∨ h11 ≠ 0
      · have k0 : h10 * (c * h00 - s * h01) = 0 := by linear_combination h00 * h3 + s * hd'
        have k1 : h11 * (c * h00 - s * h01) = 0 := by linear_combination h01 * h3 + c * hd'
        rcases n with n | n
        · linarith [(mul_eq_zero.1 k0).resolve_left n]
        · linarith [(mul_eq_zero.1 k1).resolve_left n]
      · push Not at n
        have z : ¬ 0 < lapy2R h00 h01 := by
          intro hp
          apply h
          rw [n.1, n.2]
          have : lapy2R 0 0 = 0 := by simp [lapy2R]
          rw [this]; exact hp
        rw [lapy2R_pos] at z
        push Not at z
        rw [z.1, z.2]; ring
  unfold qsRight
  dsimp only
  rw [e]
  simp only [bind_s]
  refine ⟨_, _, _, rfl, by simpa using h1, ?_, ?_, ?_, ?_⟩
  · ext i j; fin_cases i <;> fin_cases j <;> simp [Pen.A, G, Matrix.mul_apply, Fin.sum_univ_two] <;> ring
  · ext i j; fin_cases i <;> fin_cases j <;> simp [Pen.B, G, Matrix.mul_apply, Fin.sum_univ_two, hb] <;> ring
  · dsimp only
    linear_combination h2
  · dsimp only
    linear_combination h3

/-- The left rotation makes both upper triangular. -/
theorem qsLeft_ok {o : RotOps ℝ} (ho : RotLaws o) {y : Pen} {al be : ℝ} (hb : be ≠ 0) (h0 : be * y.a00 = al * y.b00) (h1 : be * y.a10 = al * y.b10) :
    ∃ p c s, qsLeft o y = some (p, c, s) ∧ c * c + s * s = 1 ∧ p.A = G c s * y.A ∧ p.B = G c s * y.B ∧ p.a10 = 0 ∧ p.b10 = 0 := by
  obtain ⟨ra, ca, sa, ea, u1, u2, u3⟩ := qsRotg_ok ho y.a00 y.a10
  obtain ⟨rb, cb, sb, eb, v1, v2, v3⟩ := qsRotg_ok ho y.b00 y.b10
  have z : cb * y.a10 = sb * y.a00 := by
    apply mul_left_cancel₀ hb
    linear_combination cb * h1 - sb * h0 + al * v3
  have z' : -sb * y.a00 + cb * y.a10 = 0 := by linarith
  unfold qsLeft
  rw [ea, eb]
  simp only [bind_s]
  rw [if_pos (by rw [z', abs_zero, zero_mul]; positivity)]
  refine ⟨_, _, _, rfl, v1, ?_, ?_, rfl, rfl⟩
  · ext i j; fin_cases i <;> fin_cases j <;> simp [Pen.A, G, Matrix.mul_apply, Fin.sum_univ_two] <;> linarith
  · ext i j; fin_cases i <;> fin_cases j <;> simp [Pen.B, G, Matrix.mul_apply, Fin.sum_univ_two] <;> linarith

theorem qsPair_ok {eps : ℝ} (he : 0 < eps) {y : Pen} (hb : y.b10 = 0) (hg : eps * |y.b01| ≤ max |y.b00| |y.b11|) :
    ∃ z, qsPair eps y = some z ∧ QsRel 0 0 0 y z ∧ z.p.b01 = 0 := by
  obtain ⟨o, e, -, hl, hr, h⟩ := C52_svd22 he y.b00 y.b01 y.b11 hg
  have ul : o.csl * o.csl + o.snl * o.snl = 1 := by
    have := congrFun (congrFun hl 0) 0
    simpa [G, Matrix.mul_apply, Fin.sum_univ_two] using this
  have ur : o.csr * o.csr + o.snr * o.snr = 1 := by
    have := congrFun (congrFun hr 0) 0
    simpa [G, Matrix.mul_apply, Fin.sum_univ_two] using this
  unfold qsPair
  rw [e]
  simp only [bind_s]
  refine ⟨_, rfl, ⟨ul, ur, hb, ?_, ?_⟩, rfl⟩
  · ext i j; fin_cases i <;> fin_cases j <;> simp [Pen.A, G, Matrix.mul_apply, Fin.sum_univ_two] <;> ring
  · have hB : y.B + !![0, 0; 0, 0] = !![y.b00, y.b01; 0, y.b11] := by
      ext i j; fin_cases i <;> fin_cases j <;> simp [Pen.B, hb]
    dsimp only
    rw [hB, h]
    ext i j; fin_cases i <;> fin_cases j <;> simp [Pen.B, hb]

theorem qsSign_ok {y : Pen} (hb : y.b10 = 0) : ∃ p s0 s1, qsSign y = (p, s0, s1) ∧ s0 * s0 = 1 ∧ s1 * s1 = 1 ∧ p.A = y.A * !![s0, 0; 0, s1] ∧
    p.B = y.B * !![s0, 0; 0, s1] ∧ 0 ≤ p.b00 ∧ 0 ≤ p.b11 ∧ p.b10 = 0 ∧ (y.a10 = 0 → p.a10 = 0) ∧ (y.b01 = 0 → p.b01 = 0) := by
  unfold qsSign
  by_cases h0 : y.b00 < 0
  · simp only [if_pos h0]
    by_cases h1 : y.b11 < 0
    · simp only [if_pos h1]
      refine ⟨_, _, _, rfl, by norm_num, by norm_num, ?_, ?_, by dsimp only; linarith, by dsimp only; linarith, hb, by simp, by simp⟩ <;>
        ext i j <;> fin_cases i <;> fin_cases j <;> simp [Pen.A, Pen.B, Matrix.mul_apply, Fin.sum_univ_two, hb]
    · simp only [if_neg h1]
      refine ⟨_, _, _, rfl, by norm_num, by norm_num, ?_, ?_, by dsimp only; linarith, by dsimp only; linarith, hb, by simp, by simp⟩ <;>
        ext i j <;> fin_cases i <;> fin_cases j <;> simp [Pen.A, Pen.B, Matrix.mul_apply, Fin.sum_univ_two, hb]
  · simp only [if_neg h0]
    by_cases h1 : y.b11 < 0
    · simp only [if_pos h1]
      refine ⟨_, _, _, rfl, by norm_num, by norm_num, ?_, ?_, by dsimp only; linarith, by dsimp only; linarith, hb, by simp, by simp⟩ <;>
        ext i j <;> fin_cases i <;> fin_cases j <;> simp [Pen.A, Pen.B, Matrix.mul_apply, Fin.sum_univ_two, hb]
    · simp only [if_neg h1]
      refine ⟨_, _, _, rfl, by norm_num, by norm_num, ?_, ?_, by linarith, by linarith, hb, by simp, by simp⟩ <;>
        ext i j <;> fin_cases i <;> fin_cases j <;> simp [Pen.A, Pen.B, Matrix.mul_apply, Fin.sum_univ_two, hb]

theorem det_G {c s : ℝ} (h : c * c + s * s = 1) : (G c s).det = 1 := by
  rw [Matrix.det_fin_two]; simp [G]; linarith

theorem cmat_mul (M N : Matrix (Fin 2) (Fin 2) ℝ) : cmat (M * N) = cmat M * cmat N := by
  ext i j; simp [cmat, Matrix.mul_apply]

theorem PencilEigs.scale {A B A' B' : Matrix (Fin 2) (Fin 2) ℝ} {an bn : ℝ} (ha : A = an • A') (hb : B = bn • B') {p q : ℂ × ℝ}
    (h : PencilEigs (cmat A') (cmat B') p q) : PencilEigs (cmat A) (cmat B) (p.1 * an, p.2 * bn) (q.1 * an, q.2 * bn) := by
  obtain ⟨κ, hk, h⟩ := h
  refine ⟨κ, hk, fun x y => ?_⟩
  have := h (x * an) (y * bn)
  have ca : (x * an) • cmat A' = x • cmat A := by
    rw [ha]; ext i j; simp [cmat]; ring
  have cb : (y * bn) • cmat B' = y • cmat B := by
    rw [hb]; ext i j; simp [cmat]; ring
  rw [← ca, ← cb, this]
  push_cast
  ring

/-- A pencil with a nonreal eigenvalue is not triangularized by rotations that make `B` diagonal. -/
theorem qs_a10 {y : Pen} {z : Qs} (h : QsRel 0 0 0 y z) (h01 : z.p.b01 = 0) (hd : y.B.det ≠ 0) {p q : ℂ × ℝ} (hp : PencilEigs (cmat y.A) (cmat y.B) p q)
    (him : p.1.im ≠ 0) : z.p.a10 ≠ 0 ∧ z.p.b00 ≠ 0 ∧ z.p.b11 ≠ 0 := by
  have z0 : (!![0, 0; 0, 0] : Matrix (Fin 2) (Fin 2) ℝ) = 0 := by ext i j; fin_cases i <;> fin_cases j <;> rfl
  have hA := h.A
  have hB := h.B
  rw [z0, add_zero] at hA hB
  have dB : z.p.b00 * z.p.b11 = y.B.det := by
    have := congrArg Matrix.det hB
    rw [Matrix.det_mul, Matrix.det_mul, Matrix.det_transpose, det_G h.ul, det_G h.ur, Matrix.det_fin_two z.p.B] at this
    simpa [Pen.B, h.b10] using this
  have nb : z.p.b00 ≠ 0 ∧ z.p.b11 ≠ 0 := by
    rw [← dB] at hd
    exact ⟨left_ne_zero_of_mul hd, right_ne_zero_of_mul hd⟩
  refine ⟨fun ha => ?_, nb⟩
  have s1 := hp.singular.1
  have s2 : ((p.2 : ℂ) • cmat z.p.A - p.1 • cmat z.p.B).det = 0 := by
    have e3 : (p.2 : ℂ) • cmat z.p.A - p.1 • cmat z.p.B = cmat (G z.cl z.sl) * ((p.2 : ℂ) • cmat y.A - p.1 • cmat y.B) * cmat (G z.cr z.sr)ᵀ := by
      rw [hA, hB, cmat_mul, cmat_mul, cmat_mul, cmat_mul]
      simp only [Matrix.mul_sub, Matrix.sub_mul, Matrix.mul_smul, Matrix.smul_mul]
    rw [e3, Matrix.det_mul, Matrix.det_mul, s1, mul_zero, zero_mul]
  rw [Matrix.det_fin_two] at s2
  simp [cmat, Pen.A, Pen.B, ha, h.b10, h01] at s2
  rcases s2 with e | e
  · have := congrArg Complex.im e
    simp at this
    exact this.elim him nb.1
  · have := congrArg Complex.im e
    simp at this
    exact this.elim him nb.2

/-- The four cases. -/
theorem qsMid {o : RotOps ℝ} (ho : RotLaws o) {sm eps : ℝ} (hs : 0 < sm) (he : 0 < eps) (hse : Real.sqrt sm ≤ eps) {y : Pen} (hb : y.b10 = 0)
    (h0 : |y.b00| ≤ 1) (h1 : |y.b01| ≤ 1) (h2 : |y.b11| ≤ 1) (e : (ℂ × ℝ) × (ℂ × ℝ)) :
    ∃ z e' er f0 f1, (if |y.a10| ≤ eps * (|y.a00| + |y.a11|) then pure (qsA10 y, e)
      else if |y.b00| ≤ eps then do pure (← qsB00 o y, e)
      else if |y.b11| ≤ eps then do pure (← qsB11 o y, e)
      else do
        let e ← qzEig22 o sm y.a00 y.a01 y.a10 y.a11 y.b00 y.b01 y.b11
        if e.1.1.im = 0 then do
          let r ← qsRight o y e.1.1.re e.1.2
          let l ← qsLeft o r.1
          pure (⟨l.1, l.2.1, l.2.2, r.2.1, r.2.2⟩, e)
        else do pure (← qsPair eps y, e) : Option (Qs × ((ℂ × ℝ) × (ℂ × ℝ)))) = some (z, e') ∧
      QsRel er f0 f1 y z ∧ |er| ≤ eps * (|y.a00| + |y.a11|) ∧ |f0| ≤ eps ∧ |f1| ≤ eps ∧
      (z.p.a10 = 0 ∨ (er = 0 ∧ f0 = 0 ∧ f1 = 0 ∧ z.p.a10 ≠ 0 ∧ z.p.b01 = 0 ∧ z.p.b00 ≠ 0 ∧ z.p.b11 ≠ 0 ∧ e'.1.1.im ≠ 0 ∧ PencilEigs (cmat y.A) (cmat y.B) e'.1 e'.2)) := by
  have nn : |(0 : ℝ)| ≤ eps * (|y.a00| + |y.a11|) := by rw [abs_zero]; positivity
  have n0 : |(0 : ℝ)| ≤ eps := by rw [abs_zero]; exact he.le
  by_cases c0 : |y.a10| ≤ eps * (|y.a00| + |y.a11|)
  · rw [if_pos c0]
    exact ⟨_, _, _, _, _, rfl, qsA10_ok hb, by rwa [abs_neg], n0, n0, Or.inl rfl⟩
  rw [if_neg c0]
  by_cases c1 : |y.b00| ≤ eps
  · rw [if_pos c1]
    obtain ⟨z, ez, hz, hz0⟩ := qsB00_ok ho hb
    rw [ez]
    exact ⟨_, _, _, _, _, rfl, hz, nn, by rwa [abs_neg], n0, Or.inl hz0⟩
  rw [if_neg c1]
  by_cases c2 : |y.b11| ≤ eps
  · rw [if_pos c2]
    obtain ⟨z, ez, hz, hz0⟩ := qsB11_ok ho hb
    rw [ez]
    exact ⟨_, _, _, _, _, rfl, hz, nn, n0, by rwa [abs_neg], Or.inl hz0⟩
  rw [if_neg c2]
  push Not at c1 c2
  have rs : Real.sqrt sm ≤ 1 := by linarith
  have rp : 0 < Real.sqrt sm := Real.sqrt_pos.2 hs
  have bm : Real.sqrt sm * max (max |y.b00| |y.b01|) (max |y.b11| (Real.sqrt sm)) ≤ eps := by
    have : max (max |y.b00| |y.b01|) (max |y.b11| (Real.sqrt sm)) ≤ 1 := max_le (max_le h0 h1) (max_le h2 rs)
    calc _ ≤ Real.sqrt sm * 1 := mul_le_mul_of_nonneg_left this rp.le
      _ ≤ eps := by linarith
  obtain ⟨p, q, d0, d1, bmin, rfl, ee, -, -, hd, hp⟩ := C92_eig22 ho hs y.A y.b00 y.b01 y.b11
  obtain ⟨rfl, rfl⟩ := hd ⟨by linarith, by linarith⟩
  have eb : !![y.b00 - 0, y.b01; 0, y.b11 - 0] = y.B := by
    ext i j; fin_cases i <;> fin_cases j <;> simp [Pen.B, hb]
  rw [eb] at hp
  have ee' : qzEig22 o sm y.a00 y.a01 y.a10 y.a11 y.b00 y.b01 y.b11 = some (p, q) := ee
  rw [ee']
  simp only [bind_s]
  have nb0 : y.b00 ≠ 0 := fun h => by rw [h, abs_zero] at c1; linarith
  have nb1 : y.b11 ≠ 0 := fun h => by rw [h, abs_zero] at c2; linarith
  have dB : y.B.det ≠ 0 := by
    rw [Matrix.det_fin_two]; simp [Pen.B, hb, nb0, nb1]
  by_cases hi : p.1.im = 0
  · rw [if_pos hi]
    have hal : p.1 = (p.1.re : ℂ) := by
      apply Complex.ext <;> simp [hi]
    have be0 : p.2 ≠ 0 := by
      obtain ⟨κ, hk, h⟩ := hp
      have := h 0 1
      intro hz
      rw [hz, zero_smul, one_smul, zero_sub, Matrix.det_neg] at this
      have dc : (cmat y.B).det = (y.B.det : ℂ) := by
        rw [Matrix.det_fin_two, Matrix.det_fin_two]; simp [cmat]
      rw [dc] at this
      simp at this
      exact dB this
    have sing : (p.2 • y.A - p.1.re • y.B).det = 0 := by
      have := hp.singular.1
      rw [hal] at this
      have e2 : (p.2 : ℂ) • cmat y.A - (p.1.re : ℂ) • cmat y.B = cmat (p.2 • y.A - p.1.re • y.B) := by
        ext i j; simp [cmat]
      rw [e2] at this
      have dc : (cmat (p.2 • y.A - p.1.re • y.B)).det = ((p.2 • y.A - p.1.re • y.B).det : ℂ) := by
        rw [Matrix.det_fin_two, Matrix.det_fin_two]; simp [cmat]
      rw [dc] at this
      exact_mod_cast this
    obtain ⟨r, cr, sr, er, ur, rA, rB, r0, r1⟩ := qsRight_ok ho hb sing
    obtain ⟨l, cl, sl, el, ul, lA, lB, l0, l1⟩ := qsLeft_ok ho be0 r0 r1
    rw [er]
    simp only [bind_s]
    rw [el]
    simp only [bind_s]
    have z0 : (!![0, 0; 0, 0] : Matrix (Fin 2) (Fin 2) ℝ) = 0 := by ext i j; fin_cases i <;> fin_cases j <;> rfl
    exact ⟨_, _, 0, 0, 0, rfl, ⟨ul, ur, l1, by rw [z0, add_zero, Matrix.mul_assoc, ← rA]; exact lA, by rw [z0, add_zero, Matrix.mul_assoc, ← rB]; exact lB⟩, nn, n0, n0, Or.inl l0⟩
  · rw [if_neg hi]
    obtain ⟨z, ez, hz, h01⟩ := qsPair_ok he hb (by
      calc eps * |y.b01| ≤ eps * 1 := mul_le_mul_of_nonneg_left h1 he.le
        _ ≤ |y.b00| := by linarith
        _ ≤ _ := le_max_left _ _)
    rw [ez]
    simp only [bind_s]
    obtain ⟨k1, k2, k3⟩ := qs_a10 hz h01 dB hp hi
    exact ⟨_, _, 0, 0, 0, rfl, hz, nn, n0, n0, Or.inr ⟨rfl, rfl, rfl, k1, h01, k2, k3, hi, hp⟩⟩

end TLA.Kernel
