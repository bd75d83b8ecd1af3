import Verif.SpecKernel
import Verif.Proofs.KernelMisc
import Verif.Proofs.KernelRotm
import Verif.Proofs.Blas1
import Verif.Props.Examples

/-! # C50 – C57: scalar and 2 by 2 kernels, in exact arithmetic -/

set_option linter.unusedSimpArgs false

namespace TLA.Kernel
open Matrix Polynomial

theorem eigsOf_iff {K : Type} [Field K] {a b c d s1 s2 : K} (h1 : s1 + s2 = a + d) (h2 : s1 * s2 = a * d - b * c) :
    EigsOf !![a, b; c, d] s1 s2 := by
  unfold EigsOf
  rw [charpoly_fin_two, trace_fin_two, det_fin_two]
  simp only [of_apply, cons_val', cons_val_zero, cons_val_one, cons_val_fin_one]
  rw [← h1, ← h2, C_add, C_mul]
  ring

theorem G_mul_tr (c s : ℝ) : G c s * (G c s)ᵀ = !![c * c + s * s, 0; 0, c * c + s * s] := by
  ext i j
  fin_cases i <;> fin_cases j <;> simp [G, Matrix.mul_apply, Fin.sum_univ_two] <;> ring

theorem G_upper (c s c' s' f g h : ℝ) : G c s * !![f, g; 0, h] * (G c' s')ᵀ =
    !![c * (f * c' + g * s') + s * (h * s'), c * (g * c' - f * s') + s * (h * c');
      -s * (f * c' + g * s') + c * (h * s'), -s * (g * c' - f * s') + c * (h * c')] := by
  ext i j
  fin_cases i <;> fin_cases j <;> simp [G, Matrix.mul_apply, Fin.sum_univ_two] <;> ring

/-! ## C50: complex division -/

/-- `ladiv(x, y)` is the quotient for every nonzero `y`, whatever scaling and branch is taken. -/
theorem C50_ladiv {pr : DivPar} (hu : pr.u ≠ 0) (x : ℂ) {y : ℂ} (hy : y ≠ 0) : ladivC pr x y = some (x / y) := by
  have h : y.re ≠ 0 ∨ y.im ≠ 0 := by
    by_contra hn
    push Not at hn
    exact hy (Complex.ext hn.1 hn.2)
  unfold ladivC
  rw [ladiv_eq hu h]
  simp only [pure, bind_s]
  congr 1
  have hn : y.re * y.re + y.im * y.im ≠ 0 := by
    intro h0
    apply hy
    apply Complex.ext
    · simp only [Complex.zero_re]; nlinarith [mul_self_nonneg y.re, mul_self_nonneg y.im]
    · simp only [Complex.zero_im]; nlinarith [mul_self_nonneg y.re, mul_self_nonneg y.im]
  rw [eq_div_iff hy]
  apply Complex.ext
  · rw [Complex.mul_re]
    generalize hq : y.re * y.re + y.im * y.im = q at *
    field_simp; linear_combination x.re * hq
  · rw [Complex.mul_im]
    generalize hq : y.re * y.re + y.im * y.im = q at *
    field_simp; linear_combination x.im * hq

/-- The four-argument form. -/
theorem C50_ladiv_real {pr : DivPar} (hu : pr.u ≠ 0) (a b : ℝ) {c d : ℝ} (h : c ≠ 0 ∨ d ≠ 0) :
    ladiv pr a b c d = some ((a * c + b * d) / (c * c + d * d), (b * c - a * d) / (c * c + d * d)) := ladiv_eq hu h

/-- A zero divisor is the only way to divide by zero. -/
theorem C50_ladiv_zero {pr : DivPar} (x : ℂ) : ladivC pr x 0 = none := by
  unfold ladivC
  simp [ladiv_none]

example : ∃ z, ladivC ⟨2 ^ 1023, 1 / 2 ^ 1022, 1 / 2 ^ 53⟩ ⟨3, 4⟩ ⟨1, 2⟩ = some z ∧ z * ⟨1, 2⟩ = ⟨3, 4⟩ :=
  have hy : (⟨1, 2⟩ : ℂ) ≠ 0 := fun h => by simpa using congrArg Complex.re h
  ⟨_, C50_ladiv (by norm_num) _ hy, div_mul_cancel₀ _ hy⟩

/-! ## C51: symmetric 2 by 2 eigenproblem -/

/-- `lae2`: the two eigenvalues of `[a b; b c]`, the first of larger absolute value. -/
theorem C51_lae2 (a b c : ℝ) : ∃ s1 s2, lae2 a b c = some (s1, s2) ∧ EigsOf !![a, b; b, c] s1 s2 ∧ |s2| ≤ |s1| := by
  obtain ⟨s1, s2, e, h1, h2, h3⟩ := lae2_ok a b c
  exact ⟨s1, s2, e, eigsOf_iff h1 h2, h3⟩

/-- `laev2`: the same eigenvalues, and `[cs sn; -sn cs]` is orthogonal and diagonalizes the matrix. -/
theorem C51_laev2 (a b c : ℝ) : ∃ s1 s2 cs sn, laev2 a b c = some ((s1, s2), (cs, sn)) ∧
    EigsOf !![a, b; b, c] s1 s2 ∧ |s2| ≤ |s1| ∧ G cs sn * (G cs sn)ᵀ = 1 ∧
    G cs sn * !![a, b; b, c] * (G cs sn)ᵀ = !![s1, 0; 0, s2] := by
  obtain ⟨s1, s2, cs, sn, e, ⟨h1, h2, h3⟩, u, d1, d2, d3⟩ := laev2_ok a b c
  refine ⟨s1, s2, cs, sn, e, eigsOf_iff h1 h2, h3, ?_, ?_⟩
  · ext i j
    fin_cases i <;> fin_cases j <;> simp [G, Matrix.mul_apply, Fin.sum_univ_two] <;> linarith
  · ext i j
    fin_cases i <;> fin_cases j <;> simp [G, Matrix.mul_apply, Fin.sum_univ_two]
    · linear_combination d1
    · linear_combination d2
    · linear_combination d2
    · linear_combination d3

example : ∃ s1 s2, lae2 2 1 2 = some (s1, s2) ∧ EigsOf !![2, 1; 1, 2] s1 s2 ∧ |s2| ≤ |s1| := C51_lae2 2 1 2

/-! ## C52: singular value decomposition of a 2 by 2 triangle -/

/-- `singularvalues22`: the singular values of `[f g; 0 h]`, the square roots of the eigenvalues of `BᵀB`. -/
theorem C52_singularvalues22 (f g h : ℝ) : ∃ smin smax, singularvalues22 f g h = some (smin, smax) ∧
    0 ≤ smin ∧ smin ≤ smax ∧
    EigsOf ((!![f, g; 0, h] : Matrix (Fin 2) (Fin 2) ℝ)ᵀ * !![f, g; 0, h]) (smin ^ 2) (smax ^ 2) := by
  obtain ⟨s1, s2, e, h0, h1, h2, h3⟩ := singularvalues22_ok f g h
  refine ⟨s1, s2, e, h0, h1, ?_⟩
  have hm : (!![f, g; 0, h] : Matrix (Fin 2) (Fin 2) ℝ)ᵀ * !![f, g; 0, h] = !![f * f, f * g; f * g, g * g + h * h] := by
    ext i j
    fin_cases i <;> fin_cases j <;> simp [Matrix.mul_apply, Fin.sum_univ_two] <;> ring
  rw [hm]
  apply eigsOf_iff
  · linear_combination h2
  · have h4 : (s1 * s2) * (s1 * s2) = (f * h) * (f * h) := by rw [h3, abs_mul_abs_self]
    linear_combination h4

/-- `svd22`: `[csl snl; -snl csl] [f g; 0 h] [csr -snr; snr csr] = diag(ssmax, ssmin)` with orthogonal
factors, exactly, unless `g` dwarfs both `f` and `h` (beyond `1/eps`). -/
theorem C52_svd22 {eps : ℝ} (he : 0 < eps) (f g h : ℝ) (hg : eps * |g| ≤ max |f| |h|) :
    ∃ o, svd22 eps f g h = some o ∧ |o.ssmin| ≤ |o.ssmax| ∧
      G o.csl o.snl * (G o.csl o.snl)ᵀ = 1 ∧ G o.csr o.snr * (G o.csr o.snr)ᵀ = 1 ∧
      G o.csl o.snl * !![f, g; 0, h] * (G o.csr o.snr)ᵀ = !![o.ssmax, 0; 0, o.ssmin] := by
  obtain ⟨o, e, ok⟩ := svd22_ok he f g h
  obtain ⟨⟨ul, ur, e0, e1, e2, e3⟩, hle⟩ := ok.exact' hg
  refine ⟨o, e, hle, ?_, ?_, ?_⟩
  · ext i j
    fin_cases i <;> fin_cases j <;> simp [G, Matrix.mul_apply, Fin.sum_univ_two] <;> linarith
  · ext i j
    fin_cases i <;> fin_cases j <;> simp [G, Matrix.mul_apply, Fin.sum_univ_two] <;> linarith
  · ext i j
    fin_cases i <;> fin_cases j <;> simp [G, Matrix.mul_apply, Fin.sum_univ_two]
    · linear_combination e0
    · linear_combination e1
    · linear_combination e2
    · linear_combination e3

/-- In the remaining case (`|f|, |h| < eps |g|`) the same identities hold up to `2 eps²`, relative to `|g|`. -/
theorem C52_svd22_dominant {eps : ℝ} (he : 0 < eps) (he1 : eps ≤ 1) (f g h : ℝ) (hg : max |f| |h| < eps * |g|) :
    ∃ o, svd22 eps f g h = some o ∧ |o.ssmin| ≤ |o.ssmax| ∧
      (∀ i j, |(G o.csl o.snl * (G o.csl o.snl)ᵀ - 1) i j| ≤ 2 * eps ^ 2) ∧
      (∀ i j, |(G o.csr o.snr * (G o.csr o.snr)ᵀ - 1) i j| ≤ 2 * eps ^ 2) ∧
      ∀ i j, |(G o.csl o.snl * !![f, g; 0, h] * (G o.csr o.snr)ᵀ - !![o.ssmax, 0; 0, o.ssmin]) i j| ≤
        2 * eps ^ 2 * |g| := by
  obtain ⟨o, e, ok⟩ := svd22_ok he f g h
  obtain ⟨⟨ul, ur, e0, e1, e2, e3⟩, hle⟩ := ok.tiny he1 hg
  have h0 : 0 ≤ 2 * eps ^ 2 := by positivity
  have h1 : 0 ≤ 2 * eps ^ 2 * |g| := by positivity
  refine ⟨o, e, hle, ?_, ?_, ?_⟩
  · rw [G_mul_tr]
    intro i j
    fin_cases i <;> fin_cases j <;> simp [ul, h0] <;> positivity
  · rw [G_mul_tr]
    intro i j
    fin_cases i <;> fin_cases j <;> simp [ur, h0] <;> positivity
  · rw [G_upper]
    intro i j
    fin_cases i <;> fin_cases j
    · simpa using e0
    · simpa using e1
    · simpa using e2
    · simpa using e3

example : (1 / 2 ^ 53 : ℝ) * |(5:ℝ)| ≤ max |(1:ℝ)| |(2:ℝ)| := by norm_num [abs_of_pos]
example : max |(1:ℝ)| |(2:ℝ)| < (1 / 2 ^ 53 : ℝ) * |(2:ℝ) ^ 60| := by
  rw [abs_of_pos, abs_of_pos, abs_of_pos] <;> norm_num

/-! ## C53: plane rotations -/

/-- `lartg`, real: `[c s; -s c]` is a rotation that maps `(a, b)` to `(r, 0)`. -/
theorem C53_lartg {p : RotPar} (h1 : 0 < p.safmin) (h2 : 0 < p.safmax) (a b : ℝ) :
    ∃ c s r, lartg p a b = some (c, s, r) ∧ G c s * (G c s)ᵀ = 1 ∧ (G c s).mulVec ![a, b] = ![r, 0] := by
  obtain ⟨r, z, c, s, e, ⟨u, t, d⟩, -⟩ := rotg_ok h1 h2 a b
  refine ⟨c, s, r, by unfold lartg; simp only [e, bind_s, pure], ?_, ?_⟩
  · ext i j
    fin_cases i <;> fin_cases j <;> simp [G, Matrix.mul_apply, Fin.sum_univ_two] <;> linarith
  · ext i
    fin_cases i <;> simp [G, Matrix.mulVec, dotProduct, Fin.sum_univ_two] <;> linarith

/-- `rotg`, real: the rotation, and the documented reconstruction of `(c, s)` from the scalar left in `b`:
`z = 1`: `(0, 1)`; `|z| < 1`: `(sqrt(1-z²), z)`; `|z| > 1`: `(1/z, sqrt(1-c²))`. -/
theorem C53_rotg {p : RotPar} (h1 : 0 < p.safmin) (h2 : 0 < p.safmax) (a b : ℝ) :
    ∃ r z c s, rotg p a b = some (r, z, c, s) ∧ G c s * (G c s)ᵀ = 1 ∧ (G c s).mulVec ![a, b] = ![r, 0] ∧
      ((z = 1 ∧ c = 0 ∧ s = 1) ∨ (|z| < 1 ∧ s = z ∧ c = Real.sqrt (1 - z * z)) ∨
        (1 < |z| ∧ c = 1 / z ∧ s = Real.sqrt (1 - c * c))) := by
  obtain ⟨r, z, c, s, e, ⟨u, t, d⟩, zo⟩ := rotg_ok h1 h2 a b
  refine ⟨r, z, c, s, e, ?_, ?_, ?_⟩
  · ext i j
    fin_cases i <;> fin_cases j <;> simp [G, Matrix.mul_apply, Fin.sum_univ_two] <;> linarith
  · ext i
    fin_cases i <;> simp [G, Matrix.mulVec, dotProduct, Fin.sum_univ_two] <;> linarith
  · rcases zo.cases with h | h | h
    · exact .inl ⟨h, zo.one h⟩
    · exact .inr (.inl ⟨h, zo.small h⟩)
    · exact .inr (.inr ⟨h, zo.big h⟩)

/-- `rotg`, complex: `[c s; -conj(s) c]` is unitary and maps `(a, b)` to `(r, 0)`. -/
theorem C53_rotgC {p : RotPar} (h1 : 0 < p.safmin) (h2 : 0 < p.safmax) (h3 : 0 < p.ulp) (a b : ℂ) :
    ∃ r c s, rotgC p a b = some (r, c, s) ∧ GC c s * (GC c s)ᴴ = 1 ∧ (GC c s).mulVec ![a, b] = ![r, 0] := by
  obtain ⟨r, c, s, e, ⟨u, t, d⟩⟩ := rotgC_ok h1 h2 h3 a b
  have u' : (c : ℂ) * c + s * (starRingEnd ℂ) s = 1 := u
  have d' : -(starRingEnd ℂ) s * a + c * b = 0 := d
  refine ⟨r, c, s, e, ?_, ?_⟩
  · ext i j
    fin_cases i <;> fin_cases j <;>
      simp [GC, Matrix.mul_apply, Fin.sum_univ_two, Matrix.conjTranspose_apply]
    · linear_combination u'
    · ring
    · ring
    · linear_combination u'
  · ext i
    fin_cases i <;> simp [GC, Matrix.mulVec, dotProduct, Fin.sum_univ_two]
    · linear_combination t
    · linear_combination d'

example : ∃ r c s, rotgC ⟨1 / 2 ^ 1022, 2 ^ 1022, 1 / 2 ^ 52⟩ ⟨1, 2⟩ ⟨3, 4⟩ = some (r, c, s) ∧
    GC c s * (GC c s)ᴴ = 1 ∧ (GC c s).mulVec ![⟨1, 2⟩, ⟨3, 4⟩] = ![r, 0] :=
  C53_rotgC (by norm_num) (by norm_num) (by norm_num) _ _

/-! ## C54: modified plane rotations -/

/-- The matrix that `flag` and `h` stand for in `rotm` and `rotmg` (their documentation). -/
def hFlag {K : Type} [Field K] (flag : ℤ) (h : ℕ → K) : Matrix (Fin 2) (Fin 2) K :=
  if flag = -1 then !![h 0, h 2; h 1, h 3]
  else if flag = 0 then !![1, h 2; h 1, 1]
  else if flag = 1 then !![h 0, 1; -1, h 3]
  else 1

theorem hFlag_rotm {K : Type} [Field K] (flag : ℤ) (h : ℕ → K) :
    hFlag flag h = !![(rotmEntries flag h).1, (rotmEntries flag h).2.2.1;
      (rotmEntries flag h).2.1, (rotmEntries flag h).2.2.2] := by
  unfold hFlag rotmEntries
  split_ifs
  · rfl
  · rfl
  · rfl
  · ext i j; fin_cases i <;> fin_cases j <;> simp

/-- `rotm` multiplies every pair `(x_i, y_i)` by that matrix, and changes nothing else. -/
theorem C54_rotm {L K : Type} [DecidableEq L] [Field K] (flag : ℤ) (h : ℕ → K) {x y : VecV L}
    (hx : x.Inj) (hy : y.Inj) (hn : y.n = x.n) (hd : x.Disj y) (μ : Store L K) :
    ∃ ν, rotm flag x y h μ = (.ok (), ν) ∧
      (∀ i, i < x.n → ![ventry ν x i, ventry ν y i] = (hFlag flag h).mulVec ![ventry μ x i, ventry μ y i]) ∧
      ∀ l, ¬ x.Owns l → ¬ y.Owns l → ν l = μ l := by
  obtain ⟨ν, h1, h2, h3, h4⟩ := wp_unit (wp_rotm flag (h := h) hx hy hn hd (μ := μ))
  refine ⟨ν, h1, fun i hi => ?_, h4⟩
  rw [hFlag_rotm]
  ext j
  fin_cases j
  · simp [Matrix.mulVec, dotProduct, Fin.sum_univ_two, h2 i hi]
  · simp [Matrix.mulVec, dotProduct, Fin.sum_univ_two, h3 i (by omega)]

/-- The `h` array of a `rotmg` result. -/
def RotmSt.h (x : RotmSt) : ℕ → ℝ := fun k => if k = 0 then x.h0 else if k = 1 then x.h1 else if k = 2 then x.h2 else x.h3

theorem hFlag_hmat (x : RotmSt) :
    hFlag x.flag x.h = !![(hmat x).1, (hmat x).2.2.1; (hmat x).2.1, (hmat x).2.2.2] := by
  have e0 : x.h 0 = x.h0 := rfl
  have e1 : x.h 1 = x.h1 := rfl
  have e2 : x.h 2 = x.h2 := rfl
  have e3 : x.h 3 = x.h3 := rfl
  unfold hFlag hmat
  rw [e0, e1, e2, e3]
  split_ifs
  · rfl
  · rfl
  · rfl
  · ext i j; fin_cases i <;> fin_cases j <;> simp

/-- `rotmg`: `H (a, b) = (a', 0)` and `Hᵀ D' H = D`, i.e. `√D' H √D⁻¹` is the rotation eliminating `b`, and
the new weights are within `(2⁻²⁴, 2²⁴)` in absolute value.  Condition `hw`: at most one of the two weights
needs one rescaling pass (see `C54_rotmg_violation` for what happens with two). -/
theorem C54_rotmg {d1 d2 a b : ℝ} (h1 : 0 < d1) (h2 : d2 * b ≠ 0)
    (hq : |d2 * b * b| < |d1 * a * a| ∨ 0 ≤ d2 * b * b)
    (hw : (InR (weights d1 d2 a b).1 ∧ InR1 (weights d1 d2 a b).2) ∨
      (InR1 (weights d1 d2 a b).1 ∧ InR (weights d1 d2 a b).2)) :
    ∃ x, rotmg d1 d2 a b = some x ∧ (hFlag x.flag x.h).mulVec ![a, b] = ![x.a, 0] ∧
      (hFlag x.flag x.h)ᵀ * !![x.d1, 0; 0, x.d2] * hFlag x.flag x.h = !![d1, 0; 0, d2] ∧
      InR x.d1 ∧ InR x.d2 := by
  obtain ⟨x, e, ok, i1, i2⟩ := rotmg_ok h1 h2 hq hw
  refine ⟨x, e, ?_, ?_, i1, i2⟩
  · rw [hFlag_hmat]
    ext j
    fin_cases j
    · simpa [Matrix.mulVec, dotProduct, Fin.sum_univ_two] using ok.top
    · simpa [Matrix.mulVec, dotProduct, Fin.sum_univ_two] using ok.bot
  · rw [hFlag_hmat]
    ext i j
    fin_cases i <;> fin_cases j <;> simp [Matrix.mul_apply, Fin.sum_univ_two]
    · linear_combination ok.o00
    · linear_combination ok.o01
    · linear_combination ok.o01
    · linear_combination ok.o11

/-- `rotmg` always ends, with both new weights in range. -/
theorem C54_rotmg_ends {d1 d2 a b : ℝ} (h1 : 0 < d1) (h2 : d2 * b ≠ 0)
    (hq : |d2 * b * b| < |d1 * a * a| ∨ 0 ≤ d2 * b * b) :
    ∃ x, rotmg d1 d2 a b = some x ∧ InR x.d1 ∧ InR x.d2 := rotmg_ends h1 h2 hq

/-- Nothing to eliminate: `flag = -2`, the identity. -/
theorem C54_rotmg_id {d1 d2 a b : ℝ} (h1 : 0 < d1) (h2 : d2 * b = 0) :
    ∃ x, rotmg d1 d2 a b = some x ∧ hFlag x.flag x.h = 1 ∧ x.d1 = d1 ∧ x.d2 = d2 ∧ x.a = a := by
  refine ⟨⟨-2, d1, d2, a, 0, 0, 0, 0⟩, ?_, ?_, rfl, rfl, rfl⟩
  · unfold rotmg; rw [if_neg (not_le.mpr h1), if_pos h2]; rfl
  · simp [hFlag]

/-- A violation: with both weights `2⁻³⁰` (one rescaling pass each) the returned `H` does not eliminate `b`. -/
theorem C54_rotmg_violation : ∃ x, rotmg (1 / 2 ^ 30) (1 / 2 ^ 30) 2 1 = some x ∧
    (hFlag x.flag x.h).mulVec ![2, 1] ≠ ![x.a, 0] := by
  refine ⟨_, rotmg_two_passes, fun h => ?_⟩
  have := congrFun h 1
  norm_num [hFlag, RotmSt.h, Matrix.mulVec, dotProduct, Fin.sum_univ_two] at this

example : ∃ x, rotmg 1 1 3 4 = some x ∧ (hFlag x.flag x.h).mulVec ![3, 4] = ![x.a, 0] ∧
    (hFlag x.flag x.h)ᵀ * !![x.d1, 0; 0, x.d2] * hFlag x.flag x.h = !![1, 0; 0, 1] ∧ InR x.d1 ∧ InR x.d2 :=
  C54_rotmg one_pos (by norm_num) (.inr (by norm_num))
    (.inl (by unfold weights InR InR1; norm_num [abs_of_pos]))

/-! ## C55: nonsymmetric 2 by 2 eigenproblem -/

/-- `lahqr_eig22`, real input: the two eigenvalues. -/
theorem C55_eig22 (a b c d : ℝ) : ∃ s1 s2, lahqrEig22 a b c d = some (s1, s2) ∧
    EigsOf !![(a : ℂ), (b : ℂ); (c : ℂ), (d : ℂ)] s1 s2 := by
  obtain ⟨s1, s2, e, h1, h2⟩ := eig22_ok a b c d
  exact ⟨s1, s2, e, eigsOf_iff h1 h2⟩

/-- `lahqr_eig22`, complex input. -/
theorem C55_eig22C (a b c d : ℂ) : ∃ s1 s2, lahqrEig22C a b c d = some (s1, s2) ∧ EigsOf !![a, b; c, d] s1 s2 := by
  obtain ⟨s1, s2, e, h1, h2⟩ := eig22C_ok a b c d
  exact ⟨s1, s2, e, eigsOf_iff h1 h2⟩

/-- `lahqr_schur22`: `[cs sn; -sn cs]` is a rotation that brings the matrix to standard Schur form, and
`s1, s2` are its eigenvalues.  Excluded: equal diagonal entries with `bc > 0`, and `b = -c ≠ 0` with
distinct diagonal entries (both are violations, below); a zero discriminant (see `C55_schur22_zero`). -/
theorem C55_schur22 {pr : SchurPar} (he : 0 < pr.eps) (hm : 0 < pr.safmn2) {a b c d : ℝ}
    (h1 : a ≠ d ∨ b * c ≤ 0) (h2 : a = d ∨ c = 0 ∨ b + c ≠ 0) (h3 : ((a - d) / 2) * ((a - d) / 2) + b * c ≠ 0) :
    ∃ x s1 s2, lahqrSchur22 pr a b c d = some (x, s1, s2) ∧ G x.cs x.sn * (G x.cs x.sn)ᵀ = 1 ∧
      G x.cs x.sn * !![a, b; c, d] * (G x.cs x.sn)ᵀ = !![x.a, x.b; x.c, x.d] ∧
      StdSchur !![x.a, x.b; x.c, x.d] ∧ EigsOf !![(a : ℂ), (b : ℂ); (c : ℂ), (d : ℂ)] s1 s2 := by
  obtain ⟨x, e, ok⟩ := schur22_ok he hm h1 h2
  obtain ⟨s1, s2, e', q1, q2⟩ := lahqrSchur22_ok e ok
  obtain ⟨⟨u, e0, e1, e2, e3⟩, -, st⟩ := ok
  refine ⟨x, s1, s2, e', ?_, ?_, ?_, eigsOf_iff q1 q2⟩
  · ext i j
    fin_cases i <;> fin_cases j <;> simp [G, Matrix.mul_apply, Fin.sum_univ_two] <;> linarith
  · ext i j
    fin_cases i <;> fin_cases j <;> simp [G, Matrix.mul_apply, Fin.sum_univ_two]
    · linear_combination e0
    · linear_combination e1
    · linear_combination e2
    · linear_combination e3
  · simpa [StdSchur] using st h3

/-- Zero discriminant: the rotation and the eigenvalues are right; the form may be lower triangular. -/
theorem C55_schur22_zero {pr : SchurPar} (he : 0 < pr.eps) (hm : 0 < pr.safmn2) {a b c d : ℝ}
    (h1 : a ≠ d ∨ b * c ≤ 0) (h2 : a = d ∨ c = 0 ∨ b + c ≠ 0) :
    ∃ x s1 s2, lahqrSchur22 pr a b c d = some (x, s1, s2) ∧ G x.cs x.sn * (G x.cs x.sn)ᵀ = 1 ∧
      G x.cs x.sn * !![a, b; c, d] * (G x.cs x.sn)ᵀ = !![x.a, x.b; x.c, x.d] ∧
      (x.c = 0 ∨ (x.a = x.d ∧ x.b * x.c ≤ 0)) ∧ EigsOf !![(a : ℂ), (b : ℂ); (c : ℂ), (d : ℂ)] s1 s2 := by
  obtain ⟨x, e, ok⟩ := schur22_ok he hm h1 h2
  obtain ⟨s1, s2, e', q1, q2⟩ := lahqrSchur22_ok e ok
  obtain ⟨⟨u, e0, e1, e2, e3⟩, st, -⟩ := ok
  refine ⟨x, s1, s2, e', ?_, ?_, st, eigsOf_iff q1 q2⟩
  · ext i j
    fin_cases i <;> fin_cases j <;> simp [G, Matrix.mul_apply, Fin.sum_univ_two] <;> linarith
  · ext i j
    fin_cases i <;> fin_cases j <;> simp [G, Matrix.mul_apply, Fin.sum_univ_two]
    · linear_combination e0
    · linear_combination e1
    · linear_combination e2
    · linear_combination e3

/-- Violation: equal diagonal entries and `bc > 0` (not tiny): a division by zero. -/
theorem C55_schur22_equal_diag {pr : SchurPar} {a b c : ℝ} (hbc : 0 < b * c) (hz : 4 * pr.eps ≤ min |b| |c|) :
    lahqrSchur22 pr a b c a = none := by
  unfold lahqrSchur22
  rw [schur22_eq_diag hbc hz]; rfl

/-- Violation: `c = -b`, distinct diagonal entries, complex eigenvalues: `(cs, sn)` is not a rotation. -/
theorem C55_schur22_skew {pr : SchurPar} (hm : 0 < pr.safmn2) {a b d : ℝ} (hb : b ≠ 0) (had : a ≠ d)
    (he : 0 < pr.eps) (hz : |a - d| ≤ 2 * |b|) :
    ∃ x, schur22 pr a b (-b) d = some x ∧ G x.cs x.sn * (G x.cs x.sn)ᵀ ≠ 1 := by
  obtain ⟨x, e, h⟩ := schur22_skew hm hb had he hz
  refine ⟨x, e, fun h' => ?_⟩
  have := congrFun (congrFun h' 0) 0
  simp [G, Matrix.mul_apply, Fin.sum_univ_two] at this
  rw [h] at this; norm_num at this

/-- Violation: zero discriminant and `0 < |b| < |c|`: the result is lower triangular. -/
theorem C55_schur22_defective {pr : SchurPar} (hm : 0 < pr.safmn2) {a b c d : ℝ} (hb : b ≠ 0)
    (he : 0 < pr.eps) (hz : ((a - d) / 2) * ((a - d) / 2) + b * c = 0) (hbc : |b| < |c|) :
    ∃ x, schur22 pr a b c d = some x ∧ ¬ StdSchur !![x.a, x.b; x.c, x.d] := by
  obtain ⟨x, e, h1, h2⟩ := schur22_defective hm hb he hz hbc
  exact ⟨x, e, by simp [StdSchur, h1, h2]⟩

example : ∃ x s1 s2, lahqrSchur22 ⟨1 / 2 ^ 53, 1 / 2 ^ 485⟩ 1 2 3 4 = some (x, s1, s2) ∧
    G x.cs x.sn * (G x.cs x.sn)ᵀ = 1 ∧
    G x.cs x.sn * !![1, 2; 3, 4] * (G x.cs x.sn)ᵀ = !![x.a, x.b; x.c, x.d] ∧
    StdSchur !![x.a, x.b; x.c, x.d] ∧ EigsOf !![((1 : ℝ) : ℂ), ((2 : ℝ) : ℂ); ((3 : ℝ) : ℂ), ((4 : ℝ) : ℂ)] s1 s2 :=
  C55_schur22 (by norm_num) (by norm_num) (.inl (by norm_num)) (.inr (.inr (by norm_num))) (by norm_num)
example : lahqrSchur22 ⟨1 / 2 ^ 53, 1 / 2 ^ 485⟩ 1 2 3 1 = none :=
  C55_schur22_equal_diag (by norm_num) (by norm_num [abs_of_pos])
example : ∃ x, schur22 ⟨1 / 2 ^ 53, 1 / 2 ^ 485⟩ 1 2 (-2) 3 = some x ∧ G x.cs x.sn * (G x.cs x.sn)ᵀ ≠ 1 :=
  C55_schur22_skew (by norm_num) (by norm_num) (by norm_num) (by norm_num) (by norm_num)
example : ∃ x, schur22 ⟨1 / 2 ^ 53, 1 / 2 ^ 485⟩ 5 1 (-4) 1 = some x ∧ ¬ StdSchur !![x.a, x.b; x.c, x.d] :=
  C55_schur22_defective (by norm_num) (by norm_num) (by norm_num) (by norm_num) (by norm_num)

/-- `lahqr_shiftcolumn`, 2 by 2: a positive multiple of the first column of `(H - s1 I)(H - s2 I)`
(for real `H`, of its real part). -/
theorem C55_shiftcolumn2 (H : Matrix (Fin 2) (Fin 2) ℝ) (s1 s2 : ℂ) :
    ∃ v0 v1, ∃ s : ℝ, shiftcol2 (fun i j => H (Fin.ofNat 2 i) (Fin.ofNat 2 j)) s1 s2 = some (v0, v1) ∧ 0 < s ∧
      s • ![v0, v1] = fun i => (((H.map Complex.ofReal - s1 • 1) * (H.map Complex.ofReal - s2 • 1)) i 0).re := by
  obtain ⟨v0, v1, s, e, hs, h0, h1⟩ := shiftcol2_ok (fun i j => H (Fin.ofNat 2 i) (Fin.ofNat 2 j)) s1 s2
  refine ⟨v0, v1, s, e, hs, ?_⟩
  simp only [Fin.ofNat] at h0 h1
  ext i
  fin_cases i
  · simp [Matrix.mul_apply, Fin.sum_univ_two] at h0 ⊢
    linear_combination h0
  · simp [Matrix.mul_apply, Fin.sum_univ_two] at h1 ⊢
    linear_combination h1

theorem C55_shiftcolumn3 (H : Matrix (Fin 3) (Fin 3) ℝ) (s1 s2 : ℂ) :
    ∃ v0 v1 v2, ∃ s : ℝ, shiftcol3 (fun i j => H (Fin.ofNat 3 i) (Fin.ofNat 3 j)) s1 s2 = some (v0, v1, v2) ∧ 0 < s ∧
      s • ![v0, v1, v2] = fun i => (((H.map Complex.ofReal - s1 • 1) * (H.map Complex.ofReal - s2 • 1)) i 0).re := by
  obtain ⟨v0, v1, v2, s, e, hs, h0, h1, h2⟩ := shiftcol3_ok (fun i j => H (Fin.ofNat 3 i) (Fin.ofNat 3 j)) s1 s2
  refine ⟨v0, v1, v2, s, e, hs, ?_⟩
  simp only [Fin.ofNat] at h0 h1 h2
  ext i
  fin_cases i
  · simp [Matrix.mul_apply, Fin.sum_univ_three] at h0 ⊢
    linear_combination h0
  · simp [Matrix.mul_apply, Fin.sum_univ_three] at h1 ⊢
    linear_combination h1
  · simp [Matrix.mul_apply, Fin.sum_univ_three] at h2 ⊢
    linear_combination h2

theorem C55_shiftcolumn2C (H : Matrix (Fin 2) (Fin 2) ℂ) (s1 s2 : ℂ) :
    ∃ v0 v1, ∃ s : ℝ, shiftcol2C (fun i j => H (Fin.ofNat 2 i) (Fin.ofNat 2 j)) s1 s2 = some (v0, v1) ∧ 0 < s ∧
      (s : ℂ) • ![v0, v1] = fun i => ((H - s1 • 1) * (H - s2 • 1)) i 0 := by
  obtain ⟨v0, v1, s, e, hs, h0, h1⟩ := shiftcol2C_ok (fun i j => H (Fin.ofNat 2 i) (Fin.ofNat 2 j)) s1 s2
  refine ⟨v0, v1, s, e, hs, ?_⟩
  simp only [Fin.ofNat] at h0 h1
  ext i
  fin_cases i
  · simp [Matrix.mul_apply, Fin.sum_univ_two] at h0 ⊢
    linear_combination h0
  · simp [Matrix.mul_apply, Fin.sum_univ_two] at h1 ⊢
    linear_combination h1

theorem C55_shiftcolumn3C (H : Matrix (Fin 3) (Fin 3) ℂ) (s1 s2 : ℂ) :
    ∃ v0 v1 v2, ∃ s : ℝ, shiftcol3C (fun i j => H (Fin.ofNat 3 i) (Fin.ofNat 3 j)) s1 s2 = some (v0, v1, v2) ∧ 0 < s ∧
      (s : ℂ) • ![v0, v1, v2] = fun i => ((H - s1 • 1) * (H - s2 • 1)) i 0 := by
  obtain ⟨v0, v1, v2, s, e, hs, h0, h1, h2⟩ := shiftcol3C_ok (fun i j => H (Fin.ofNat 3 i) (Fin.ofNat 3 j)) s1 s2
  refine ⟨v0, v1, v2, s, e, hs, ?_⟩
  simp only [Fin.ofNat] at h0 h1 h2
  ext i
  fin_cases i
  · simp [Matrix.mul_apply, Fin.sum_univ_three] at h0 ⊢
    linear_combination h0
  · simp [Matrix.mul_apply, Fin.sum_univ_three] at h1 ⊢
    linear_combination h1
  · simp [Matrix.mul_apply, Fin.sum_univ_three] at h2 ⊢
    linear_combination h2

/-! ## C56: rank-one update of a 2 by 2 diagonal matrix -/

/-- `laed5`: a unit eigenvector of `D + ρ z zᵀ` with its eigenvalue, which for `i = 0` lies strictly between
`d0` and `d1` and otherwise above `d1`. -/
theorem C56_laed5 {d z : Fin 2 → ℝ} {rho : ℝ} (hd : d 0 < d 1) (hr : 0 < rho) (h0 : z 0 ≠ 0) (h1 : z 1 ≠ 0) (i : ℕ) :
    ∃ l x y, laed5 i (d 0) (d 1) (z 0) (z 1) rho = some (l, x, y) ∧
      (diagonal d + rho • vecMulVec z z).mulVec ![x, y] = l • ![x, y] ∧ ![x, y] ⬝ᵥ ![x, y] = 1 ∧
      (i = 0 → d 0 < l ∧ l < d 1) ∧ (i ≠ 0 → d 1 < l) := by
  obtain ⟨l, x, y, e, ⟨q0, q1, q2⟩, hl⟩ := laed5_ok hd hr h0 h1 i
  refine ⟨l, x, y, e, ?_, ?_, ?_, ?_⟩
  · ext k
    fin_cases k
    · simp [Matrix.mulVec, dotProduct, Fin.sum_univ_two, vecMulVec_apply]; linear_combination q0
    · simp [Matrix.mulVec, dotProduct, Fin.sum_univ_two, vecMulVec_apply]; linear_combination q1
  · simpa [dotProduct, Fin.sum_univ_two] using q2
  · intro hi; rwa [if_pos hi] at hl
  · intro hi; rwa [if_neg hi] at hl

example : ∃ l x y, laed5 0 1 2 (3 / 5) (4 / 5) 1 = some (l, x, y) ∧
    (diagonal ![(1:ℝ), 2] + (1:ℝ) • vecMulVec ![(3:ℝ) / 5, 4 / 5] ![(3:ℝ) / 5, 4 / 5]).mulVec ![x, y] = l • ![x, y] ∧
    ![x, y] ⬝ᵥ ![x, y] = 1 ∧ ((0:ℕ) = 0 → 1 < l ∧ l < 2) ∧ ((0:ℕ) ≠ 0 → 2 < l) :=
  C56_laed5 (d := ![1, 2]) (z := ![3 / 5, 4 / 5]) (by norm_num) (by norm_num) (by norm_num) (by norm_num) 0

/-! ## C57: the vector of the inverse reflector -/

/-- The first two rows of the matrix. -/
def rows2 (A : ℕ → ℕ → ℝ) : Matrix (Fin 2) (Fin 3) ℝ :=
  !![A 0 0, A 0 1, A 0 2; A 1 0, A 1 1, A 1 2]

/-- `inv_house3`: away from the two negligibility tests the vector is a null vector of the two rows, with a
non-zero first entry, so that the reflector built from it zeroes the first column from the right. -/
theorem C57_inv_house3 {sm : ℝ} (hsm : 0 < sm) {A : ℕ → ℕ → ℝ}
    (h1 : sm ≤ max |A 0 1| |A 0 2| ∨ sm ≤ max |A 1 1| |A 1 2|) (h2 : sm ≤ |invU22 A|) :
    ∃ v0 v1 v2, invHouse3 sm A = some (v0, v1, v2) ∧ v0 ≠ 0 ∧ (rows2 A).mulVec ![v0, v1, v2] = 0 := by
  obtain ⟨v0, v1, v2, e, h, q0, q1⟩ := invHouse3_ok hsm h1 h2
  refine ⟨v0, v1, v2, e, h, ?_⟩
  ext i
  fin_cases i
  · simpa [rows2, Matrix.mulVec, dotProduct, Fin.sum_univ_three] using q0
  · simpa [rows2, Matrix.mulVec, dotProduct, Fin.sum_univ_three] using q1

/-- Negligible last two columns: the residual is negligible. -/
theorem C57_inv_house3_small {sm : ℝ} {A : ℕ → ℕ → ℝ} (h1 : max |A 0 1| |A 0 2| < sm) (h2 : max |A 1 1| |A 1 2| < sm) :
    ∃ v0 v1 v2, invHouse3 sm A = some (v0, v1, v2) ∧ ![v0, v1, v2] ≠ 0 ∧
      ∀ i, |((rows2 A).mulVec ![v0, v1, v2]) i| < sm := by
  obtain ⟨e, q0, q1⟩ := invHouse3_tiny h1 h2
  refine ⟨0, 1, 0, e, fun h => by simpa using congrFun h 1, fun i => ?_⟩
  fin_cases i
  · simpa [rows2, Matrix.mulVec, dotProduct, Fin.sum_univ_three] using q0
  · simpa [rows2, Matrix.mulVec, dotProduct, Fin.sum_univ_three] using q1

/-- Negligible second pivot after a column swap: the residual is negligible. -/
theorem C57_inv_house3_swapped {sm : ℝ} (hsm : 0 < sm) {A : ℕ → ℕ → ℝ}
    (h1 : sm ≤ max |A 0 1| |A 0 2| ∨ sm ≤ max |A 1 1| |A 1 2|) (hc : |A (invRow A) 1| < |A (invRow A) 2|)
    (h2 : |invU22 A| < sm) :
    ∃ v0 v1 v2, invHouse3 sm A = some (v0, v1, v2) ∧ ![v0, v1, v2] ≠ 0 ∧
      ∀ i, |((rows2 A).mulVec ![v0, v1, v2]) i| < sm := by
  obtain ⟨v1, v2, e, h, q0, q1⟩ := invHouse3_swapped hsm h1 hc h2
  refine ⟨0, v1, v2, e, fun h' => ?_, ?_⟩
  · have := congrFun h' 1
    simp [h] at this
  · have hz : |(0:ℝ)| < sm := by simpa using hsm
    have hr : invRow A = 0 ∨ invRow A = 1 := by unfold invRow; split <;> simp
    intro i
    rcases hr with hr | hr <;> rw [hr] at q0 q1
    · fin_cases i
      · simp [rows2, Matrix.mulVec, dotProduct, Fin.sum_univ_three, q0, hsm]
      · simpa [rows2, Matrix.mulVec, dotProduct, Fin.sum_univ_three] using q1
    · fin_cases i
      · simpa [rows2, Matrix.mulVec, dotProduct, Fin.sum_univ_three] using q1
      · simp [rows2, Matrix.mulVec, dotProduct, Fin.sum_univ_three, q0, hsm]

/-- Violation: without a swap the same branch returns a vector whose residual is `(u11² - u12²)/u11`: it is
not in the null space unless the two pivot-row entries have the same absolute value. -/
theorem C57_inv_house3_violation {sm : ℝ} (hsm : 0 < sm) {A : ℕ → ℕ → ℝ}
    (h1 : sm ≤ max |A 0 1| |A 0 2| ∨ sm ≤ max |A 1 1| |A 1 2|) (hc : |A (invRow A) 2| < |A (invRow A) 1|)
    (h2 : |invU22 A| < sm) :
    ∃ v0 v1 v2, invHouse3 sm A = some (v0, v1, v2) ∧ (rows2 A).mulVec ![v0, v1, v2] ≠ 0 := by
  obtain ⟨v1, v2, e, h⟩ := invHouse3_unswapped hsm h1 hc.le h2
  refine ⟨0, v1, v2, e, fun h' => ?_⟩
  have hne : A (invRow A) 1 ^ 2 - A (invRow A) 2 ^ 2 ≠ 0 := by
    have := sq_lt_sq.mpr hc
    linarith
  have hr : invRow A = 0 ∨ invRow A = 1 := by unfold invRow; split <;> simp
  have g0 := congrFun h' 0
  have g1 := congrFun h' 1
  simp [rows2, Matrix.mulVec, dotProduct, Fin.sum_univ_three] at g0 g1
  apply hne
  rw [← h]
  rcases hr with hr | hr <;> rw [hr]
  · rw [g0, zero_mul]
  · rw [g1, zero_mul]

/-- Such a case: rows `(5, 2, 1)` and `(7, 2, 1)`. -/
example : ∃ v0 v1 v2, invHouse3 (1 / 2 ^ 50) (fun i j => if j = 0 then 5 + 2 * i else if j = 1 then 2 else 1) = some (v0, v1, v2) ∧
    (rows2 (fun i j => if j = 0 then 5 + 2 * i else if j = 1 then 2 else 1)).mulVec ![v0, v1, v2] ≠ 0 :=
  C57_inv_house3_violation (by norm_num) (.inl (by norm_num)) (by norm_num) (by unfold invU22; norm_num)
example : ∃ v0 v1 v2, invHouse3 (1 / 2 ^ 50) (fun i j => if j = 0 then 5 + 2 * i else if j = 1 then 1 else 2) = some (v0, v1, v2) ∧
    ![v0, v1, v2] ≠ 0 ∧
    ∀ i, |((rows2 (fun i j => if j = 0 then 5 + 2 * i else if j = 1 then 1 else 2)).mulVec ![v0, v1, v2]) i| < 1 / 2 ^ 50 :=
  C57_inv_house3_swapped (by norm_num) (.inl (by norm_num)) (by norm_num) (by unfold invU22; norm_num)

example : ∃ v0 v1 v2, invHouse3 (1 / 2 ^ 50) (fun i j => if i = 0 then 1 + j else if j = 2 then 7 else 4 + j) = some (v0, v1, v2) ∧
    v0 ≠ 0 ∧ (rows2 (fun i j => if i = 0 then 1 + j else if j = 2 then 7 else 4 + j)).mulVec ![v0, v1, v2] = 0 :=
  C57_inv_house3 (by norm_num) (.inl (by norm_num)) (by unfold invU22; norm_num)

end TLA.Kernel
