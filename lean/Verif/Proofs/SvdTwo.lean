import Verif.Proofs.Svd
import Verif.Proofs.SteqrLoop
set_option linter.unusedTactic false
set_option linter.unusedVariables false
set_option linter.unusedSimpArgs false
set_option linter.unreachableTactic false
set_option linter.unusedSectionVars false

/-! # svd_qr: 2 by 2 blocks -/

namespace TLA
open Finset Matrix Kernel

namespace Kernel

theorem abs_mul_sgn_le (x t : ℝ) : |x * sgn t| ≤ |x| := by
  rw [abs_mul]
  have : |sgn t| ≤ 1 := by
    unfold sgn; split_ifs <;> norm_num
  nlinarith [abs_nonneg x]

/-- The singular values svd22 returns when `g` dominates. -/
theorem svd22_tiny {eps f g h : ℝ} (he : 0 < eps) (he1 : eps ≤ 1) (ht : max |f| |h| < eps * |g|) {o : SvdOut} (ho : svd22 eps f g h = some o) :
    |o.ssmax| ≤ |g| ∧ |o.ssmin| ≤ |f| * |h| / |g| := by
  have hf : |f| < eps * |g| := lt_of_le_of_lt (le_max_left _ _) ht
  have hh : |h| < eps * |g| := lt_of_le_of_lt (le_max_right _ _) ht
  have hg1 : eps * |g| ≤ |g| := by nlinarith [abs_nonneg g]
  have hg : g ≠ 0 := by rintro rfl; rw [abs_zero, mul_zero] at hf; exact absurd hf (not_lt.2 (abs_nonneg f))
  unfold svd22 at ho
  simp only [pure] at ho
  by_cases hs : |h| > |f|
  · obtain ⟨x, p, e, b⟩ := svd22Body_ok (gt := g) he 3 hs.le
    simp only [if_pos hs, e, bind_s, Option.some.injEq] at ho
    subst ho
    refine ⟨le_trans (abs_mul_sgn_le _ _) ?_, le_trans (abs_mul_sgn_le _ _) ?_⟩
    · cases b with
      | zero q => exact absurd q hg
      | tiny q1 q2 q3 => simp
      | main q1 q2 q3 q4 q5 => exact absurd ⟨by linarith, hh⟩ q3
    · cases b with
      | zero q => exact absurd q hg
      | tiny q1 q2 q3 =>
        dsimp only
        rw [abs_div, abs_mul, abs_abs, abs_abs, abs_abs, mul_comm |h|]
      | main q1 q2 q3 q4 q5 => exact absurd ⟨by linarith, hh⟩ q3
  · have hle := not_lt.mp hs
    obtain ⟨x, p, e, b⟩ := svd22Body_ok (gt := g) he 1 hle
    simp only [if_neg hs, e, bind_s, Option.some.injEq] at ho
    subst ho
    refine ⟨le_trans (abs_mul_sgn_le _ _) ?_, le_trans (abs_mul_sgn_le _ _) ?_⟩
    · cases b with
      | zero q => exact absurd q hg
      | tiny q1 q2 q3 => simp
      | main q1 q2 q3 q4 q5 => exact absurd ⟨by linarith, hf⟩ q3
    · cases b with
      | zero q => exact absurd q hg
      | tiny q1 q2 q3 =>
        dsimp only
        rw [abs_div, abs_mul, abs_abs, abs_abs, abs_abs]
      | main q1 q2 q3 q4 q5 => exact absurd ⟨by linarith, hf⟩ q3

/-- svd22 with its rotations normalised: `cl = rl * cl'` etc. -/
structure Svd2N (δ t f g h : ℝ) (o : SvdOut) (rl rr cl sl cr sr : ℝ) : Prop where
  rl0 : 0 < rl
  rr0 : 0 < rr
  rl1 : |rl * rl - 1| ≤ δ
  rr1 : |rr * rr - 1| ≤ δ
  ecl : o.csl = rl * cl
  esl : o.snl = rl * sl
  ecr : o.csr = rr * cr
  esr : o.snr = rr * sr
  ul : cl * cl + sl * sl = 1
  ur : cr * cr + sr * sr = 1
  e00 : |cl * (f * cr + g * sr) + sl * (h * sr) - o.ssmax| ≤ t
  e01 : |cl * (g * cr - f * sr) + sl * (h * cr)| ≤ t
  e10 : |-sl * (f * cr + g * sr) + cl * (h * sr)| ≤ t
  e11 : |-sl * (g * cr - f * sr) + cl * (h * cr) - o.ssmin| ≤ t
  nrm : o.ssmax ^ 2 + o.ssmin ^ 2 ≤ f ^ 2 + g ^ 2 + h ^ 2

theorem scaled_err {m s r δ G : ℝ} (hr : |r - 1| ≤ δ) (hδ : δ ≤ 1 / 2) (hs : |s| ≤ G) (hm : |r * m - s| ≤ δ * G) (hG : 0 ≤ G) :
    |m - s| ≤ 4 * δ * G := by
  have hr0 : 1 / 2 ≤ r := by have := (abs_le.1 hr).1; linarith
  have hδ0 : 0 ≤ δ := (abs_nonneg _).trans hr
  have e : r * (m - s) = (r * m - s) + (1 - r) * s := by ring
  have h1 : |r * (m - s)| ≤ δ * G + δ * G := by
    rw [e]
    refine (abs_add_le _ _).trans (add_le_add hm ?_)
    rw [abs_mul, abs_sub_comm]
    exact mul_le_mul hr hs (abs_nonneg _) hδ0
  rw [abs_mul, abs_of_pos (by linarith)] at h1
  have := mul_le_mul_of_nonneg_right hr0 (abs_nonneg (m - s))
  linarith

theorem svd22_norm {eps : ℝ} (he : 0 < eps) (he2 : eps ≤ 1 / 2) (f g h : ℝ) :
    ∃ o, svd22 eps f g h = some o ∧ ∃ rl rr cl sl cr sr, Svd2N (2 * eps ^ 2) (5 * eps * |g|) f g h o rl rr cl sl cr sr := by
  obtain ⟨o, ho, ok⟩ := svd22_ok he f g h
  refine ⟨o, ho, ?_⟩
  have hδ0 : 0 ≤ 2 * eps ^ 2 := by positivity
  have hδ : 2 * eps ^ 2 ≤ 1 / 2 := by nlinarith
  have ht0 : 0 ≤ 5 * eps * |g| := by positivity
  by_cases hx : eps * |g| ≤ max |f| |h|
  · obtain ⟨s, -⟩ := ok.exact' hx
    refine ⟨1, 1, o.csl, o.snl, o.csr, o.snr, one_pos, one_pos, by simpa using hδ0, by simpa using hδ0, by ring, by ring, by ring, by ring, s.ul, s.ur,
      ?_, ?_, ?_, ?_, ?_⟩
    · rw [s.e00, sub_self, abs_zero]; exact ht0
    · rw [s.e01, abs_zero]; exact ht0
    · rw [s.e10, abs_zero]; exact ht0
    · rw [s.e11, sub_self, abs_zero]; exact ht0
    · refine le_of_eq ?_
      have key : (o.csl * (f * o.csr + g * o.snr) + o.snl * (h * o.snr)) ^ 2 + (o.csl * (g * o.csr - f * o.snr) + o.snl * (h * o.csr)) ^ 2 +
        (-o.snl * (f * o.csr + g * o.snr) + o.csl * (h * o.snr)) ^ 2 + (-o.snl * (g * o.csr - f * o.snr) + o.csl * (h * o.csr)) ^ 2 =
        (o.csl * o.csl + o.snl * o.snl) * (o.csr * o.csr + o.snr * o.snr) * (f ^ 2 + g ^ 2 + h ^ 2) := by ring
      rw [s.e00, s.e01, s.e10, s.e11, s.ul, s.ur] at key
      linarith
  · have hx := not_le.1 hx
    obtain ⟨s, -⟩ := ok.tiny (by linarith) hx
    obtain ⟨b1, b2⟩ := svd22_tiny he (by linarith) hx ho
    have hf : |f| < eps * |g| := lt_of_le_of_lt (le_max_left _ _) hx
    have hh : |h| < eps * |g| := lt_of_le_of_lt (le_max_right _ _) hx
    have ga : 0 < |g| := by nlinarith [abs_nonneg f]
    have b3 : |o.ssmin| ≤ |f| := by
      refine b2.trans ?_
      rw [div_le_iff₀ ga]
      exact mul_le_mul_of_nonneg_left (by nlinarith) (abs_nonneg f)
    obtain ⟨rl, hrl⟩ : ∃ rl, rl = Real.sqrt (o.csl * o.csl + o.snl * o.snl) := ⟨_, rfl⟩
    obtain ⟨rr, hrr⟩ : ∃ rr, rr = Real.sqrt (o.csr * o.csr + o.snr * o.snr) := ⟨_, rfl⟩
    have pl : 1 / 2 ≤ o.csl * o.csl + o.snl * o.snl := by have := (abs_le.1 s.ul).1; linarith
    have pr : 1 / 2 ≤ o.csr * o.csr + o.snr * o.snr := by have := (abs_le.1 s.ur).1; linarith
    have rl0 : 0 < rl := by rw [hrl]; exact Real.sqrt_pos.2 (by linarith)
    have rr0 : 0 < rr := by rw [hrr]; exact Real.sqrt_pos.2 (by linarith)
    have rl2 : rl * rl = o.csl * o.csl + o.snl * o.snl := by rw [hrl]; exact Real.mul_self_sqrt (by linarith)
    have rr2 : rr * rr = o.csr * o.csr + o.snr * o.snr := by rw [hrr]; exact Real.mul_self_sqrt (by linarith)
    have hprod : |rl * rr - 1| ≤ 2 * eps ^ 2 := by
      have q1 := abs_le.1 s.ul
      have q2 := abs_le.1 s.ur
      rw [← rl2] at q1
      rw [← rr2] at q2
      have e1 : (rl * rr) ^ 2 = (rl * rl) * (rr * rr) := by ring
      have p0 : 0 < rl * rr := mul_pos rl0 rr0
      rw [abs_le]
      constructor
      · have : (1 - 2 * eps ^ 2) ^ 2 ≤ (rl * rr) ^ 2 := by
          rw [e1, pow_two]
          exact mul_le_mul (by linarith) (by linarith) (by linarith) (by nlinarith)
        have := abs_le_of_sq_le_sq this p0.le
        rw [abs_of_nonneg (by linarith)] at this
        linarith
      · have : (rl * rr) ^ 2 ≤ (1 + 2 * eps ^ 2) ^ 2 := by
          rw [e1, pow_two]
          exact mul_le_mul (by linarith) (by linarith) (by nlinarith) (by linarith)
        have := abs_le_of_sq_le_sq this (by linarith)
        rw [abs_of_nonneg p0.le] at this
        linarith
    have t1 : 4 * (2 * eps ^ 2) * |g| ≤ 5 * eps * |g| := by
      refine mul_le_mul_of_nonneg_right ?_ ga.le
      nlinarith
    have fg : |f| ≤ |g| := by nlinarith
    refine ⟨rl, rr, o.csl / rl, o.snl / rl, o.csr / rr, o.snr / rr, rl0, rr0, by rw [rl2]; exact s.ul, by rw [rr2]; exact s.ur,
      by field_simp, by field_simp, by field_simp, by field_simp, ?_, ?_, (scaled_err (r := rl * rr) hprod hδ b1 ?_ ga.le).trans t1, ?_, ?_,
      (scaled_err (r := rl * rr) hprod hδ (b3.trans fg) ?_ ga.le).trans t1, ?_⟩
    · have : o.csl / rl * (o.csl / rl) + o.snl / rl * (o.snl / rl) = (o.csl * o.csl + o.snl * o.snl) / (rl * rl) := by field_simp
      rw [this, rl2, div_self (by linarith)]
    · have : o.csr / rr * (o.csr / rr) + o.snr / rr * (o.snr / rr) = (o.csr * o.csr + o.snr * o.snr) / (rr * rr) := by field_simp
      rw [this, rr2, div_self (by linarith)]
    · convert s.e00 using 2; field_simp
    · have := scaled_err (m := o.csl / rl * (g * (o.csr / rr) - f * (o.snr / rr)) + o.snl / rl * (h * (o.csr / rr))) (s := 0) (r := rl * rr) hprod hδ
        (by rw [abs_zero]; exact ga.le) (by rw [sub_zero]; convert s.e01 using 2; field_simp) ga.le
      rw [sub_zero] at this
      exact this.trans t1
    · have := scaled_err (m := -(o.snl / rl) * (f * (o.csr / rr) + g * (o.snr / rr)) + o.csl / rl * (h * (o.snr / rr))) (s := 0) (r := rl * rr) hprod hδ
        (by rw [abs_zero]; exact ga.le) (by rw [sub_zero]; convert s.e10 using 2; field_simp) ga.le
      rw [sub_zero] at this
      exact this.trans t1
    · convert s.e11 using 2; field_simp
    · have q1 : o.ssmax ^ 2 ≤ g ^ 2 := sq_le_sq.2 b1
      have q2 : o.ssmin ^ 2 ≤ f ^ 2 := sq_le_sq.2 b3
      nlinarith [sq_nonneg h]

end Kernel

/-! ### The block inside the bidiagonal matrix -/

/-- A matrix that vanishes outside the rows and columns `k`, `k + 1`. -/
def blk4 (k : Nat) (x00 x01 x10 x11 : ℝ) (r v : Nat) : ℝ :=
  if r = k then (if v = k then x00 else if v = k + 1 then x01 else 0)
  else if r = k + 1 then (if v = k then x10 else if v = k + 1 then x11 else 0) else 0

theorem frobN_blk4 {n k : Nat} (hk : k + 1 < n) (x00 x01 x10 x11 : ℝ) :
    frobN (mat n n (blk4 k x00 x01 x10 x11)) = Real.sqrt (x00 ^ 2 + x01 ^ 2 + x10 ^ 2 + x11 ^ 2) := by
  unfold frobN
  congr 1
  have e : ∀ i j : Fin n, mat n n (blk4 k x00 x01 x10 x11) i j ^ 2 =
      (if j = ⟨k, by omega⟩ then (if i = ⟨k, by omega⟩ then x00 ^ 2 else 0) else 0) +
      (if j = ⟨k + 1, hk⟩ then (if i = ⟨k, by omega⟩ then x01 ^ 2 else 0) else 0) +
      (if j = ⟨k, by omega⟩ then (if i = ⟨k + 1, hk⟩ then x10 ^ 2 else 0) else 0) +
      (if j = ⟨k + 1, hk⟩ then (if i = ⟨k + 1, hk⟩ then x11 ^ 2 else 0) else 0) := by
    intro i j
    obtain ⟨i, hi⟩ := i
    obtain ⟨j, hj⟩ := j
    simp only [mat, of_apply, blk4, Fin.mk.injEq]
    split_ifs <;> first | omega | ring1
  simp only [e, Finset.sum_add_distrib, Finset.sum_ite_eq', Finset.mem_univ, if_true]

theorem frobN_blk4_le {n k : Nat} (hk : k + 1 < n) {x00 x01 x10 x11 t : ℝ} (h0 : |x00| ≤ t) (h1 : |x01| ≤ t) (h2 : |x10| ≤ t) (h3 : |x11| ≤ t) :
    frobN (mat n n (blk4 k x00 x01 x10 x11)) ≤ 2 * t := by
  have ht : 0 ≤ t := (abs_nonneg _).trans h0
  rw [frobN_blk4 hk]
  refine Real.sqrt_le_iff.2 ⟨by linarith, ?_⟩
  have q : ∀ x : ℝ, |x| ≤ t → x ^ 2 ≤ t ^ 2 := fun x hx => sq_le_sq.2 (by rwa [abs_of_nonneg ht])
  nlinarith [q _ h0, q _ h1, q _ h2, q _ h3]

/-- Both rotations applied to a decoupled 2 by 2 block. -/
theorem bid_two {n k : Nat} (hk : k + 1 < n) {d e d' e' : Nat → ℝ} (hl : 0 < k → e (k - 1) = 0) (hr : k + 2 < n → e (k + 1) = 0)
    (cl sl cr sr : ℝ) (hd : ∀ j, j ≠ k → j ≠ k + 1 → d' j = d j) (he : ∀ j, j ≠ k → e' j = e j) (he0 : e' k = 0) :
    rotMat n k (k + 1) cl sl * mat n n (bidR false d e) * (rotMat n k (k + 1) cr sr)ᵀ = mat n n (bidR false d' e') +
      mat n n (blk4 k (cl * (d k * cr + e k * sr) + sl * (d (k + 1) * sr) - d' k) (cl * (e k * cr - d k * sr) + sl * (d (k + 1) * cr))
        (-sl * (d k * cr + e k * sr) + cl * (d (k + 1) * sr)) (-sl * (e k * cr - d k * sr) + cl * (d (k + 1) * cr) - d' (k + 1))) := by
  rw [← mat_colMap_rot (by omega) hk (by omega), ← mat_rowMap_rot (by omega) hk (by omega)]
  ext i j
  obtain ⟨r, hr'⟩ := i
  obtain ⟨v, hv⟩ := j
  simp only [mat, of_apply, Matrix.add_apply, rowMap, colMap, pairRot, star_trivial]
  have hk1 : k + 1 ≠ k := by omega
  have kk : bidR false d e k k = d k := by simp [bidR]
  have kk1 : bidR false d e k (k + 1) = e k := by simp [bidR]
  have k1k : bidR false d e (k + 1) k = 0 := by unfold bidR; rw [if_neg (by omega), if_neg (by omega), if_neg (by simp)]
  have k1k1 : bidR false d e (k + 1) (k + 1) = d (k + 1) := by simp [bidR]
  have rowk : ∀ v, v ≠ k → v ≠ k + 1 → bidR false d e k v = 0 := by
    intro v h1 h2; unfold bidR; rw [if_neg (by omega), if_neg (by omega), if_neg (by simp)]
  have rowk1 : ∀ v, v < n → v ≠ k → v ≠ k + 1 → bidR false d e (k + 1) v = 0 := by
    intro v h0 h1 h2; unfold bidR
    rw [if_neg (by omega)]
    by_cases q : k + 1 + 1 = v
    · rw [if_pos ⟨rfl, q⟩, hr (by omega)]
    · rw [if_neg (by tauto), if_neg (by simp)]
  have colk : ∀ r, r ≠ k → r ≠ k + 1 → bidR false d e r k = 0 := by
    intro r h1 h2; unfold bidR
    rw [if_neg (by omega)]
    by_cases q : r + 1 = k
    · rw [if_pos ⟨rfl, q⟩, show r = k - 1 by omega, hl (by omega)]
    · rw [if_neg (by tauto), if_neg (by simp)]
  have colk1 : ∀ r, r ≠ k → r ≠ k + 1 → bidR false d e r (k + 1) = 0 := by
    intro r h1 h2; unfold bidR; rw [if_neg (by omega), if_neg (by omega), if_neg (by simp)]
  have kk' : bidR false d' e' k k = d' k := by simp [bidR]
  have kk1' : bidR false d' e' k (k + 1) = 0 := by simp [bidR, he0]
  have k1k' : bidR false d' e' (k + 1) k = 0 := by unfold bidR; rw [if_neg (by omega), if_neg (by omega), if_neg (by simp)]
  have k1k1' : bidR false d' e' (k + 1) (k + 1) = d' (k + 1) := by simp [bidR]
  have out : ∀ r v, ((r ≠ k ∧ r ≠ k + 1) ∨ (v ≠ k ∧ v ≠ k + 1)) → bidR false d' e' r v = bidR false d e r v := by
    intro r v q
    unfold bidR
    split_ifs with g1 g2 g3
    · rw [hd r (by omega) (by omega)]
    · rw [he r (by omega)]
    · simp at g3
    · rfl
  by_cases v1 : v = k
  · subst v1
    by_cases r1 : r = v
    · subst r1
      simp only [if_true, kk, kk1, k1k, k1k1, kk', blk4]; ring
    · by_cases r2 : r = v + 1
      · subst r2
        simp only [if_true, if_neg hk1, kk, kk1, k1k, k1k1, k1k', blk4]; ring
      · simp only [if_true, if_neg r1, if_neg r2, colk r r1 r2, colk1 r r1 r2, out r v (.inl ⟨r1, r2⟩), blk4]; ring
  · by_cases v2 : v = k + 1
    · subst v2
      by_cases r1 : r = k
      · subst r1
        simp only [if_true, if_neg hk1, kk, kk1, k1k, k1k1, kk1', blk4]; ring
      · by_cases r2 : r = k + 1
        · subst r2
          simp only [if_true, if_neg hk1, kk, kk1, k1k, k1k1, k1k1', blk4]; ring
        · simp only [if_true, if_neg hk1, if_neg r1, if_neg r2, colk r r1 r2, colk1 r r1 r2, out r (k + 1) (.inl ⟨r1, r2⟩), blk4]; ring
    · by_cases r1 : r = k
      · subst r1
        simp only [if_true, if_neg v1, if_neg v2, rowk v v1 v2, rowk1 v hv v1 v2, out r v (.inr ⟨v1, v2⟩), blk4]; ring
      · by_cases r2 : r = k + 1
        · subst r2
          simp only [if_true, if_neg hk1, if_neg v1, if_neg v2, rowk v v1 v2, rowk1 v hv v1 v2, out (k + 1) v (.inr ⟨v1, v2⟩), blk4]; ring
        · simp only [if_neg r1, if_neg r2, if_neg v1, if_neg v2, out r v (.inr ⟨v1, v2⟩), blk4]; ring

/-- A rotation that is not normalised. -/
theorem rotMat_scale {n k : Nat} (hk : k + 1 < n) (ρ c s : ℝ) : rotMat n k (k + 1) (ρ * c) (ρ * s) =
    diagonal (fun i : Fin n => if (i : Nat) = k ∨ (i : Nat) = k + 1 then ρ else 1) * rotMat n k (k + 1) c s := by
  ext i j
  rw [diagonal_mul]
  simp only [rotMat, mat, of_apply, rotF, star_trivial]
  split_ifs <;> first | omega | ring1

theorem rotMat_scale_comm {n k : Nat} (hk : k + 1 < n) (ρ c s : ℝ) :
    diagonal (fun i : Fin n => if (i : Nat) = k ∨ (i : Nat) = k + 1 then ρ else 1) * rotMat n k (k + 1) c s =
    rotMat n k (k + 1) c s * diagonal (fun i : Fin n => if (i : Nat) = k ∨ (i : Nat) = k + 1 then ρ else 1) := by
  ext i j
  rw [diagonal_mul, mul_diagonal]
  simp only [rotMat, mat, of_apply, rotF, star_trivial]
  split_ifs <;> first | omega | ring1

end TLA
