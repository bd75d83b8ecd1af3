import Verif.Proofs.SvdEnd
import Verif.Props.Examples
set_option linter.unusedTactic false
set_option linter.unusedVariables false
set_option linter.unusedSimpArgs false

/-! # C81: singular values of a bidiagonal matrix -/

namespace TLA
open Finset Matrix Kernel
variable {L 𝕜 : Type} [DecidableEq L] [RCLike 𝕜] [DecidableEq 𝕜] {p : RotPar}

theorem svTol_le {eps : ℝ} (h : 0 < eps) : svTol eps ≤ 100 * eps :=
  mul_le_mul_of_nonneg_right (max_le (by norm_num) (min_le_left _ _)) h.le

theorem svTau_le {n : Nat} (h3 : 0 < p.ulp) (B : Matrix (Fin n) (Fin n) ℝ) : svTau n p B ≤ svdTol n p.ulp p.safmin (frobN B) :=
  max_le_max le_rfl (mul_le_mul_of_nonneg_right (svTol_le h3) (frobN_nonneg _))

theorem bidR_diag {n : Nat} {d e : Nat → ℝ} (h : ∀ j, j + 1 < n → e j = 0) : mat n n (bidR false d e) = diagonal (fun i : Fin n => d i) := by
  ext i j
  simp only [mat, of_apply, bidR, diagonal_apply]
  by_cases q : i = j
  · rw [if_pos (by rw [q]), if_pos q]
  · rw [if_neg (fun h => q (Fin.ext h)), if_neg q]
    split_ifs with q1 q2
    · exact h _ (by omega)
    · simp at q2
    · rfl

theorem sub_diag {n : Nat} (P : Matrix (Fin n) (Fin n) ℝ) (δ : Fin n → ℝ) (σ : Equiv.Perm (Fin n)) :
    (P * diagonal δ).submatrix id σ = P.submatrix id σ * diagonal (δ ∘ σ) := by
  ext i j; simp

theorem diag_sub {n : Nat} (Q : Matrix (Fin n) (Fin n) ℝ) (δ : Fin n → ℝ) (σ : Equiv.Perm (Fin n)) :
    (diagonal δ * Q).submatrix σ id = diagonal (δ ∘ σ) * Q.submatrix σ id := by
  ext i j; simp

set_option maxHeartbeats 1000000 in
theorem wp_svdQr (h1 : 0 < p.safmin) (h2 : 0 < p.safmax) (h3 : 0 < p.ulp) (h4 : p.ulp ≤ 1 / 2) (lower wu wv : Bool) (d e : RArr) (U V : MatV L)
    (he : d.n ≤ e.n + 1) (hR : SvReq d.n wu wv U V) (μ : Store L 𝕜) :
    wp (svdQr p (fun x : ℝ => (x : 𝕜)) lower wu wv d e U V) μ (fun x ν => x.2.1.n = d.n ∧
      BidOK d.n p.ulp p.safmin wu wv U V μ (mat d.n d.n (bidR lower d.f e.f)) x.2.1.f x.2.2.f ν ∧
      (x.1 = 0 ∧ (∀ j, j + 1 < d.n → x.2.2.f j = 0) ∧ (∀ i j, i < j → j < d.n → x.2.1.f j ≤ x.2.1.f i) ∧ (∀ i, i < d.n → 0 ≤ x.2.1.f i) ∨
       3 ≤ d.n ∧ x.1 ≤ d.n ∧ ∀ j, x.1 ≤ j + 1 → j + 1 < d.n → x.2.2.f j = 0)) := by
  unfold svdQr
  dsimp only
  by_cases hn : d.n = 0
  · rw [if_pos hn]
    refine ⟨rfl, ⟨1, 1, 0, fun _ => 1, fun _ => 1, by simp, by simp, ?_, ?_, fun _ => ⟨one_pos, by simp; positivity⟩,
      fun _ => ⟨one_pos, by simp; positivity⟩, fun hw => ?_, fun hw => ?_, fun _ _ _ => rfl⟩,
      .inl ⟨rfl, fun j hj => absurd hj (by omega), fun i j _ hj => absurd hj (by omega), fun i hi => absurd hi (by omega)⟩⟩
    · ext i; exact absurd i.2 (by omega)
    · rw [show d.n - 1 = 0 by omega]; simp [frobN]
    · ext i j; exact absurd j.2 (by omega)
    · ext i j; exact absurd i.2 (by omega)
  rw [if_neg hn]
  obtain ⟨n, df⟩ := d
  dsimp only at *
  obtain ⟨B0, hB⟩ : ∃ B0 : Matrix (Fin n) (Fin n) ℝ, B0 = mat n n (bidR lower df e.f) := ⟨_, rfl⟩
  rw [← hB]
  simp only [wp_bind]
  have first : wp (if lower = true then svLower p (fun x : ℝ => (x : 𝕜)) wu U ⟨n, df⟩ e else pure (⟨n, df⟩, e) : M L 𝕜 (RArr × RArr)) μ
      (fun x ν => x.1.n = n ∧ n ≤ x.2.n + 1 ∧ ∃ P : Matrix (Fin n) (Fin n) ℝ, Pᵀ * P = 1 ∧ B0 = P * mat n n (bidR false x.1.f x.2.f) ∧
        UV n wu wv U V μ P 1 ν) := by
    cases lower with
    | true =>
      rw [if_pos rfl]
      refine wp_mono (wp_svLower h1 h2 hR rfl he) ?_ (fun _ _ h => h)
      rintro x ν ⟨x1, x2, P, oP, eP, hU⟩
      exact ⟨x1, by omega, P, oP, by rw [hB, eP], hU⟩
    | false =>
      rw [if_neg (by simp)]
      exact ⟨rfl, he, 1, by simp, by rw [hB, Matrix.one_mul], UV.start μ⟩
  refine wp_mono first ?_ (fun _ _ h => h)
  rintro ⟨d1, e1⟩ ν1 ⟨x1, x2, P1, oP1, eP1, hU1⟩
  dsimp only at x1 x2 eP1 ⊢
  have q0 : QSv n (svTau n p B0) B0 d1.f e1.f P1 1 := QSv.start oP1 eP1
  refine wp_mono (wp_svSminoa (by omega) (by omega)) ?_ (fun _ _ h => h)
  rintro s ν2 ⟨rfl, s0, s1⟩
  have hs : s ≤ frobN B0 := s1.trans (q0.dle (by omega))
  have hn1 : (1 : ℝ) ≤ n := by exact_mod_cast (by omega : 1 ≤ n)
  have hsq : s / Real.sqrt n ≤ s := div_le_self s0 (Real.one_le_sqrt.2 hn1)
  have hsq0 : 0 ≤ s / Real.sqrt n := div_nonneg s0 (Real.sqrt_nonneg _)
  have t0 : 0 ≤ max (svTol p.ulp * (s / Real.sqrt n)) (n * p.safmin) := le_max_of_le_left (mul_nonneg (svTol_pos h3).le hsq0)
  have t1 : max (svTol p.ulp * (s / Real.sqrt n)) (n * p.safmin) ≤ svTau n p B0 :=
    max_le ((mul_le_mul_of_nonneg_left (hsq.trans hs) (svTol_pos h3).le).trans (le_max_right _ _)) (le_max_left _ _)
  refine wp_mono (wp_svLoop h1 h2 h3 h4 hR t0 t1 (30 * n) (x := ⟨0, n, none, true, d1, e1⟩) (μ := μ) ?_ (.inl ?_)) ?_ (fun _ _ h => h)
  · refine ⟨x1, x2, le_rfl, .inl rfl, fun h => absurd h (by simp), fun j a b => absurd a (by simp; omega), P1, 1, fun _ => 1, fun _ => 1, q0,
      DOk.start _, DOk.start _, ?_⟩
    rw [show (diagonal fun _ : Fin n => (1 : ℝ)) = 1 from diagonal_one, Matrix.mul_one, Matrix.one_mul]; exact hU1
  · simp only; omega
  rintro ⟨stop, x⟩ ν3 ⟨⟨dn, en, stop_le, -, -, right, P, Q, δ1, δ2, hQ, k1, k2, hU⟩, c1, c2⟩
  dsimp only at dn en stop_le right hQ k1 k2 c1 c2 ⊢
  obtain ⟨oP, oQ, -, E, k, r1, r2, r3⟩ := hQ
  have hE : frobN E ≤ (n - 1 : ℕ) * svdTol n p.ulp p.safmin (frobN B0) := by
    refine r2.trans (mul_le_mul ?_ (svTau_le h3 B0) (t0.trans t1) (Nat.cast_nonneg _))
    exact_mod_cast (by omega : k ≤ n - 1)
  by_cases hst : stop = true
  · rw [if_pos hst]
    refine ⟨dn, ⟨P, Q, E, δ1, δ2, oP, oQ, r1, hE, fun i => ⟨k1.pos i, k1.near i⟩, fun i => ⟨k2.pos i, k2.near i⟩, hU.uval, hU.vval, hU.frame⟩,
      .inr ⟨c2 hst, stop_le, right⟩⟩
  · rw [if_neg hst]
    have hz : ∀ j, j + 1 < n → x.e.f j = 0 := fun j hj => right j (by have := c1 (by simpa using hst); omega) hj
    simp only [wp_bind]
    refine wp_mono (wp_svSign hR dn hU) ?_ (fun _ _ h => h)
    rintro d2 ν4 ⟨y1, y2, hU2⟩
    refine wp_mono (wp_svSort hR y1 hU2 fun j hj => by rw [y2 j hj]; exact abs_nonneg _) ?_ (fun _ _ h => h)
    rintro d3 ν5 ⟨z1, z2, σ, z3, hU3⟩
    have e1 : diagonal (sgnD x.d.f n) * (diagonal δ2 * Q) = diagonal δ2 * (diagonal (sgnD x.d.f n) * Q) := by
      rw [← Matrix.mul_assoc, ← Matrix.mul_assoc, diagonal_mul_diagonal, diagonal_mul_diagonal]
      congr 2; funext i; ring
    rw [e1, diag_sub, sub_diag] at hU3
    have sq : ∀ i : Fin n, sgnD x.d.f n i * sgnD x.d.f n i = 1 := fun i => by unfold sgnD; split_ifs <;> norm_num
    have oS : diagonal (sgnD x.d.f n : Fin n → ℝ) * (diagonal (sgnD x.d.f n))ᵀ = 1 := by
      rw [diagonal_transpose, diagonal_mul_diagonal, show (fun i => sgnD x.d.f n i * sgnD x.d.f n i) = fun _ : Fin n => (1 : ℝ) from funext sq, diagonal_one]
    refine ⟨z1, ⟨P.submatrix id σ, (diagonal (sgnD x.d.f n) * Q).submatrix σ id, E, δ1 ∘ σ, δ2 ∘ σ, (perm_diag oP σ fun _ => 0).1, ?_, ?_, hE,
      fun i => ⟨k1.pos _, k1.near _⟩, fun i => ⟨k2.pos _, k2.near _⟩, hU3.uval, hU3.vval, hU3.frame⟩, .inl ⟨rfl, hz, z2, fun i hi => ?_⟩⟩
    · rw [transpose_submatrix, ← submatrix_mul _ _ σ id σ Function.bijective_id, transpose_mul, Matrix.mul_assoc, ← Matrix.mul_assoc Q, oQ,
        Matrix.one_mul, oS, submatrix_one_equiv]
    · rw [r1, bidR_diag hz, bidR_diag hz]
      have e2 : diagonal (fun i : Fin n => d3.f i) = (diagonal (fun i : Fin n => |x.d.f i|)).submatrix σ σ := by
        rw [submatrix_diagonal_equiv]; congr 1; funext i; rw [z3, y2 _ (σ i).2]; rfl
      rw [e2, submatrix_mul_equiv P _ id σ σ, submatrix_mul_equiv _ _ id σ id, submatrix_id_id, ← Matrix.mul_assoc,
        Matrix.mul_assoc P (diagonal _) (diagonal _), diagonal_mul_diagonal]
      congr 3
      funext i
      unfold sgnD
      by_cases q : x.d.f i < 0
      · rw [if_pos ⟨i.2, q⟩, abs_of_neg q]; ring
      · rw [if_neg (fun h => q h.2), abs_of_nonneg (not_lt.1 q)]; ring
    · rw [z3 ⟨i, hi⟩, y2 _ (σ ⟨i, hi⟩).2]; exact abs_nonneg _

/-- **C81** svd_qr, for every bidiagonal `B` (upper or lower): no failure of any kind occurs; whatever the outcome, `B` plus a
small perturbation is `P B' Q` and `U`, `Vt` have received `P` and `Q`.  Either `B'` is diagonal with the singular values sorted from largest to
smallest and the return code is 0, or the iteration limit was hit and `B'` is diagonal from the returned index on. -/
theorem C81_svd_qr (h1 : 0 < p.safmin) (h2 : 0 < p.safmax) (h3 : 0 < p.ulp) (h4 : p.ulp ≤ 1 / 2) (lower wu wv : Bool) (d e : RArr) (U V : MatV L)
    (he : d.n ≤ e.n + 1) (hU : wu = true → U.Inj ∧ d.n ≤ U.n) (hV : wv = true → V.Inj ∧ d.n ≤ V.m) (hD : wu = true → wv = true → U.Disj V)
    (μ : Store L 𝕜) :
    ∃ code d' e' ν, svdQr p (fun x : ℝ => (x : 𝕜)) lower wu wv d e U V μ = (.ok (code, d', e'), ν) ∧ d'.n = d.n ∧
      BidOK d.n p.ulp p.safmin wu wv U V μ (mat d.n d.n (bidR lower d.f e.f)) d'.f e'.f ν ∧
      (code = 0 ∧ (∀ j, j + 1 < d.n → e'.f j = 0) ∧ (∀ i j, i < j → j < d.n → d'.f j ≤ d'.f i) ∧ (∀ i, i < d.n → 0 ≤ d'.f i) ∨
       3 ≤ d.n ∧ code ≤ d.n ∧ ∀ j, code ≤ j + 1 → j + 1 < d.n → e'.f j = 0) := by
  obtain ⟨⟨code, d', e'⟩, ν, eq, h⟩ := wp_iff.1 (wp_svdQr h1 h2 h3 h4 lower wu wv d e U V he ⟨hU, hV, hD⟩ μ)
  exact ⟨code, d', e', ν, eq, h⟩

/-- **C81** When svd_qr finishes, it has found a singular value decomposition: `B + E = P diag(s) Q`.  For order at most 2 it always does. -/
theorem C81_two (h1 : 0 < p.safmin) (h2 : 0 < p.safmax) (h3 : 0 < p.ulp) (h4 : p.ulp ≤ 1 / 2) (lower wu wv : Bool) (d e : RArr) (U V : MatV L)
    (he : d.n ≤ e.n + 1) (hU : wu = true → U.Inj ∧ d.n ≤ U.n) (hV : wv = true → V.Inj ∧ d.n ≤ V.m) (hD : wu = true → wv = true → U.Disj V)
    (hn : d.n ≤ 2) (μ : Store L 𝕜) :
    ∃ d' e' ν, svdQr p (fun x : ℝ => (x : 𝕜)) lower wu wv d e U V μ = (.ok (0, d', e'), ν) ∧
      (∀ i j, i < j → j < d.n → d'.f j ≤ d'.f i) ∧ (∀ i, i < d.n → 0 ≤ d'.f i) ∧
      ∃ P Q E : Matrix (Fin d.n) (Fin d.n) ℝ, Pᵀ * P = 1 ∧ Q * Qᵀ = 1 ∧
        mat d.n d.n (bidR lower d.f e.f) + E = P * diagonal (fun i : Fin d.n => d'.f i) * Q ∧
        frobN E ≤ (d.n - 1 : ℕ) * svdTol d.n p.ulp p.safmin (frobN (mat d.n d.n (bidR lower d.f e.f))) := by
  obtain ⟨code, d', e', ν, eq, -, ⟨P, Q, E, δ1, δ2, oP, oQ, eB, hE, -⟩, h | h⟩ := C81_svd_qr h1 h2 h3 h4 lower wu wv d e U V he hU hV hD μ
  · obtain ⟨rfl, hz, hs, h0⟩ := h
    rw [bidR_diag hz] at eB
    exact ⟨d', e', ν, eq, hs, h0, P, Q, E, oP, oQ, eB, hE⟩
  · omega

/-- The hypotheses of `C81_svd_qr` are met by a bidiagonal matrix of order 4, a 6 by 4 `U` and a 4 by 5 `Vt`. -/
example : ((4 : Nat) ≤ 3 + 1) ∧ (mkM 0 6 4).Inj ∧ (4 : Nat) ≤ (mkM 0 6 4).n ∧ (mkM 24 4 5).Inj ∧ 4 ≤ (mkM 24 4 5).m ∧
    (mkM 0 6 4).Disj (mkM 24 4 5) ∧ (0 : ℝ) < 1 / 2 ^ 52 ∧ (1 : ℝ) / 2 ^ 52 ≤ 1 / 2 :=
  ⟨by omega, mkM_inj _ _ _, le_refl _, mkM_inj _ _ _, le_refl _, by apply mkM_disj; adm, by norm_num, by norm_num⟩

end TLA
