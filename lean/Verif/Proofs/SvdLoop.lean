import Verif.Proofs.SvdTwo
set_option linter.unusedTactic false
set_option linter.unusedVariables false
set_option linter.unusedSimpArgs false
set_option linter.unreachableTactic false
set_option linter.unusedSectionVars false

/-! # svd_qr: deflation and main loop -/

namespace TLA
open Finset Matrix Kernel

theorem frobN_orth2 {n : Nat} {G H : Matrix (Fin n) (Fin n) ℝ} (hG : Gᵀ * G = 1) (hH : H * Hᵀ = 1) (A : Matrix (Fin n) (Fin n) ℝ) :
    frobN (G * A * H) = frobN A := by
  refine (pow_left_inj₀ (frobN_nonneg _) (frobN_nonneg _) two_ne_zero).1 ?_
  rw [frobN_trace, frobN_trace, transpose_mul, transpose_mul]
  rw [show Hᵀ * (Aᵀ * Gᵀ) * (G * A * H) = Hᵀ * (Aᵀ * ((Gᵀ * G) * (A * H))) by simp only [Matrix.mul_assoc], hG, Matrix.one_mul,
    trace_mul_comm]
  rw [show Aᵀ * (A * H) * Hᵀ = Aᵀ * A * (H * Hᵀ) by simp only [Matrix.mul_assoc], hH, Matrix.mul_one]

/-- `B0 + E = P B Q` with a small `E`. -/
structure QSv (n : Nat) (τ : ℝ) (B0 : Matrix (Fin n) (Fin n) ℝ) (d e : Nat → ℝ) (P Q : Matrix (Fin n) (Fin n) ℝ) : Prop where
  orthP : Pᵀ * P = 1
  orthQ : Q * Qᵀ = 1
  nrm : frobN (mat n n (bidR false d e)) ≤ frobN B0
  err : ∃ (E : Matrix (Fin n) (Fin n) ℝ) (k : Nat), B0 + E = P * mat n n (bidR false d e) * Q ∧ frobN E ≤ k * τ ∧ k + nzE n e ≤ n - 1

variable {n : Nat} {τ : ℝ} {B0 P Q : Matrix (Fin n) (Fin n) ℝ} {d e : Nat → ℝ}

theorem nzE_le (n : Nat) (e : Nat → ℝ) : nzE n e ≤ n - 1 := by
  have := (range (n - 1)).card_filter_le fun j => e j ≠ 0
  simp only [card_range] at this
  exact this

theorem QSv.start (hP : Pᵀ * P = 1) (h : B0 = P * mat n n (bidR false d e)) : QSv n τ B0 d e P 1 := by
  refine ⟨hP, by simp, ?_, 0, 0, by rw [h]; simp, by simp [frobN], by simpa using nzE_le n e⟩
  have := frobN_orth2 (H := 1) hP (by simp) (mat n n (bidR false d e))
  rw [Matrix.mul_one, ← h] at this
  rw [this]

theorem QSv.dle (h : QSv n τ B0 d e P Q) {i : Nat} (hi : i < n) : |d i| ≤ frobN B0 := by
  have := frobN_entry (mat n n (bidR false d e)) ⟨i, hi⟩ ⟨i, hi⟩
  simp only [mat, of_apply, bidR, if_true] at this
  exact le_trans this h.nrm

theorem QSv.ele (h : QSv n τ B0 d e P Q) {i : Nat} (hi : i + 1 < n) : |e i| ≤ frobN B0 := by
  have := frobN_entry (mat n n (bidR false d e)) ⟨i, by omega⟩ ⟨i + 1, hi⟩
  simp only [mat, of_apply, bidR] at this
  rw [if_neg (by omega), if_pos ⟨trivial, trivial⟩] at this
  exact le_trans this h.nrm

theorem QSv.sim (h : QSv n τ B0 d e P Q) {m : Nat} {d' e' : Nat → ℝ} {G H} (hs : BSim n m d e d' e' G H) (hz : nzE n e' ≤ nzE n e) :
    QSv n τ B0 d' e' (P * G) (H * Q) := by
  obtain ⟨oP, oQ, nrm, E, k, h1, h2, h3⟩ := h
  obtain ⟨oG, oH, -, -, gs⟩ := hs
  refine ⟨?_, ?_, ?_, E, k, ?_, h2, by omega⟩
  · rw [transpose_mul, Matrix.mul_assoc, ← Matrix.mul_assoc Pᵀ, oP, Matrix.one_mul, oG]
  · rw [transpose_mul, Matrix.mul_assoc, ← Matrix.mul_assoc Q, oQ, Matrix.one_mul, oH]
  · rwa [gs, frobN_orth2 oG oH] at nrm
  · rw [h1, gs]; simp only [Matrix.mul_assoc]

theorem nzE_drop {k : Nat} (hk : k + 1 < n) (hz : e k ≠ 0) : nzE n (fun j => if j = k then 0 else e j) < nzE n e := by
  refine Finset.card_lt_card ⟨fun j hj => ?_, fun hh => ?_⟩
  · simp only [mem_filter, mem_range] at hj ⊢
    refine ⟨hj.1, fun q => hj.2 ?_⟩
    split_ifs
    · rfl
    · exact q
  · have := hh (x := k) (by simp only [mem_filter, mem_range]; exact ⟨by omega, hz⟩)
    simp at this

theorem QSv.deflate (h : QSv n τ B0 d e P Q) {k : Nat} (hk : k + 1 < n) (ht : |e k| ≤ τ) :
    QSv n τ B0 d (fun j => if j = k then 0 else e j) P Q := by
  by_cases hz : e k = 0
  · rwa [show (fun j => if j = k then 0 else e j) = e from by
      funext j; split_ifs with q
      · rw [q, hz]
      · rfl]
  obtain ⟨oP, oQ, nrm, E, c, h1, h2, h3⟩ := h
  have split : mat n n (bidR false d e) = mat n n (bidR false d fun j => if j = k then 0 else e j) + mat n n (blk4 k 0 (e k) 0 0) := by
    ext i j
    simp only [mat, of_apply, bidR, blk4, Matrix.add_apply]
    split_ifs <;> first | omega | simp_all
  refine ⟨oP, oQ, le_trans (frobN_mono fun i j => ?_) nrm, E - P * mat n n (blk4 k 0 (e k) 0 0) * Q, c + 1, ?_, ?_, ?_⟩
  · simp only [mat, of_apply, bidR]
    split_ifs <;> first | exact le_rfl | (simp only [ne_eq, OfNat.ofNat_ne_zero, not_false_eq_true, zero_pow]; exact sq_nonneg _)
  · rw [← add_sub_assoc, h1, split, Matrix.mul_add, Matrix.add_mul, add_sub_cancel_right]
  · refine le_trans (frobN_sub_le _ _) ?_
    rw [frobN_orth2 oP oQ, frobN_blk4 hk]
    have : Real.sqrt (0 ^ 2 + e k ^ 2 + 0 ^ 2 + 0 ^ 2) = |e k| := by
      rw [← Real.sqrt_sq_eq_abs]; congr 1; ring
    rw [this]
    push_cast
    linarith
  · have := nzE_drop (n := n) hk hz
    omega

theorem frobN_two {n k : Nat} (hk : k + 1 < n) {d e d' e' : Nat → ℝ} (hd : ∀ j, j ≠ k → j ≠ k + 1 → d' j = d j) (he : ∀ j, j ≠ k → e' j = e j)
    (he0 : e' k = 0) (hn : d' k ^ 2 + d' (k + 1) ^ 2 ≤ d k ^ 2 + e k ^ 2 + d (k + 1) ^ 2) :
    frobN (mat n n (bidR false d' e')) ≤ frobN (mat n n (bidR false d e)) := by
  refine Real.sqrt_le_sqrt ?_
  have split : ∀ d e : Nat → ℝ, ∑ i : Fin n, ∑ j : Fin n, mat n n (bidR false d e) i j ^ 2 =
      (d k ^ 2 + e k ^ 2 + d (k + 1) ^ 2) + ∑ i : Fin n, ∑ j : Fin n, (if (i : Nat) = k ∧ (j : Nat) = k ∨ (i : Nat) = k ∧ (j : Nat) = k + 1 ∨
        (i : Nat) = k + 1 ∧ (j : Nat) = k + 1 then 0 else mat n n (bidR false d e) i j ^ 2) := by
    intro d e
    have key : ∀ i j : Fin n, mat n n (bidR false d e) i j ^ 2 = mat n n (blk4 k (d k) (e k) 0 (d (k + 1))) i j ^ 2 +
        (if (i : Nat) = k ∧ (j : Nat) = k ∨ (i : Nat) = k ∧ (j : Nat) = k + 1 ∨
        (i : Nat) = k + 1 ∧ (j : Nat) = k + 1 then 0 else mat n n (bidR false d e) i j ^ 2) := by
      intro i j
      obtain ⟨i, hi⟩ := i
      obtain ⟨j, hj⟩ := j
      by_cases q1 : i = k ∧ j = k
      · obtain ⟨rfl, rfl⟩ := q1
        simp [mat, bidR, blk4]
      · by_cases q2 : i = k ∧ j = k + 1
        · obtain ⟨rfl, rfl⟩ := q2
          simp [mat, bidR, blk4]
        · by_cases q3 : i = k + 1 ∧ j = k + 1
          · obtain ⟨rfl, rfl⟩ := q3
            simp [mat, bidR, blk4]
          · rw [if_neg (by tauto)]
            have : mat n n (blk4 k (d k) (e k) 0 (d (k + 1))) ⟨i, hi⟩ ⟨j, hj⟩ = 0 := by
              simp only [mat, of_apply, blk4]
              split_ifs <;> first | rfl | omega
            rw [this]; ring
    rw [Finset.sum_congr rfl fun i _ => Finset.sum_congr rfl fun j _ => key i j]
    simp only [Finset.sum_add_distrib]
    congr 1
    have := frobN_sq (mat n n (blk4 k (d k) (e k) 0 (d (k + 1))))
    rw [← this, frobN_blk4 hk, Real.sq_sqrt (by positivity)]
    ring
  rw [split d' e', split d e, he0]
  refine add_le_add (by linarith) (le_of_eq ?_)
  refine Finset.sum_congr rfl fun i _ => Finset.sum_congr rfl fun j _ => ?_
  split_ifs with q
  · rfl
  · simp only [mat, of_apply, bidR]
    split_ifs with g1 g2 g3
    · rw [hd _ (by omega) (by omega)]
    · rw [he _ (by omega)]
    · simp at g3
    · rfl

/-- A 2 by 2 block is diagonalised approximately. -/
theorem QSv.two (h : QSv n τ B0 d e P Q) {k : Nat} (hk : k + 1 < n) (hl : 0 < k → e (k - 1) = 0) (hr : k + 2 < n → e (k + 1) = 0)
    (hz : e k ≠ 0) {d' : Nat → ℝ} {o : SvdOut} {δ t rl rr cl sl cr sr : ℝ} (ho : Svd2N δ t (d k) (e k) (d (k + 1)) o rl rr cl sl cr sr)
    (ht : 2 * t ≤ τ) (hd : ∀ j, j ≠ k → j ≠ k + 1 → d' j = d j) (hk1 : d' k = o.ssmax) (hk2 : d' (k + 1) = o.ssmin) :
    QSv n τ B0 d' (fun j => if j = k then 0 else e j) (P * (rotMat n k (k + 1) cl sl)ᵀ) (rotMat n k (k + 1) cr sr * Q) := by
  obtain ⟨oP, oQ, nrm, E, c, h1, h2, h3⟩ := h
  have two := bid_two hk hl hr cl sl cr sr hd (e' := fun j => if j = k then 0 else e j) (fun j hj => if_neg hj) (if_pos rfl)
  have oL := rotMat_orth (show k < n by omega) hk (by omega) ho.ul
  have oR := rotMat_orth (show k < n by omega) hk (by omega) ho.ur
  have oL' := rotMat_orth' (show k < n by omega) hk (by omega) ho.ul
  have oR' := rotMat_orth' (show k < n by omega) hk (by omega) ho.ur
  have fb := frobN_blk4_le hk (x00 := cl * (d k * cr + e k * sr) + sl * (d (k + 1) * sr) - d' k)
    (x01 := cl * (e k * cr - d k * sr) + sl * (d (k + 1) * cr)) (x10 := -sl * (d k * cr + e k * sr) + cl * (d (k + 1) * sr))
    (x11 := -sl * (e k * cr - d k * sr) + cl * (d (k + 1) * cr) - d' (k + 1)) (t := t) (by rw [hk1]; exact ho.e00) ho.e01 ho.e10
    (by rw [hk2]; exact ho.e11)
  generalize mat n n (blk4 k _ _ _ _) = F at two fb
  generalize rotMat n k (k + 1) cl sl = A at two oL oL'
  generalize rotMat n k (k + 1) cr sr = C at two oR oR'
  have oPA : (P * Aᵀ)ᵀ * (P * Aᵀ) = 1 := by
    rw [transpose_mul, transpose_transpose, Matrix.mul_assoc, ← Matrix.mul_assoc Pᵀ, oP, Matrix.one_mul, oL']
  have oCQ : (C * Q) * (C * Q)ᵀ = 1 := by
    rw [transpose_mul, Matrix.mul_assoc, ← Matrix.mul_assoc Q, oQ, Matrix.one_mul, oR']
  refine ⟨oPA, oCQ, le_trans (frobN_two hk hd (fun j hj => if_neg hj) (if_pos rfl) ?_) nrm, E - P * Aᵀ * F * (C * Q), c + 1, ?_, ?_, ?_⟩
  · rw [hk1, hk2]; exact ho.nrm
  · have e1 : mat n n (bidR false d' fun j => if j = k then 0 else e j) = A * mat n n (bidR false d e) * Cᵀ - F := by
      rw [two, add_sub_cancel_right]
    rw [← add_sub_assoc, h1, e1, Matrix.mul_sub, Matrix.sub_mul]
    congr 1
    generalize mat n n (bidR false d e) = W
    calc P * W * Q = P * (1 * W * 1) * Q := by rw [Matrix.one_mul, Matrix.mul_one]
      _ = P * ((Aᵀ * A) * W * (Cᵀ * C)) * Q := by rw [oL, oR]
      _ = _ := by simp only [Matrix.mul_assoc]
  · refine le_trans (frobN_sub_le _ _) ?_
    rw [frobN_orth2 oPA oCQ]
    push_cast
    linarith
  · have := nzE_drop (n := n) hk hz
    omega

/-! ### Scan and convergence tests -/

theorem wp_svScan {L T : Type} {thresh : ℝ} {istart : Nat} {d e : RArr} {n : Nat} (hd : d.n = n) (he : n ≤ e.n + 1)
    {ν : Store L T} {E} (i : Nat) (hi : i < n) : ∀ (smax : ℝ),
    wp (svScan thresh istart d i e smax : M L T (Nat × RArr × ℝ)) ν (fun x ν' => ν' = ν ∧ smax ≤ x.2.2 ∧
      ((x.1 = istart ∧ x.2.1 = e ∧ ∀ j, istart ≤ j → j < i → thresh < |e.f j| ∧ |e.f j| ≤ x.2.2) ∨
      ∃ k, istart ≤ k ∧ k < i ∧ x.1 = k + 1 ∧ x.2.1 = ⟨e.n, fun j => if j = k then 0 else e.f j⟩ ∧
        |e.f k| ≤ thresh ∧ ∀ j, k < j → j < i → thresh < |e.f j| ∧ |e.f j| ≤ x.2.2)) E := by
  induction i with
  | zero => intro smax; exact ⟨rfl, le_rfl, .inl ⟨rfl, rfl, fun j _ h => absurd h (by omega)⟩⟩
  | succ i ih =>
    intro smax
    unfold svScan
    by_cases hs : i + 1 > istart
    · rw [if_pos hs]
      simp only [wp_bind]
      refine wp_rget (by omega) (wp_rget (by omega) ?_)
      have m1 : smax ≤ max (max smax |d.f i|) |e.f i| := le_trans (le_max_left _ _) (le_max_left _ _)
      by_cases ht : |e.f i| ≤ thresh
      · rw [if_pos ht]
        simp only [wp_bind]
        exact wp_rset (by omega) ⟨rfl, m1, .inr ⟨i, by omega, by omega, rfl, rfl, ht, fun j _ h => absurd h (by omega)⟩⟩
      · rw [if_neg ht]
        have ht := not_le.1 ht
        refine wp_mono (ih (by omega) _) ?_ (fun _ _ h => h)
        rintro x ν' ⟨rfl, m2, ⟨a1, a2, hx⟩ | ⟨k, a1, a2, a3, a4, a5, a6⟩⟩
        · refine ⟨rfl, m1.trans m2, .inl ⟨a1, a2, fun j g1 g2 => ?_⟩⟩
          by_cases q : j = i
          · rw [q]; exact ⟨ht, le_trans (le_max_right _ _) m2⟩
          · exact hx j g1 (by omega)
        · refine ⟨rfl, m1.trans m2, .inr ⟨k, a1, by omega, a3, a4, a5, fun j g1 g2 => ?_⟩⟩
          by_cases q : j = i
          · rw [q]; exact ⟨ht, le_trans (le_max_right _ _) m2⟩
          · exact a6 j g1 (by omega)
    · rw [if_neg hs]
      exact ⟨rfl, le_rfl, .inl ⟨rfl, rfl, fun j g1 g2 => absurd g1 (by omega)⟩⟩

theorem ratio_le {mu t x : ℝ} (h0 : 0 ≤ mu) (ht : 0 < t) : dv mu (mu + t) = some (mu / (mu + t)) ∧ 0 ≤ |x| * (mu / (mu + t)) ∧
    |x| * (mu / (mu + t)) ≤ |x| := by
  have hp : 0 < mu + t := by linarith
  refine ⟨by simp [dv, hp.ne'], by positivity, ?_⟩
  have : mu / (mu + t) ≤ 1 := (div_le_one hp).2 (by linarith)
  nlinarith [abs_nonneg x]

theorem wp_svConvF {L T : Type} {tol : ℝ} {istart istop : Nat} {d e : RArr} {n : Nat} (hd : d.n = n) (he : n ≤ e.n + 1) (hs : istart < istop)
    (hn : istop ≤ n) (hp : ∀ j, istart ≤ j → j + 1 < istop → 0 < |e.f j|) {ν : Store L T} {E} :
    wp (svConvF tol istart istop d e : M L T (ℝ ⊕ Nat)) ν (fun r ν' => ν' = ν ∧ match r with
      | .inl s => s ≤ |d.f istart|
      | .inr i => istart ≤ i ∧ i + 1 < istop ∧ ∃ mu, 0 ≤ mu ∧ mu ≤ |d.f i| ∧ |e.f i| < tol * mu) E := by
  unfold svConvF
  simp only [wp_bind]
  refine wp_rget (by omega) ?_
  refine wp_forRet (fun i x ν' => ν' = ν ∧ 0 ≤ x.1 ∧ x.1 ≤ |d.f i| ∧ x.2 ≤ |d.f istart|) (by omega) ⟨rfl, abs_nonneg _, le_rfl, le_rfl⟩ ?_ ?_
  · rintro i x ν' hi1 hi2 ⟨rfl, x1, x2, x3⟩
    simp only [wp_bind]
    refine wp_rget (by omega) ?_
    by_cases q : |e.f i| < tol * x.1
    · rw [if_pos q]
      exact ⟨rfl, hi1, by omega, x.1, x1, x2, q⟩
    · rw [if_neg q]
      simp only [wp_bind]
      obtain ⟨q1, q2, q3⟩ := ratio_le (x := d.f (i + 1)) x1 (hp i hi1 (by omega))
      refine wp_rget (by omega) (wp_liftO_some q1 ?_)
      exact ⟨rfl, q2, q3, le_trans (min_le_left _ _) x3⟩
  · rintro x ν' ⟨rfl, -, -, x3⟩
    exact ⟨rfl, x3⟩

theorem wp_svConvB {L T : Type} {tol : ℝ} {istart istop : Nat} {d e : RArr} {n : Nat} (hd : d.n = n) (he : n ≤ e.n + 1) (hs : istart < istop)
    (hn : istop ≤ n) (hp : ∀ j, istart ≤ j → j + 1 < istop → 0 < |e.f j|) {ν : Store L T} {E} :
    wp (svConvB tol istart istop d e : M L T (ℝ ⊕ Nat)) ν (fun r ν' => ν' = ν ∧ match r with
      | .inl s => s ≤ |d.f (istop - 1)|
      | .inr i => istart ≤ i ∧ i + 1 < istop ∧ ∃ mu, 0 ≤ mu ∧ mu ≤ |d.f (i + 1)| ∧ |e.f i| < tol * mu) E := by
  unfold svConvB
  simp only [wp_bind]
  refine wp_rget (by omega) ?_
  refine wp_forRet (fun i x ν' => ν' = ν ∧ 0 ≤ x.1 ∧ x.1 ≤ |d.f (istop - 1 - (i - istart))| ∧ x.2 ≤ |d.f (istop - 1)|) (by omega)
    ⟨rfl, abs_nonneg _, by simp, le_rfl⟩ ?_ ?_
  · rintro i2 x ν' hi1 hi2 ⟨rfl, x1, x2, x3⟩
    obtain ⟨i, hi⟩ : ∃ i, i = istop - 2 - (i2 - istart) := ⟨_, rfl⟩
    simp only [← hi]
    rw [show istop - 1 - (i2 - istart) = i + 1 by omega] at x2
    simp only [wp_bind]
    refine wp_rget (by omega) ?_
    by_cases q : |e.f i| < tol * x.1
    · rw [if_pos q]
      exact ⟨rfl, by omega, by omega, x.1, x1, x2, q⟩
    · rw [if_neg q]
      simp only [wp_bind]
      obtain ⟨q1, q2, q3⟩ := ratio_le (x := d.f i) x1 (hp i (by omega) (by omega))
      refine wp_rget (by omega) (wp_liftO_some q1 ?_)
      refine ⟨rfl, q2, ?_, le_trans (min_le_left _ _) x3⟩
      rw [show istop - 1 - (i2 + 1 - istart) = i by omega]; exact q3
  · rintro x ν' ⟨rfl, -, -, x3⟩
    exact ⟨rfl, x3⟩

theorem wp_svShift {L T : Type} {eps tol : ℝ} (heps : 0 < eps) (htol : 0 ≤ tol) {fwd : Bool} {istart istop : Nat} {d e : RArr} {n : Nat}
    (hd : d.n = n) (he : n ≤ e.n + 1) (hs : istart + 2 ≤ istop) (hn : istop ≤ n) {sminl smax : ℝ} (hm : 0 < smax) {ν : Store L T} {E} :
    wp (svShift eps tol fwd istart istop d e sminl smax : M L T ℝ) ν (fun s ν' => ν' = ν ∧ (s ≠ 0 → 0 < sminl)) E := by
  unfold svShift
  simp only [wp_bind]
  refine wp_liftO_some (a := sminl / smax) (by simp [dv, hm.ne']) ?_
  by_cases q : (d.n : ℝ) * tol * (sminl / smax) ≤ max eps (1 / 100 * tol)
  · rw [if_pos q]
    exact ⟨rfl, fun h => absurd rfl h⟩
  · rw [if_neg q]
    have pos : 0 < sminl := by
      by_contra hc
      apply q
      have h1 : sminl / smax ≤ 0 := div_nonpos_of_nonpos_of_nonneg (not_lt.1 hc) hm.le
      have h2 : (d.n : ℝ) * tol * (sminl / smax) ≤ 0 := mul_nonpos_of_nonneg_of_nonpos (mul_nonneg (Nat.cast_nonneg _) htol) h1
      exact h2.trans (le_trans heps.le (le_max_left _ _))
    have fin : ∀ (ss shift : ℝ), wp (if 0 < ss then do
      let t ← liftO (dv shift ss)
      if t * t < eps then pure 0 else pure shift
    else pure shift : M L T ℝ) ν (fun s ν' => ν' = ν ∧ (s ≠ 0 → 0 < sminl)) E := by
      intro ss shift
      by_cases h0 : 0 < ss
      · rw [if_pos h0]
        simp only [wp_bind]
        refine wp_liftO_some (a := shift / ss) (by simp [dv, h0.ne']) ?_
        split_ifs
        · exact ⟨rfl, fun _ => pos⟩
        · exact ⟨rfl, fun _ => pos⟩
      · rw [if_neg h0]
        exact ⟨rfl, fun _ => pos⟩
    simp only [wp_bind]
    cases fwd with
    | true =>
      rw [if_pos rfl]
      simp only [wp_bind]
      obtain ⟨s1, s2, eq, -⟩ := singularvalues22_ok (d.f (istop - 2)) (e.f (istop - 2)) (d.f (istop - 1))
      refine wp_rget (by omega) (wp_rget (by omega) (wp_rget (by omega) (wp_rget (by omega) (wp_liftO_some eq ?_))))
      exact fin _ _
    | false =>
      rw [if_neg (by simp)]
      simp only [wp_bind]
      obtain ⟨s1, s2, eq, -⟩ := singularvalues22_ok (d.f istart) (e.f istart) (d.f (istart + 1))
      refine wp_rget (by omega) (wp_rget (by omega) (wp_rget (by omega) (wp_rget (by omega) (wp_liftO_some eq ?_))))
      exact fin _ _

end TLA
