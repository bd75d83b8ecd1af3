import Verif.Proofs.Steqr
import Mathlib.Analysis.InnerProductSpace.PiL2
set_option linter.unusedTactic false
set_option linter.unusedVariables false
set_option linter.unusedSimpArgs false
set_option linter.unreachableTactic false

/-! # steqr: deflation, main loop, sorting -/

namespace TLA
open Finset Matrix Kernel

/-! ### Frobenius norm -/

theorem frobN_sq {m n : Nat} (A : Matrix (Fin m) (Fin n) ℝ) : frobN A ^ 2 = ∑ i, ∑ j, A i j ^ 2 :=
  Real.sq_sqrt (Finset.sum_nonneg fun _ _ => Finset.sum_nonneg fun _ _ => sq_nonneg _)

theorem frobN_nonneg {m n : Nat} (A : Matrix (Fin m) (Fin n) ℝ) : 0 ≤ frobN A := Real.sqrt_nonneg _

theorem frobN_eq {m n : Nat} (A : Matrix (Fin m) (Fin n) ℝ) :
    frobN A = ‖(WithLp.toLp 2 (fun x : Fin m × Fin n => A x.1 x.2) : EuclideanSpace ℝ (Fin m × Fin n))‖ := by
  rw [EuclideanSpace.norm_eq]
  unfold frobN
  congr 1
  rw [Fintype.sum_prod_type]
  simp

theorem frobN_sub_le {m n : Nat} (A B : Matrix (Fin m) (Fin n) ℝ) : frobN (A - B) ≤ frobN A + frobN B := by
  rw [frobN_eq, frobN_eq, frobN_eq]
  exact norm_sub_le (WithLp.toLp 2 (fun x : Fin m × Fin n => A x.1 x.2) : EuclideanSpace ℝ (Fin m × Fin n))
    (WithLp.toLp 2 (fun x : Fin m × Fin n => B x.1 x.2))

theorem frobN_mono {m n : Nat} {A B : Matrix (Fin m) (Fin n) ℝ} (h : ∀ i j, A i j ^ 2 ≤ B i j ^ 2) : frobN A ≤ frobN B :=
  Real.sqrt_le_sqrt (Finset.sum_le_sum fun i _ => Finset.sum_le_sum fun j _ => h i j)

theorem frobN_entry {m n : Nat} (A : Matrix (Fin m) (Fin n) ℝ) (i : Fin m) (j : Fin n) : |A i j| ≤ frobN A := by
  refine abs_le_of_sq_le_sq ?_ (frobN_nonneg A)
  rw [frobN_sq]
  refine le_trans ?_ (Finset.single_le_sum (f := fun i => ∑ j, A i j ^ 2) (fun _ _ => Finset.sum_nonneg fun _ _ => sq_nonneg _) (Finset.mem_univ i))
  exact Finset.single_le_sum (f := fun j => A i j ^ 2) (fun _ _ => sq_nonneg _) (Finset.mem_univ j)

theorem frobN_trace {n : Nat} (A : Matrix (Fin n) (Fin n) ℝ) : frobN A ^ 2 = (Aᵀ * A).trace := by
  rw [frobN_sq, Finset.sum_comm]
  simp only [trace, diag_apply, mul_apply, transpose_apply, pow_two]

theorem frobN_orth {n : Nat} {G : Matrix (Fin n) (Fin n) ℝ} (h : Gᵀ * G = 1) (A : Matrix (Fin n) (Fin n) ℝ) :
    frobN (G * A * Gᵀ) = frobN A := by
  refine (pow_left_inj₀ (frobN_nonneg _) (frobN_nonneg _) two_ne_zero).1 ?_
  rw [frobN_trace, frobN_trace, transpose_mul, transpose_mul, transpose_transpose]
  rw [show G * (Aᵀ * Gᵀ) * (G * A * Gᵀ) = G * (Aᵀ * ((Gᵀ * G) * (A * Gᵀ))) by simp only [Matrix.mul_assoc], h, Matrix.one_mul,
    trace_mul_comm]
  rw [show Aᵀ * (A * Gᵀ) * G = Aᵀ * A * (Gᵀ * G) by simp only [Matrix.mul_assoc], h, Matrix.mul_one]

theorem frobN_pair {n : Nat} {k : Nat} (hk : k + 1 < n) (x : ℝ) :
    frobN (mat n n (triS 0 fun j => if j = k then x else 0)) = Real.sqrt (2 * x ^ 2) := by
  unfold frobN
  congr 1
  have e : ∀ i j : Fin n, mat n n (triS 0 fun j => if j = k then x else 0) i j ^ 2 =
      (if j = ⟨k + 1, hk⟩ then (if i = ⟨k, by omega⟩ then x ^ 2 else 0) else 0) +
      (if j = ⟨k, by omega⟩ then (if i = ⟨k + 1, hk⟩ then x ^ 2 else 0) else 0) := by
    intro i j
    obtain ⟨i, hi⟩ := i
    obtain ⟨j, hj⟩ := j
    simp only [mat, of_apply, triS, Fin.mk.injEq, Pi.zero_apply]
    split_ifs <;> first | omega | ring1
  simp only [e, Finset.sum_add_distrib, Finset.sum_ite_eq', Finset.mem_univ, if_true]
  ring

/-! ### The invariant of the main loop -/

variable {n : Nat}

/-- Number of off-diagonal entries that do not vanish. -/
noncomputable def nzE (n : Nat) (e : Nat → ℝ) : Nat := ((range (n - 1)).filter fun j => e j ≠ 0).card

/-- `T0 + E = Q T Q^T` with a small `E`. -/
structure QInv (n : Nat) (ulp safmin : ℝ) (d0 e0 d e : Nat → ℝ) (Q : Matrix (Fin n) (Fin n) ℝ) : Prop where
  orth : Qᵀ * Q = 1
  nrm : frobN (mat n n (triS d e)) ≤ frobN (mat n n (triS d0 e0))
  err : ∃ (E : Matrix (Fin n) (Fin n) ℝ) (k : Nat), mat n n (triS d0 e0) + E = Q * mat n n (triS d e) * Qᵀ ∧
    frobN E ≤ k * stqTol ulp safmin (frobN (mat n n (triS d0 e0))) ∧ k + nzE n e ≤ n - 1

variable {ulp safmin : ℝ} {d0 e0 d e : Nat → ℝ} {Q : Matrix (Fin n) (Fin n) ℝ}

theorem QInv.start : QInv n ulp safmin d e d e 1 := by
  refine ⟨by simp, le_rfl, 0, 0, by simp, by simp [frobN], ?_⟩
  have := (range (n - 1)).card_filter_le fun j => e j ≠ 0
  simp only [card_range] at this
  unfold nzE; omega

theorem QInv.sim (h : QInv n ulp safmin d0 e0 d e Q) {d' e' : Nat → ℝ} {G} (hs : TSim n d e d' e' G) (hz : nzE n e' ≤ nzE n e) :
    QInv n ulp safmin d0 e0 d' e' (Q * G) := by
  obtain ⟨orth, nrm, E, k, h1, h2, h3⟩ := h
  obtain ⟨go, gs⟩ := hs
  refine ⟨?_, ?_, E, k, ?_, h2, by omega⟩
  · rw [transpose_mul, Matrix.mul_assoc, ← Matrix.mul_assoc Qᵀ, orth, Matrix.one_mul, go]
  · rwa [gs, frobN_orth go] at nrm
  · rw [h1, gs, transpose_mul]; simp only [Matrix.mul_assoc]

theorem QInv.deflate (h : QInv n ulp safmin d0 e0 d e Q) {k : Nat} (hk : k + 1 < n)
    (ht : e k * e k ≤ ulp * ulp * |d k| * |d (k + 1)| + safmin) :
    QInv n ulp safmin d0 e0 d (fun j => if j = k then 0 else e j) Q := by
  by_cases hz : e k = 0
  · rwa [show (fun j => if j = k then 0 else e j) = e from by
      funext j; split_ifs with q
      · rw [q, hz]
      · rfl]
  obtain ⟨orth, nrm, E, c, h1, h2, h3⟩ := h
  have split : mat n n (triS d e) = mat n n (triS d fun j => if j = k then 0 else e j) + mat n n (triS 0 fun j => if j = k then e k else 0) := by
    ext i j
    simp only [mat, of_apply, triS, Matrix.add_apply, Pi.zero_apply]
    split_ifs <;> simp_all
  refine ⟨orth, le_trans (frobN_mono fun i j => ?_) nrm, E - Q * mat n n (triS 0 fun j => if j = k then e k else 0) * Qᵀ, c + 1, ?_, ?_, ?_⟩
  · simp only [mat, of_apply, triS]
    split_ifs <;> first | exact le_rfl | (simp only [ne_eq, OfNat.ofNat_ne_zero, not_false_eq_true, zero_pow]; exact sq_nonneg _)
  · rw [← add_sub_assoc, h1, split, Matrix.mul_add, Matrix.add_mul, add_sub_cancel_right]
  · refine le_trans (frobN_sub_le _ _) ?_
    rw [frobN_orth orth, frobN_pair hk]
    have hd : ∀ i, i < n → |d i| ≤ frobN (mat n n (triS d0 e0)) := by
      intro i hi
      have := frobN_entry (mat n n (triS d e)) ⟨i, hi⟩ ⟨i, hi⟩
      simp only [mat, of_apply, triS, if_true] at this
      exact le_trans this nrm
    have hb : Real.sqrt (2 * e k ^ 2) ≤ stqTol ulp safmin (frobN (mat n n (triS d0 e0))) := by
      refine Real.sqrt_le_sqrt ?_
      have := mul_le_mul (hd k (by omega)) (hd (k + 1) hk) (abs_nonneg _) (frobN_nonneg _)
      have := mul_le_mul_of_nonneg_left this (mul_self_nonneg ulp)
      nlinarith
    push_cast
    linarith
  · have : nzE n (fun j => if j = k then 0 else e j) < nzE n e := by
      refine Finset.card_lt_card ⟨fun j hj => ?_, fun hh => ?_⟩
      · simp only [mem_filter, mem_range] at hj ⊢
        refine ⟨hj.1, fun q => hj.2 ?_⟩
        split_ifs
        · rfl
        · exact q
      · have := hh (x := k) (by simp only [mem_filter, mem_range]; exact ⟨by omega, hz⟩)
        simp at this
    omega

theorem nzE_fix {a b : Nat} {e e' : Nat → ℝ} (hf : EFix a b e e') (hn : ∀ j, a ≤ j → j < b → e j ≠ 0) : nzE n e' ≤ nzE n e := by
  refine Finset.card_le_card fun j hj => ?_
  simp only [mem_filter, mem_range] at hj ⊢
  refine ⟨hj.1, ?_⟩
  by_cases h : a ≤ j ∧ j < b
  · exact hn j h.1 h.2
  · rw [← hf j (by omega)]; exact hj.2

/-! ### Scan -/

variable {L 𝕜 : Type} [DecidableEq L] [RCLike 𝕜] [DecidableEq 𝕜]

theorem wp_stqScan {L T : Type} {p : RotPar} (h1 : 0 < p.safmin) {istart : Nat} {d e : RArr} {n : Nat} (hd : d.n = n) (he : e.n + 1 = n)
    {ν : Store L T} {E} (i : Nat) (hi : i < n) :
    wp (stqScan p istart d i e : M L T (Nat × RArr)) ν (fun x ν' => ν' = ν ∧
      ((x = (istart, e) ∧ ∀ j, istart ≤ j → j < i → e.f j ≠ 0) ∨
      ∃ k, istart ≤ k ∧ k < i ∧ x = (k + 1, ⟨e.n, fun j => if j = k then 0 else e.f j⟩) ∧
        e.f k * e.f k ≤ p.ulp * p.ulp * |d.f k| * |d.f (k + 1)| + p.safmin ∧ ∀ j, k < j → j < i → e.f j ≠ 0)) E := by
  induction i with
  | zero => exact ⟨rfl, .inl ⟨rfl, fun j _ h => absurd h (by omega)⟩⟩
  | succ i ih =>
    unfold stqScan
    by_cases hs : i + 1 > istart
    · rw [if_pos hs]
      simp only [wp_bind]
      refine wp_rget (by omega) (wp_rget (by omega) (wp_rget (by omega) ?_))
      by_cases ht : e.f i * e.f i ≤ p.ulp * p.ulp * |d.f i| * |d.f (i + 1)| + p.safmin
      · rw [if_pos ht]
        simp only [wp_bind]
        exact wp_rset (by omega) ⟨rfl, .inr ⟨i, by omega, by omega, rfl, ht, fun j _ h => absurd h (by omega)⟩⟩
      · rw [if_neg ht]
        have hne : e.f i ≠ 0 := by
          intro h
          rw [h] at ht
          apply ht
          have := mul_nonneg (mul_nonneg (mul_self_nonneg p.ulp) (abs_nonneg (d.f i))) (abs_nonneg (d.f (i + 1)))
          linarith
        refine wp_mono (ih (by omega)) ?_ (fun _ _ h => h)
        rintro x ν' ⟨rfl, ⟨rfl, hx⟩ | ⟨k, a1, a2, rfl, a3, a4⟩⟩
        · refine ⟨rfl, .inl ⟨rfl, fun j g1 g2 => ?_⟩⟩
          by_cases q : j = i
          · rw [q]; exact hne
          · exact hx j g1 (by omega)
        · refine ⟨rfl, .inr ⟨k, a1, by omega, rfl, a3, fun j g1 g2 => ?_⟩⟩
          by_cases q : j = i
          · rw [q]; exact hne
          · exact a4 j g1 (by omega)
    · rw [if_neg hs]
      exact ⟨rfl, .inl ⟨rfl, fun j g1 g2 => absurd g1 (by omega)⟩⟩

/-! ### Main loop -/

/-- Failure of steqr: a division by zero, and only for order at least three. -/
abbrev DZ3 {L T : Type} (n : Nat) : Err → Store L T → Prop := fun e _ => e = .divz ∧ 3 ≤ n

structure LInv (n : Nat) (p : RotPar) (wantz : Bool) (Z : MatV L) (μ : Store L 𝕜) (d0 e0 : Nat → ℝ) (x : StqSt) (ν : Store L 𝕜) : Prop where
  dn : x.d.n = n
  en : x.e.n + 1 = n
  stop : x.istop ≤ n
  start : x.istart = 0 ∨ x.istart + 1 ≤ x.istop
  left : 0 < x.istart → x.e.f (x.istart - 1) = 0
  right : ∀ j, x.istop ≤ j + 1 → j + 1 < n → x.e.f j = 0
  q : ∃ Q, QInv n p.ulp p.safmin d0 e0 x.d.f x.e.f Q ∧ ZSt n wantz Z μ Q ν

variable {wantz : Bool} {Z : MatV L} {μ ν : Store L 𝕜} {p : RotPar}

set_option maxHeartbeats 1000000 in
theorem wp_stqIter (h1 : 0 < p.safmin) (h2 : 0 < p.safmax) (hZ : wantz = true → Z.Inj ∧ Z.n = n) {x : StqSt}
    (h : LInv n p wantz Z μ d0 e0 x ν) (hx : 1 < x.istop) :
    wp (stqIter p (fun x : ℝ => (x : 𝕜)) wantz Z x) ν (fun y ν' => LInv n p wantz Z μ d0 e0 y ν' ∧ (y.istop < x.istop ∨ 3 ≤ n)) (DZ3 n) := by
  obtain ⟨dn, en, stop, start, left, right, Q, hQ, hz⟩ := h
  unfold stqIter
  simp only [wp_bind]
  refine wp_mono (wp_stqScan h1 dn en (x.istop - 1) (by omega) (E := DZ3 n)) ?_ (fun _ _ h => h)
  rintro y ν' ⟨rfl, hy⟩
  -- uniform description of the result of the scan
  obtain ⟨istart, e, rfl, hen, hst, hleft, hright, hnz, hQ'⟩ : ∃ istart e, y = (istart, e) ∧ e.n + 1 = n ∧ istart ≤ x.istop - 1 ∧
      (0 < istart → e.f (istart - 1) = 0) ∧ (∀ j, x.istop ≤ j + 1 → j + 1 < n → e.f j = 0) ∧
      (∀ j, istart ≤ j → j < x.istop - 1 → e.f j ≠ 0) ∧ QInv n p.ulp p.safmin d0 e0 x.d.f e.f Q := by
    rcases hy with ⟨rfl, hx'⟩ | ⟨k, a1, a2, rfl, a3, a4⟩
    · exact ⟨_, _, rfl, en, by omega, left, right, hx', hQ⟩
    · refine ⟨_, _, rfl, en, by omega, fun _ => if_pos (by omega), fun j g1 g2 => ?_, fun j g1 g2 => ?_, hQ.deflate (by omega) a3⟩
      · show (if j = k then 0 else x.e.f j) = 0
        rw [if_neg (by omega)]; exact right j g1 g2
      · show (if j = k then 0 else x.e.f j) ≠ 0
        rw [if_neg (by omega)]; exact a4 j (by omega) g2
  dsimp only
  by_cases c1 : istart = x.istop - 1
  · rw [if_pos c1]
    refine ⟨⟨dn, hen, by simp; omega, .inl rfl, fun h => absurd h (by simp), fun j g1 g2 => ?_, Q, hQ', hz⟩, .inl (by simp; omega)⟩
    simp only at g1 ⊢
    by_cases q : x.istop ≤ j + 1
    · exact hright j q g2
    · rw [show j = istart - 1 by omega]; exact hleft (by omega)
  · rw [if_neg c1]
    by_cases c2 : istart + 1 = x.istop - 1
    · rw [if_pos c2]
      simp only [wp_bind]
      refine wp_mono (wp_stqTwo hZ hz dn hen (by omega) hleft (fun g => hright _ (by omega) (by omega))) ?_ (fun _ _ h => h.elim)
      rintro ⟨d', e'⟩ ν'' ⟨b1, b2, b3, G, hG, hz'⟩
      simp only at b1 b2 b3 hG hz'
      have ef : EFix istart (istart + 1) e.f e'.f := fun j hj => by rw [b3]; exact if_neg (by omega)
      refine ⟨⟨b1, b2, by simp; omega, .inl rfl, fun h => absurd h (by simp), fun j g1 g2 => ?_, Q * G,
        hQ'.sim hG (nzE_fix ef fun j g1 g2 => hnz j g1 (by omega)), hz'⟩, .inl (by simp; omega)⟩
      simp only [b3] at g1 ⊢
      split_ifs with q
      · rfl
      · by_cases q' : x.istop ≤ j + 1
        · exact hright j q' g2
        · rw [show j = istart - 1 by omega]; exact hleft (by omega)
    · rw [if_neg c2]
      simp only [wp_bind]
      refine wp_rget (by omega) (wp_rget (by omega) ?_)
      have fin : ∀ (f : Bool) (x' : RArr × RArr) (ν'' : Store L 𝕜), (x'.1.n = n ∧ x'.2.n + 1 = n ∧
          EFix istart (x.istop - 1) e.f x'.2.f ∧ ∃ G, TSim n x.d.f e.f x'.1.f x'.2.f G ∧ ZSt n wantz Z μ (Q * G) ν'') →
          LInv n p wantz Z μ d0 e0 ⟨istart, x.istop, some (istart, x.istop), f, x'.1, x'.2⟩ ν'' ∧
            ((⟨istart, x.istop, some (istart, x.istop), f, x'.1, x'.2⟩ : StqSt).istop < x.istop ∨ 3 ≤ n) := by
        rintro f ⟨d', e'⟩ ν'' ⟨b1, b2, b3, G, hG, hz'⟩
        refine ⟨⟨b1, b2, stop, .inr (by simp; omega), fun g => ?_, fun j g1 g2 => ?_, Q * G, hQ'.sim hG (nzE_fix b3 hnz), hz'⟩, .inr (by omega)⟩
        · simp only at g ⊢
          rw [b3 _ (by omega)]; exact hleft g
        · simp only at g1 ⊢
          rw [b3 _ (by omega)]; exact hright j g1 g2
      cases stqDir x istart (x.d.f istart) (x.d.f (x.istop - 1)) with
      | true =>
        rw [if_pos rfl]
        exact wp_mono (wp_stqFwd h1 h2 hZ hz dn hen (by omega) stop hleft fun g => hright _ (by omega) (by omega)) (fun x' ν'' hx' => fin _ x' ν'' hx')
          (fun _ _ h => ⟨h, by omega⟩)
      | false =>
        rw [if_neg (by simp)]
        exact wp_mono (wp_stqBwd h1 h2 hZ hz dn hen (by omega) stop hleft fun g => hright _ (by omega) (by omega)) (fun x' ν'' hx' => fin _ x' ν'' hx')
          (fun _ _ h => ⟨h, by omega⟩)

theorem wp_stqLoop (h1 : 0 < p.safmin) (h2 : 0 < p.safmax) (hZ : wantz = true → Z.Inj ∧ Z.n = n) (k : Nat) : ∀ {x : StqSt} {ν : Store L 𝕜},
    LInv n p wantz Z μ d0 e0 x ν → (x.istop ≤ k + 1 ∨ 3 ≤ n) →
    wp (stqLoop p (fun x : ℝ => (x : 𝕜)) wantz Z k x) ν (fun y ν' => LInv n p wantz Z μ d0 e0 y ν' ∧ (y.istop ≤ 1 ∨ 3 ≤ n)) (DZ3 n) := by
  induction k with
  | zero => intro x ν h hk; exact ⟨h, by omega⟩
  | succ k ih =>
    intro x ν h hk
    unfold stqLoop
    by_cases hx : x.istop ≤ 1
    · rw [if_pos hx]; exact ⟨h, .inl hx⟩
    · rw [if_neg hx]
      simp only [wp_bind]
      refine wp_mono (wp_stqIter h1 h2 hZ h (by omega)) ?_ (fun _ _ h => h)
      rintro y ν' ⟨hy, hm⟩
      exact ih hy (by omega)

end TLA
