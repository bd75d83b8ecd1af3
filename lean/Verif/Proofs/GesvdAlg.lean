import Verif.Proofs.SvdEnd
import Verif.Proofs.Embed
import Verif.Proofs.FrobM
set_option linter.unusedTactic false
set_option linter.unusedVariables false
set_option linter.unusedSimpArgs false
set_option linter.unreachableTactic false
set_option linter.unusedSectionVars false

/-! # gesvd: putting the factors together -/

namespace TLA
open Finset Matrix
variable {L 𝕜 : Type} [DecidableEq L] [RCLike 𝕜] [DecidableEq 𝕜]
variable {m n k : Nat}

theorem frobM_unitary2 {U : Matrix (Fin m) (Fin m) 𝕜} {Z : Matrix (Fin n) (Fin n) 𝕜} (h : Uᴴ * U = 1) (hz : Z * Zᴴ = 1)
    (A : Matrix (Fin m) (Fin n) 𝕜) : frobM (U * A * Z) = frobM A := by
  refine (pow_left_inj₀ (frobM_nonneg _) (frobM_nonneg _) two_ne_zero).1 ?_
  refine RCLike.ofReal_injective (K := 𝕜) ?_
  rw [frobM_trace, frobM_trace, conjTranspose_mul, conjTranspose_mul]
  rw [show Zᴴ * (Aᴴ * Uᴴ) * (U * A * Z) = Zᴴ * (Aᴴ * ((Uᴴ * U) * (A * Z))) by simp only [Matrix.mul_assoc], h,
    Matrix.one_mul, trace_mul_comm]
  rw [show Aᴴ * (A * Z) * Zᴴ = Aᴴ * A * (Z * Zᴴ) by simp only [Matrix.mul_assoc], hz, Matrix.mul_one]

/-- A square matrix in the leading block of a larger one. -/
def padM (m n : Nat) (M : Matrix (Fin k) (Fin k) 𝕜) : Matrix (Fin m) (Fin n) 𝕜 :=
  mat m n fun i j => if i < k ∧ j < k then toF M i j else 0

theorem padM_add (M N : Matrix (Fin k) (Fin k) 𝕜) : padM m n (M + N) = padM m n M + padM m n N := by
  ext i j
  simp only [padM, mat, of_apply, Matrix.add_apply, toF]
  split_ifs <;> simp

theorem padM_left (hk : k ≤ m) (P M : Matrix (Fin k) (Fin k) 𝕜) : padM m n (P * M) = emb m 0 P * padM m n M := by
  unfold padM
  rw [emb_mul_mat (by omega)]
  refine mat_ext_iff.2 fun r c hr hc => ?_
  by_cases q : r < k
  · rw [if_pos (show 0 ≤ r ∧ r < 0 + k by omega)]
    by_cases q2 : c < k
    · rw [if_pos ⟨q, q2⟩, toF_mul _ _ q q2]
      refine Finset.sum_congr rfl fun s hs => ?_
      rw [mem_range] at hs
      rw [if_pos (by omega), Nat.sub_zero, Nat.zero_add]
    · rw [if_neg (fun h => q2 h.2)]
      symm
      exact Finset.sum_eq_zero fun s hs => by rw [if_neg (fun h => q2 h.2), mul_zero]
  · rw [if_neg (fun h => q h.1), if_neg (show ¬ (0 ≤ r ∧ r < 0 + k) by omega), if_neg (fun h => q h.1)]

theorem mul_emb_mat (hk : k ≤ n) (M : Matrix (Fin k) (Fin k) 𝕜) (X : Nat → Nat → 𝕜) :
    mat m n X * emb n 0 M = mat m n fun r c => if c < k then ∑ s ∈ range k, X r s * toF M s c else X r c := by
  unfold emb
  rw [mat_mul]
  refine mat_ext_iff.2 fun r c hr hc => ?_
  by_cases q : c < k
  · rw [if_pos q]
    symm
    refine Finset.sum_subset_zero_on_sdiff (fun s hs => ?_) (fun s hs => ?_) fun s hs => ?_
    · rw [mem_range] at hs ⊢; omega
    · simp only [mem_sdiff, mem_range] at hs
      rw [if_neg (by omega), if_neg (by omega), mul_zero]
    · rw [mem_range] at hs
      rw [if_pos (by omega)]; rfl
  · rw [if_neg q, Finset.sum_eq_single c]
    · rw [if_neg (by omega), if_pos rfl, mul_one]
    · intro s hs hne
      rw [if_neg (by omega), if_neg (by omega), mul_zero]
    · intro h'; exact absurd (mem_range.2 hc) h'

theorem padM_right (hk : k ≤ n) (M R : Matrix (Fin k) (Fin k) 𝕜) : padM m n (M * R) = padM m n M * emb n 0 R := by
  unfold padM
  rw [mul_emb_mat hk]
  refine mat_ext_iff.2 fun r c hr hc => ?_
  by_cases q : c < k
  · rw [if_pos q]
    by_cases q2 : r < k
    · rw [if_pos ⟨q2, q⟩, toF_mul _ _ q2 q]
      refine Finset.sum_congr rfl fun s hs => ?_
      rw [mem_range] at hs
      rw [if_pos (by omega)]
    · rw [if_neg (fun h => q2 h.1)]
      symm
      exact Finset.sum_eq_zero fun s hs => by rw [if_neg (fun h => q2 h.1), zero_mul]
  · rw [if_neg (fun h => q h.2), if_neg q, if_neg (fun h => q h.2)]

theorem frobM_pad (hm : k ≤ m) (hn : k ≤ n) (M : Matrix (Fin k) (Fin k) ℝ) : frobM (padM m n (emb𝕜 𝕜 M)) = frobN M := by
  unfold padM
  rw [frobM_mat]
  unfold frobN
  congr 1
  unfold frobSq
  have e1 : ∑ i : Fin k, ∑ j : Fin k, M i j ^ 2 = ∑ i ∈ range k, ∑ j ∈ range k, ‖toF (emb𝕜 𝕜 M) i j‖ ^ 2 := by
    rw [Finset.sum_range]
    refine Finset.sum_congr rfl fun i _ => ?_
    rw [Finset.sum_range]
    refine Finset.sum_congr rfl fun j _ => ?_
    simp [toF, i.2, j.2, sq_abs]
  rw [e1]
  symm
  refine Finset.sum_subset_zero_on_sdiff (fun s hs => ?_) (fun s hs => ?_) fun s hs => ?_
  · rw [mem_range] at hs ⊢; omega
  · simp only [mem_sdiff, mem_range] at hs
    exact Finset.sum_eq_zero fun j hj => by beta_reduce; rw [if_neg (fun h => hs.2 h.1)]; simp
  · rw [mem_range] at hs
    refine Finset.sum_subset_zero_on_sdiff (fun t ht => ?_) (fun t ht => ?_) fun t ht => ?_
    · rw [mem_range] at ht ⊢; omega
    · simp only [mem_sdiff, mem_range] at ht
      beta_reduce; rw [if_neg (fun h => ht.2 h.2)]; simp
    · rw [mem_range] at ht
      beta_reduce; rw [if_pos ⟨hs, ht⟩]

theorem emb_unitary (hk : k ≤ m) {P : Matrix (Fin k) (Fin k) ℝ} (h : Pᵀ * P = 1) :
    (emb m 0 (emb𝕜 𝕜 P))ᴴ * emb m 0 (emb𝕜 𝕜 P) = 1 := by
  rw [← emb_conjTranspose, ← emb_mul (by omega)]
  have : (emb𝕜 𝕜 P)ᴴ = emb𝕜 𝕜 Pᵀ := by ext i j; simp [conjTranspose_apply]
  rw [this, ← embR_mul, h, embR_one, emb_one]

theorem pad_fun (F : Nat → Nat → ℝ) : padM m n (emb𝕜 𝕜 (mat k k F)) = mat m n fun i j => if i < k ∧ j < k then ((F i j : ℝ) : 𝕜) else 0 := by
  refine mat_ext_iff.2 fun i j hi hj => ?_
  by_cases q : i < k ∧ j < k
  · rw [if_pos q, if_pos q]
    simp [toF, q.1, q.2, mat]
  · rw [if_neg q, if_neg q]

/-- The factors of the reduction and of svd_qr give those of the matrix. -/
theorem gesvd_combine {eps safmin : ℝ} {wu wv lower : Bool} {U V : MatV L} {A : Matrix (Fin m) (Fin n) 𝕜} {d e d' e' : Nat → ℝ}
    {μ ν : Store L 𝕜} {Q : Matrix (Fin m) (Fin m) 𝕜} {Z : Matrix (Fin n) (Fin n) 𝕜} (hQ : Qᴴ * Q = 1) (hZ : Zᴴ * Z = 1) (hk : k = min m n)
    (hA : A = Q * mat m n (fun i j => if i < k ∧ j < k then ((bidR lower d e i j : ℝ) : 𝕜) else 0) * Z)
    (hB : BidOK k eps safmin wu wv U V μ (mat k k (bidR lower d e)) d' e' ν)
    (hU : wu = true → U.Inj ∧ U.m = m ∧ k ≤ U.n ∧ ∀ i j : Fin m, (j : Nat) < U.n → entry μ U i j = Q i j)
    (hV : wv = true → V.Inj ∧ V.n = n ∧ k ≤ V.m ∧ ∀ i j : Fin n, (i : Nat) < V.m → entry μ V i j = Z i j)
    (hD : wu = true → wv = true → U.Disj V) : GesvdOK m n eps safmin wu wv U V A d' e' ν := by
  subst hk
  obtain ⟨P, R, E, δ1, δ2, oP, oR, eB, nE, b1, b2, uU, uV, fr⟩ := hB
  have hm : min m n ≤ m := min_le_left _ _
  have hn : min m n ≤ n := min_le_right _ _
  have oR' : Rᵀ * R = 1 := mul_eq_one_comm.1 oR
  have hZ' : Z * Zᴴ = 1 := mul_eq_one_comm.1 hZ
  rw [← pad_fun] at hA
  have nA : frobM A = frobN (mat (min m n) (min m n) (bidR lower d e)) := by
    rw [hA, frobM_unitary2 hQ hZ', frobM_pad hm hn]
  have d1 : ∀ δ : Fin (min m n) → ℝ, (∀ i, 0 < δ i ∧ |δ i ^ 2 - 1| ≤ 2 * eps ^ 2) → ∀ i : Nat,
      0 < (if h : i < min m n then δ ⟨i, h⟩ else 1) ∧ |(if h : i < min m n then δ ⟨i, h⟩ else 1) ^ 2 - 1| ≤ 2 * eps ^ 2 := by
    intro δ hδ i
    by_cases q : i < min m n
    · simp only [dif_pos q]; exact hδ _
    · simp only [dif_neg q]; exact ⟨one_pos, by simp; positivity⟩
  refine ⟨Q * emb m 0 (emb𝕜 𝕜 P), emb n 0 (emb𝕜 𝕜 R) * Z, Q * padM m n (emb𝕜 𝕜 E) * Z, fun i => if h : i < min m n then δ1 ⟨i, h⟩ else 1,
    fun i => if h : i < min m n then δ2 ⟨i, h⟩ else 1, ?_, ?_, ?_, ?_, d1 δ1 b1, d1 δ2 b2, fun hw i j hj => ?_, fun hw i j hj => ?_⟩
  · rw [conjTranspose_mul, Matrix.mul_assoc, ← Matrix.mul_assoc Qᴴ, hQ, Matrix.one_mul, emb_unitary hm oP]
  · rw [conjTranspose_mul, Matrix.mul_assoc, ← Matrix.mul_assoc _ _ Z, emb_unitary hn oR', Matrix.one_mul, hZ]
  · have e1 : padM m n (emb𝕜 𝕜 (mat (min m n) (min m n) (bidR lower d e))) + padM m n (emb𝕜 𝕜 E) =
        emb m 0 (emb𝕜 𝕜 P) * padM m n (emb𝕜 𝕜 (mat (min m n) (min m n) (bidR false d' e'))) * emb n 0 (emb𝕜 𝕜 R) := by
      rw [← padM_left hm, ← padM_right hn, ← embR_mul, ← embR_mul, ← eB, ← padM_add]
      congr 1
      ext i j; simp
    rw [hA, ← pad_fun, ← Matrix.add_mul, ← Matrix.mul_add, e1]
    simp only [Matrix.mul_assoc]
  · rw [frobM_unitary2 hQ hZ', frobM_pad hm hn, nA]
    exact nE
  · obtain ⟨iU, mU, kU, vU⟩ := hU hw
    have e1 : (Q * emb m 0 (emb𝕜 𝕜 P)) i j = if (j : Nat) < min m n then ∑ s ∈ range (min m n), toF Q i s * toF (emb𝕜 𝕜 P) s j else toF Q i j := by
      conv_lhs => rw [← mat_toF Q]
      rw [mul_emb_mat hm]
      rfl
    rw [e1]
    beta_reduce
    by_cases q : (j : Nat) < min m n
    · rw [if_pos q, dif_pos q]
      have := congrFun (congrFun (uU hw) ⟨i, by omega⟩) ⟨j, q⟩
      rw [mul_apply] at this
      simp only [mat, of_apply, map_apply, mul_diagonal] at this
      rw [this, Finset.sum_range, Finset.sum_mul]
      refine Finset.sum_congr rfl fun s _ => ?_
      rw [vU i ⟨s, by omega⟩ (by simp only; omega)]
      have hs : (s : Nat) < m := by omega
      rw [show toF Q i s = Q i ⟨s, hs⟩ from dif_pos ⟨i.2, hs⟩,
        show toF (emb𝕜 𝕜 P) s j = ((P s ⟨j, q⟩ : ℝ) : 𝕜) from dif_pos ⟨s.2, q⟩]
      push_cast
      ring
    · rw [if_neg q, dif_neg q]
      have : entry ν U i j = entry μ U i j := by
        refine fr _ ?_ ?_
        · rintro ⟨-, a, b, ha, hb, ec⟩
          exact q (by rw [← (iU _ _ _ _ ha (lt_of_lt_of_le hb kU) (by rw [mU]; exact i.2) hj ec).2]; exact hb)
        · rintro ⟨hv, ho⟩
          exact hD hw hv i j (by rw [mU]; exact i.2) hj (MatV.firstRows_own (hV hv).2.2.1 ho)
      rw [this, vU i j hj]
      simp [toF]
  · obtain ⟨iV, nV, kV, vV⟩ := hV hw
    have e1 : (emb n 0 (emb𝕜 𝕜 R) * Z) i j = if (i : Nat) < min m n then ∑ s ∈ range (min m n), toF (emb𝕜 𝕜 R) i s * toF Z s j else toF Z i j := by
      conv_lhs => rw [← mat_toF Z]
      rw [emb_mul_mat (by omega)]
      show (if 0 ≤ (i : Nat) ∧ (i : Nat) < 0 + min m n then _ else _) = _
      by_cases q : (i : Nat) < min m n
      · rw [if_pos (by omega), if_pos q]
        refine Finset.sum_congr rfl fun s _ => ?_
        rw [Nat.sub_zero, Nat.zero_add]
      · rw [if_neg (by omega), if_neg q]
    rw [e1]
    beta_reduce
    by_cases q : (i : Nat) < min m n
    · rw [if_pos q, dif_pos q]
      have := congrFun (congrFun (uV hw) ⟨i, q⟩) ⟨j, by omega⟩
      rw [mul_apply] at this
      simp only [mat, of_apply, map_apply, diagonal_mul] at this
      rw [this, Finset.sum_range, Finset.mul_sum]
      refine Finset.sum_congr rfl fun s _ => ?_
      rw [vV ⟨s, by omega⟩ j (by simp only; omega)]
      have hs : (s : Nat) < n := by omega
      rw [show toF Z s j = Z ⟨s, hs⟩ j from dif_pos ⟨hs, j.2⟩,
        show toF (emb𝕜 𝕜 R) i s = ((R ⟨i, q⟩ s : ℝ) : 𝕜) from dif_pos ⟨q, s.2⟩]
      push_cast
      ring
    · rw [if_neg q, dif_neg q]
      have : entry ν V i j = entry μ V i j := by
        refine fr _ ?_ ?_
        · rintro ⟨hu, ho⟩
          obtain ⟨a, b, ha, hb, ec⟩ := MatV.firstCols_own (hU hu).2.2.1 ho
          exact hD hu hw a b ha hb ⟨i, j, hj, by rw [nV]; exact j.2, ec.symm⟩
        · rintro ⟨-, a, b, ha, hb, ec⟩
          exact q (by rw [← (iV _ _ _ _ (lt_of_lt_of_le ha kV) hb hj (by rw [nV]; exact j.2) ec).1]; exact ha)
      rw [this, vV i j hj]
      simp [toF]

end TLA
