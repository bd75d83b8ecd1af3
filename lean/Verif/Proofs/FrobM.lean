import Verif.Proofs.Schur
import Verif.Proofs.TwoSide
import Mathlib.Analysis.InnerProductSpace.PiL2

/-! Frobenius norm, similarity up to a perturbation. -/

set_option linter.unusedTactic false
set_option linter.unusedSectionVars false
set_option linter.unusedVariables false
set_option linter.unreachableTactic false
set_option linter.unusedSimpArgs false

namespace TLA
open Matrix Finset
variable {𝕜 : Type} [RCLike 𝕜] {m n : Nat}

theorem frobM_nonneg (A : Matrix (Fin m) (Fin n) 𝕜) : 0 ≤ frobM A := Real.sqrt_nonneg _

theorem frobM_eq (A : Matrix (Fin m) (Fin n) 𝕜) :
    frobM A = ‖(WithLp.toLp 2 (fun x : Fin m × Fin n => A x.1 x.2) : EuclideanSpace 𝕜 (Fin m × Fin n))‖ := by
  rw [EuclideanSpace.norm_eq]
  unfold frobM
  congr 1
  rw [Fintype.sum_prod_type]

theorem frobM_add_le (A B : Matrix (Fin m) (Fin n) 𝕜) : frobM (A + B) ≤ frobM A + frobM B := by
  rw [frobM_eq, frobM_eq, frobM_eq]
  exact norm_add_le (WithLp.toLp 2 (fun x : Fin m × Fin n => A x.1 x.2) : EuclideanSpace 𝕜 (Fin m × Fin n))
    (WithLp.toLp 2 (fun x : Fin m × Fin n => B x.1 x.2))

theorem frobM_mono {A B : Matrix (Fin m) (Fin n) 𝕜} (h : ∀ i j, ‖A i j‖ ≤ ‖B i j‖) : frobM A ≤ frobM B :=
  Real.sqrt_le_sqrt (Finset.sum_le_sum fun i _ => Finset.sum_le_sum fun j _ =>
    pow_le_pow_left₀ (norm_nonneg _) (h i j) 2)

theorem frobM_mat (G : Nat → Nat → 𝕜) : frobM (mat m n G) = Real.sqrt (frobSq m n G) := by
  unfold frobM frobSq
  congr 1
  rw [← Fin.sum_univ_eq_sum_range (fun r => ∑ c ∈ range n, ‖G r c‖ ^ 2) m]
  refine Finset.sum_congr rfl fun i _ => ?_
  rw [← Fin.sum_univ_eq_sum_range (fun c => ‖G i c‖ ^ 2) n]
  rfl

theorem frobM_sq (A : Matrix (Fin m) (Fin n) 𝕜) : frobM A ^ 2 = ∑ i, ∑ j, ‖A i j‖ ^ 2 :=
  Real.sq_sqrt (Finset.sum_nonneg fun _ _ => Finset.sum_nonneg fun _ _ => sq_nonneg _)

theorem frobM_entry (A : Matrix (Fin m) (Fin n) 𝕜) (i : Fin m) (j : Fin n) : ‖A i j‖ ≤ frobM A := by
  refine le_of_sq_le_sq ?_ (frobM_nonneg A)
  rw [frobM_sq]
  refine le_trans ?_ (Finset.single_le_sum (f := fun i => ∑ j, ‖A i j‖ ^ 2) (fun _ _ => Finset.sum_nonneg fun _ _ => sq_nonneg _) (Finset.mem_univ i))
  exact Finset.single_le_sum (f := fun j => ‖A i j‖ ^ 2) (fun _ _ => sq_nonneg _) (Finset.mem_univ j)

theorem frobM_trace (A : Matrix (Fin m) (Fin n) 𝕜) : ((frobM A ^ 2 : ℝ) : 𝕜) = (Aᴴ * A).trace := by
  rw [frobM_sq, Finset.sum_comm]
  push_cast
  unfold Matrix.trace
  refine Finset.sum_congr rfl fun c _ => ?_
  rw [diag_apply, mul_apply]
  refine Finset.sum_congr rfl fun r _ => ?_
  rw [conjTranspose_apply]
  show _ = (starRingEnd 𝕜) (A r c) * A r c
  rw [RCLike.conj_mul]

theorem frobM_unitary {U : Matrix (Fin n) (Fin n) 𝕜} (h : Uᴴ * U = 1) (A : Matrix (Fin n) (Fin n) 𝕜) :
    frobM (U * A * Uᴴ) = frobM A := by
  refine (pow_left_inj₀ (frobM_nonneg _) (frobM_nonneg _) two_ne_zero).1 ?_
  refine RCLike.ofReal_injective (K := 𝕜) ?_
  rw [frobM_trace, frobM_trace, conjTranspose_mul, conjTranspose_mul, conjTranspose_conjTranspose]
  rw [show U * (Aᴴ * Uᴴ) * (U * A * Uᴴ) = U * (Aᴴ * ((Uᴴ * U) * (A * Uᴴ))) by simp only [Matrix.mul_assoc], h,
    Matrix.one_mul, trace_mul_comm]
  rw [show Aᴴ * (A * Uᴴ) * U = Aᴴ * A * (Uᴴ * U) by simp only [Matrix.mul_assoc], h, Matrix.mul_one]

theorem frobM_single {a b : Nat} (x : 𝕜) :
    frobM (mat m n (fun r c => if r = a ∧ c = b then x else 0)) ≤ ‖x‖ := by
  refine le_of_sq_le_sq ?_ (norm_nonneg _)
  rw [frobM_sq]
  by_cases ha : a < m
  · by_cases hb : b < n
    · rw [Finset.sum_eq_single (⟨a, ha⟩ : Fin m), Finset.sum_eq_single (⟨b, hb⟩ : Fin n)]
      · simp [mat]
      · intro c _ hc
        have : ¬ (c : Nat) = b := fun h => hc (Fin.ext h)
        simp [mat, this]
      · simp
      · intro r _ hr
        have : ¬ (r : Nat) = a := fun h => hr (Fin.ext h)
        simp [mat, this]
      · simp
    · refine le_trans (le_of_eq (Finset.sum_eq_zero fun r _ => Finset.sum_eq_zero fun c _ => ?_)) (sq_nonneg _)
      have : ¬ (c : Nat) = b := fun h => hb (h ▸ c.2)
      simp [mat, this]
  · refine le_trans (le_of_eq (Finset.sum_eq_zero fun r _ => Finset.sum_eq_zero fun c _ => ?_)) (sq_nonneg _)
    have : ¬ (r : Nat) = a := fun h => ha (h ▸ r.2)
    simp [mat, this]

/-- Unitary similarity to the input up to a perturbation of Frobenius norm at most `ε`. -/
def SwErr (wantq : Bool) (n : Nat) (A0 Q0 FA FQ : Nat → Nat → 𝕜) (ε : ℝ) : Prop :=
  ∃ U : Matrix (Fin n) (Fin n) 𝕜, Uᴴ * U = 1 ∧ frobM (mat n n A0 - U * mat n n FA * Uᴴ) ≤ ε ∧
    (wantq = true → mat n n FQ = mat n n Q0 * U)

variable {wantq : Bool} {A0 Q0 FA FQ F FA' FQ' : Nat → Nat → 𝕜} {ε δ : ℝ}

theorem SwErr.start : SwErr wantq n A0 Q0 A0 Q0 0 := by
  refine ⟨1, by simp, ?_, by simp⟩
  simp [frobM]

/-- A further exact unitary similarity by `G`. -/
theorem SwErr.sim (h : SwErr wantq n A0 Q0 FA FQ ε) {G : Matrix (Fin n) (Fin n) 𝕜} (hG : Gᴴ * G = 1)
    (ha : mat n n FA' = G * mat n n FA * Gᴴ) (hq : wantq = true → mat n n FQ' = mat n n FQ * Gᴴ) :
    SwErr wantq n A0 Q0 FA' FQ' ε := by
  obtain ⟨U, hU, hA, hQ⟩ := h
  have hG' := mul_eq_one_comm.1 hG
  refine ⟨U * Gᴴ, ?_, ?_, fun w => ?_⟩
  · rw [conjTranspose_mul, conjTranspose_conjTranspose, Matrix.mul_assoc, ← Matrix.mul_assoc Uᴴ, hU, Matrix.one_mul, hG']
  · have e : U * Gᴴ * (G * mat n n FA * Gᴴ) * (U * Gᴴ)ᴴ = U * mat n n FA * Uᴴ := by
      rw [conjTranspose_mul, conjTranspose_conjTranspose]
      calc U * Gᴴ * (G * mat n n FA * Gᴴ) * (G * Uᴴ) = U * (Gᴴ * G) * mat n n FA * (Gᴴ * G) * Uᴴ := by
            simp only [Matrix.mul_assoc]
        _ = _ := by rw [hG]; simp
    rw [ha, e]; exact hA
  · rw [hq w, hQ w, Matrix.mul_assoc]

/-- A perturbation of the current matrix. -/
theorem SwErr.pert (h : SwErr wantq n A0 Q0 FA FQ ε) (hd : frobM (mat n n FA - mat n n FA') ≤ δ) :
    SwErr wantq n A0 Q0 FA' FQ (ε + δ) := by
  obtain ⟨U, hU, hA, hQ⟩ := h
  refine ⟨U, hU, ?_, hQ⟩
  have e : mat n n A0 - U * mat n n FA' * Uᴴ = (mat n n A0 - U * mat n n FA * Uᴴ) +
      U * (mat n n FA - mat n n FA') * Uᴴ := by
    rw [Matrix.mul_sub, Matrix.sub_mul]; abel
  rw [e]
  refine le_trans (frobM_add_le _ _) (add_le_add hA ?_)
  rw [frobM_unitary hU]; exact hd

theorem SwErr.mono (h : SwErr wantq n A0 Q0 FA FQ ε) (hd : ε ≤ δ) : SwErr wantq n A0 Q0 FA FQ δ := by
  obtain ⟨U, hU, hA, hQ⟩ := h
  exact ⟨U, hU, hA.trans hd, hQ⟩

theorem SwErr.congr (h : SwErr wantq n A0 Q0 FA FQ ε)
    (e : ∀ r c, r < n → c < n → FA r c = FA' r c) (e' : wantq = true → ∀ r c, r < n → c < n → FQ r c = FQ' r c) :
    SwErr wantq n A0 Q0 FA' FQ' ε := by
  obtain ⟨U, hU, ha, hq⟩ := h
  refine ⟨U, hU, ?_, fun w => ?_⟩
  · rw [← mat_ext_iff.2 fun i j hi hj => e i j hi hj]; exact ha
  · rw [← hq w, mat_ext_iff.2 fun i j hi hj => e' w i j hi hj]

theorem simRot_mat {p q : Nat} (hp : p < n) (hq : q < n) (hpq : p ≠ q) {c s : 𝕜} (hr : IsRot c s) (F : Nat → Nat → 𝕜) :
    mat n n (simRot p q c s F) = rotMat n p q c s * mat n n F * (rotMat n p q c s)ᴴ := by
  unfold simRot
  rw [mat_rowMap_rot hp hq hpq, rotMat_transpose_star hpq hr.1, mat_colMap_rot hp hq hpq]

theorem SwErr.rot (h : SwErr wantq n A0 Q0 FA FQ ε) {p q : Nat} (hp : p < n) (hq : q < n) (hpq : p ≠ q) {c s : 𝕜}
    (hr : IsRot c s) :
    SwErr wantq n A0 Q0 (simRot p q c s FA) (rowMap (pairRot p q c (star s)) FQ) ε :=
  h.sim (rotMat_unitary hp hq hpq hr) (simRot_mat hp hq hpq hr FA) fun w => by
    rw [mat_rowMap_rot hp hq hpq, rotMat_transpose_star hpq hr.1]

theorem frobM_simRot {p q : Nat} (hp : p < n) (hq : q < n) (hpq : p ≠ q) {c s : 𝕜} (hr : IsRot c s)
    (F : Nat → Nat → 𝕜) : frobM (mat n n (simRot p q c s F)) = frobM (mat n n F) := by
  rw [simRot_mat hp hq hpq hr, frobM_unitary (rotMat_unitary hp hq hpq hr)]

/-- Replacing one entry by zero. -/
theorem zeroEntry {a b : Nat} (hF : ∀ r c, r < n → c < n → FA' r c = if r = a ∧ c = b then 0 else FA r c) :
    frobM (mat n n FA - mat n n FA') ≤ ‖FA a b‖ ∧ frobM (mat n n FA') ≤ frobM (mat n n FA) := by
  constructor
  · have e : mat n n FA - mat n n FA' = mat n n (fun r c => if r = a ∧ c = b then FA a b else 0) := by
      ext i j
      simp only [mat, of_apply, Matrix.sub_apply]
      rw [hF i j i.2 j.2]
      by_cases h : (i : Nat) = a ∧ (j : Nat) = b
      · rw [if_pos h, if_pos h, h.1, h.2, sub_zero]
      · rw [if_neg h, if_neg h, sub_self]
    rw [e]; exact frobM_single _
  · refine frobM_mono fun i j => ?_
    simp only [mat, of_apply]
    rw [hF i j i.2 j.2]
    split
    · simp
    · exact le_rfl

end TLA
