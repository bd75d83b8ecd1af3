import Verif.Proofs.SchurBlkC
import Verif.Proofs.SchurBlkD
import Verif.SpecSchurBlk

set_option linter.unusedTactic false
set_option linter.unusedSectionVars false
set_option linter.unusedVariables false
set_option linter.unreachableTactic false
set_option linter.unusedSimpArgs false

/-! schur_swap for real matrices: the exchange of a block of order one with one of order two. -/

namespace TLA
open Matrix Finset
variable {L : Type} [DecidableEq L] {hp : HhPar}
variable {wantq : Bool} {A Q B : MatV L} {μ ν : Store L ℝ} {FA FQ G : Nat → Nat → ℝ} {n j0 n1 n2 : Nat}

theorem SwEq.ortho {A0 Q0 FA FQ FA' FQ' : Nat → Nat → ℝ} (h : SwEq wantq n A0 Q0 FA FQ) {P : Matrix (Fin n) (Fin n) ℝ} (hP : P * Pᵀ = 1)
    (ha : mat n n FA' = P * mat n n FA * Pᵀ) (hq : wantq = true → mat n n FQ' = mat n n FQ * Pᵀ) : SwEq wantq n A0 Q0 FA' FQ' := by
  obtain ⟨U, hU, hA, hQ⟩ := h
  have hP' := mul_eq_one_comm.1 hP
  simp only [Matrix.conjTranspose_eq_transpose_of_trivial] at hU hA
  refine ⟨U * Pᵀ, ?_, ?_, fun w => ?_⟩
  · simp only [Matrix.conjTranspose_eq_transpose_of_trivial, Matrix.transpose_mul, Matrix.transpose_transpose]
    rw [show P * Uᵀ * (U * Pᵀ) = P * (Uᵀ * U) * Pᵀ by simp only [Matrix.mul_assoc], hU, Matrix.mul_one, hP]
  · simp only [Matrix.conjTranspose_eq_transpose_of_trivial, Matrix.transpose_mul, Matrix.transpose_transpose]
    rw [ha, hA, show U * Pᵀ * (P * mat n n FA * Pᵀ) * (P * Uᵀ) = U * (Pᵀ * P) * mat n n FA * (Pᵀ * P) * Uᵀ by simp only [Matrix.mul_assoc],
      hP', Matrix.mul_one, Matrix.mul_one]
  · rw [hq w, hQ w, Matrix.mul_assoc]

theorem blkM_one (F G : Nat → Nat → ℝ) {j i : Nat} (h : F j j = G i i) : (blkM F j 1).charpoly = (blkM G i 1).charpoly := by
  congr 1
  ext a b
  have ha : (a : ℕ) = 0 := by omega
  have hb : (b : ℕ) = 0 := by omega
  show F (j + a) (j + b) = G (i + a) (i + b)
  rw [ha, hb]; exact h

theorem blkM_two (F G : Nat → Nat → ℝ) {j i : Nat} (h1 : F j j + F (j + 1) (j + 1) = G i i + G (i + 1) (i + 1))
    (h2 : F j j ^ 2 + 2 * (F j (j + 1) * F (j + 1) j) + F (j + 1) (j + 1) ^ 2 = G i i ^ 2 + 2 * (G i (i + 1) * G (i + 1) i) + G (i + 1) (i + 1) ^ 2) :
    (blkM F j 2).charpoly = (blkM G i 2).charpoly := SwAlg.charpoly2 h1 h2

/-- Extra work arrays. -/
structure SwRes (wantq : Bool) (A Q : MatV L) (W : L → Prop) (μ : Store L ℝ) (FA FQ : Nat → Nat → ℝ) (ν : Store L ℝ) : Prop where
  a : ∀ r c, r < A.m → c < A.n → ν (A.cell r c) = FA r c
  q : wantq = true → ∀ r c, r < Q.m → c < Q.n → ν (Q.cell r c) = FQ r c
  frame : ∀ l, ¬ A.Owns l → ¬ (wantq = true ∧ Q.Owns l) → ¬ W l → ν l = μ l

theorem SwMem.res {μ' : Store L ℝ} {W : L → Prop} (h : SwMem wantq A Q ν FA FQ μ') (hf : ∀ l, ¬ W l → ν l = μ l) : SwRes wantq A Q W μ FA FQ μ' :=
  ⟨h.a, h.q, fun l h1 h2 h3 => (h.frame l h1 h2).trans (hf l h3)⟩

theorem SwMem.self (h : SwMem wantq A Q μ FA FQ ν) : SwMem wantq A Q ν FA FQ ν := ⟨h.a, h.q, fun _ _ _ => rfl⟩

theorem SwMem.off {ν' : Store L ℝ} {B : MatV L} (h : SwMem wantq A Q μ FA FQ ν) (hA : A.Disj B) (hQ : wantq = true → Q.Disj B)
    (hf : ∀ l, ¬ B.Owns l → ν' l = ν l) : SwMem wantq A Q ν' FA FQ ν' :=
  ⟨fun r c hr hc => (hf _ (hA r c hr hc)).trans (h.a r c hr hc), fun w r c hr hc => (hf _ (hQ w r c hr hc)).trans (h.q w r c hr hc), fun _ _ _ => rfl⟩

theorem SwMem.zero (ok : SchurOK wantq A Q) (h : SwMem wantq A Q μ FA FQ ν) {r c : Nat} (hr : r < A.n) (hc : c < A.n) (z : FA r c = 0) :
    wp (A.set r c 0) ν (fun _ ν' => SwMem wantq A Q μ FA FQ ν') := by
  have k1 := ok.Am
  refine wp_conseq (wp_setM h.st ok.injA (by omega) hc 0) ?_
  intro _ ν1 h1
  refine h.setA ok (h1.congr fun i j _ _ => ?_)
  split
  · next e => rw [e.1, e.2, z]
  · rfl

/-- The values of `B` from the columns. -/
theorem wp_swB12 (k1 : A.m = A.n) (hB : B.Inj) (bm : B.m = 3) (bn : B.n = 2) (hAB : A.Disj B) (hj : j0 + 3 ≤ A.n)
    (hF : ∀ r c, r < A.m → c < A.n → ν (A.cell r c) = FA r c) :
    wp (swB12 A B j0) ν (fun _ ν' => MState B ν (fun k c => FA (j0 + k) (j0 + (c + 1)) - if k = c + 1 then FA j0 j0 else 0) ν') := by
  have h0 : MState B ν (entry ν B) ν := MState.init B ν _ (fun _ _ _ _ => rfl)
  have rd : ∀ {ν' : Store L ℝ} {F : Nat → Nat → ℝ}, MState B ν F ν' → ∀ r c, r < A.n → c < A.n → ν' (A.cell r c) = FA r c := fun h r c hr hc =>
    (h.read hAB (by omega) hc).trans (hF r c (by omega) hc)
  unfold swB12
  simp only [wp_bind]
  refine wp_getE ⟨by omega, by omega⟩ ?_
  refine wp_getE ⟨by omega, by omega⟩ ?_
  rw [rd h0 _ _ (by omega) (by omega), rd h0 _ _ (by omega) (by omega)]
  refine wp_conseq (wp_setM h0 hB (by omega) (by omega) _) ?_
  intro _ ν1 h1
  refine wp_getE ⟨by omega, by omega⟩ ?_
  rw [rd h1 _ _ (by omega) (by omega)]
  refine wp_conseq (wp_setM h1 hB (by omega) (by omega) _) ?_
  intro _ ν2 h2
  refine wp_getE ⟨by omega, by omega⟩ ?_
  rw [rd h2 _ _ (by omega) (by omega)]
  refine wp_conseq (wp_setM h2 hB (by omega) (by omega) _) ?_
  intro _ ν3 h3
  refine wp_getE ⟨by omega, by omega⟩ ?_
  rw [rd h3 _ _ (by omega) (by omega)]
  refine wp_conseq (wp_setM h3 hB (by omega) (by omega) _) ?_
  intro _ ν4 h4
  refine wp_getE ⟨by omega, by omega⟩ ?_
  rw [rd h4 _ _ (by omega) (by omega)]
  refine wp_conseq (wp_setM h4 hB (by omega) (by omega) _) ?_
  intro _ ν5 h5
  refine wp_getE ⟨by omega, by omega⟩ ?_
  rw [rd h5 _ _ (by omega) (by omega)]
  refine wp_conseq (wp_setM h5 hB (by omega) (by omega) _) ?_
  intro _ ν6 h6
  refine h6.congr fun r c hr hc => ?_
  rcases (by omega : r = 0 ∨ r = 1 ∨ r = 2) with rfl | rfl | rfl <;> rcases (by omega : c = 0 ∨ c = 1) with rfl | rfl <;> simp

theorem wp_swB21 (k1 : A.m = A.n) (hB : B.Inj) (bm : B.m = 3) (bn : B.n = 2) (hAB : A.Disj B) (hj : j0 + 3 ≤ A.n)
    (hF : ∀ r c, r < A.m → c < A.n → ν (A.cell r c) = FA r c) :
    wp (swB21 A B j0) ν (fun _ ν' => MState B ν
      (fun k c => FA (j0 + (2 - (c + 1))) (j0 + (2 - k)) - if k = c + 1 then FA (j0 + 2) (j0 + 2) else 0) ν') := by
  have h0 : MState B ν (entry ν B) ν := MState.init B ν _ (fun _ _ _ _ => rfl)
  have rd : ∀ {ν' : Store L ℝ} {F : Nat → Nat → ℝ}, MState B ν F ν' → ∀ r c, r < A.n → c < A.n → ν' (A.cell r c) = FA r c := fun h r c hr hc =>
    (h.read hAB (by omega) hc).trans (hF r c (by omega) hc)
  unfold swB21
  simp only [wp_bind]
  refine wp_getE ⟨by omega, by omega⟩ ?_
  refine wp_getE ⟨by omega, by omega⟩ ?_
  rw [rd h0 _ _ (by omega) (by omega), rd h0 _ _ (by omega) (by omega)]
  refine wp_conseq (wp_setM h0 hB (by omega) (by omega) _) ?_
  intro _ ν1 h1
  refine wp_getE ⟨by omega, by omega⟩ ?_
  rw [rd h1 _ _ (by omega) (by omega)]
  refine wp_conseq (wp_setM h1 hB (by omega) (by omega) _) ?_
  intro _ ν2 h2
  refine wp_getE ⟨by omega, by omega⟩ ?_
  rw [rd h2 _ _ (by omega) (by omega)]
  refine wp_conseq (wp_setM h2 hB (by omega) (by omega) _) ?_
  intro _ ν3 h3
  refine wp_getE ⟨by omega, by omega⟩ ?_
  rw [rd h3 _ _ (by omega) (by omega)]
  refine wp_conseq (wp_setM h3 hB (by omega) (by omega) _) ?_
  intro _ ν4 h4
  refine wp_getE ⟨by omega, by omega⟩ ?_
  rw [rd h4 _ _ (by omega) (by omega)]
  refine wp_conseq (wp_setM h4 hB (by omega) (by omega) _) ?_
  intro _ ν5 h5
  refine wp_getE ⟨by omega, by omega⟩ ?_
  rw [rd h5 _ _ (by omega) (by omega)]
  refine wp_conseq (wp_setM h5 hB (by omega) (by omega) _) ?_
  intro _ ν6 h6
  refine h6.congr fun r c hr hc => ?_
  rcases (by omega : r = 0 ∨ r = 1 ∨ r = 2) with rfl | rfl | rfl <;> rcases (by omega : c = 0 ∨ c = 1) with rfl | rfl <;> simp

theorem swP_zero {l : Nat} (hl : 0 < l) {g : (Nat → ℝ) × ℝ × (Nat → ℝ) × ℝ} {y : Nat → ℝ} {k : Nat} (hk : k < l)
    (h : swP l g.1 g.2.1 g.2.2.1 g.2.2.2 y k = 0) : (swM l g.1 g.2.1 g.2.2.1 g.2.2.2).mulVec (vec l y) ⟨k, hk⟩ = 0 := by
  rw [← swP_mulVec hl]; exact h

theorem sum_bound {l : Nat} {y : Nat → ℝ} {t c : ℝ} (hc : 0 ≤ c) (h : ∀ k, k < l → |y k| ≤ c) (ht : (l : ℝ) * c ^ 2 ≤ t ^ 2) :
    ∑ k ∈ range l, y k ^ 2 ≤ t ^ 2 := by
  refine le_trans (sum_le_card_nsmul _ _ (c ^ 2) fun k hk => ?_) ?_
  · rw [← sq_abs]
    exact pow_le_pow_left₀ (abs_nonneg _) (h k (mem_range.1 hk)) 2
  · simpa using ht

theorem win_mat (F : Nat → Nat → ℝ) (ι : Nat → Nat) (l : Nat) {K : Matrix (Fin l) (Fin l) ℝ} (h : mat l l (fun r c => F (ι r) (ι c)) = K) (a b : Fin l) :
    K a b = F (ι a) (ι b) := by rw [← h]; rfl

end TLA
