import Verif.Proofs.Gghrd
import Verif.Model.Schur
import Verif.SpecSchur

/-! schur_swap, schur_move: 1×1 blocks. -/

set_option linter.unusedTactic false
set_option linter.unusedSectionVars false
set_option linter.unusedVariables false
set_option linter.unreachableTactic false
set_option linter.unusedSimpArgs false

namespace TLA
open Matrix Finset
variable {L T : Type} [DecidableEq L] [Field T] [StarRing T] [DecidableEq T]

/-- What is in memory. -/
structure SwMem (wantq : Bool) (A Q : MatV L) (μ : Store L T) (FA FQ : Nat → Nat → T) (ν : Store L T) : Prop where
  a : ∀ r c, r < A.m → c < A.n → ν (A.cell r c) = FA r c
  q : wantq = true → ∀ r c, r < Q.m → c < Q.n → ν (Q.cell r c) = FQ r c
  frame : ∀ l, ¬ A.Owns l → ¬ (wantq = true ∧ Q.Owns l) → ν l = μ l

variable {o : RotOps T} {wantq : Bool} {A Q : MatV L} {μ ν ν' : Store L T} {FA FQ F : Nat → Nat → T}

theorem SwMem.setA (ok : SchurOK wantq A Q) (h : SwMem wantq A Q μ FA FQ ν)
    (g : MState A ν F ν') : SwMem wantq A Q μ F FQ ν' :=
  ⟨g.val, fun w r c hr hc => (g.read (ok.AQ w).sy hr hc).trans (h.q w r c hr hc),
    fun l h1 h3 => (g.frame l h1).trans (h.frame l h1 h3)⟩

theorem SwMem.setQ (ok : SchurOK wantq A Q) (w : wantq = true) (h : SwMem wantq A Q μ FA FQ ν)
    (g : MState Q ν F ν') : SwMem wantq A Q μ FA F ν' :=
  ⟨fun r c hr hc => (g.read (ok.AQ w) hr hc).trans (h.a r c hr hc), fun _ => g.val,
    fun l h1 h3 => (g.frame l (fun h => h3 ⟨w, h⟩)).trans (h.frame l h1 h3)⟩

theorem SwMem.st (h : SwMem wantq A Q μ FA FQ ν) : MState A ν FA ν := ⟨h.a, fun _ _ => rfl⟩

theorem SwMem.congr (h : SwMem wantq A Q μ FA FQ ν) (e : ∀ r c, r < A.m → c < A.n → FA r c = F r c) :
    SwMem wantq A Q μ F FQ ν :=
  ⟨fun r c hr hc => (h.a r c hr hc).trans (e r c hr hc), h.q, h.frame⟩

/-- The similarity with the input. -/
def SwEq (wantq : Bool) (n : Nat) (A0 Q0 FA FQ : Nat → Nat → T) : Prop :=
  ∃ U : Matrix (Fin n) (Fin n) T, Uᴴ * U = 1 ∧ mat n n A0 = U * mat n n FA * Uᴴ ∧
    (wantq = true → mat n n FQ = mat n n Q0 * U)

/-- Similarity by a rotation. -/
def simRot (p q : Nat) (c s : T) (F : Nat → Nat → T) : Nat → Nat → T :=
  rowMap (pairRot p q c (star s)) (colMap (pairRot p q c s) F)

theorem SwEq.rot {n : Nat} {A0 Q0 : Nat → Nat → T} (h : SwEq wantq n A0 Q0 FA FQ) {p q : Nat} (hp : p < n) (hq : q < n)
    (hpq : p ≠ q) {c s : T} (hr : IsRot c s) :
    SwEq wantq n A0 Q0 (simRot p q c s FA) (rowMap (pairRot p q c (star s)) FQ) := by
  obtain ⟨U, hU, ha, hq'⟩ := h
  have hg := rotMat_unitary hp hq hpq hr
  have hg' := mul_eq_one_comm.1 hg
  refine ⟨U * (rotMat n p q c s)ᴴ, ?_, ?_, ?_⟩
  · rw [conjTranspose_mul, conjTranspose_conjTranspose, Matrix.mul_assoc, ← Matrix.mul_assoc Uᴴ, hU, Matrix.one_mul, hg']
  · unfold simRot
    rw [mat_rowMap_rot hp hq hpq, rotMat_transpose_star hpq hr.1, mat_colMap_rot hp hq hpq, conjTranspose_mul,
      conjTranspose_conjTranspose, ha]
    calc U * mat n n FA * Uᴴ = U * ((rotMat n p q c s)ᴴ * rotMat n p q c s) * mat n n FA *
          ((rotMat n p q c s)ᴴ * rotMat n p q c s) * Uᴴ := by rw [hg]; simp
      _ = _ := by simp only [Matrix.mul_assoc]
  · intro w
    rw [mat_rowMap_rot hp hq hpq, rotMat_transpose_star hpq hr.1, hq' w, Matrix.mul_assoc]

theorem SwEq.congr {n : Nat} {A0 Q0 FA' FQ' : Nat → Nat → T} (h : SwEq wantq n A0 Q0 FA FQ)
    (e : ∀ r c, r < n → c < n → FA r c = FA' r c) (e' : wantq = true → ∀ r c, r < n → c < n → FQ r c = FQ' r c) :
    SwEq wantq n A0 Q0 FA' FQ' := by
  obtain ⟨U, hU, ha, hq⟩ := h
  refine ⟨U, hU, ?_, fun w => ?_⟩
  · rw [ha, mat_ext_iff.2 fun i j hi hj => e i j hi hj]
  · rw [← hq w, mat_ext_iff.2 fun i j hi hj => e' w i j hi hj]

/-- The entries outside the 2×2 diagonal block after schurRot. -/
def outRot (j n : Nat) (c s : T) (F : Nat → Nat → T) : Nat → Nat → T := fun r k =>
  if j + 2 ≤ k ∧ k < n then colMap (pairRot j (j + 1) c s) F r k
  else if r < j then rowMap (pairRot j (j + 1) c (star s)) F r k else F r k

theorem wp_schurRot (ok : SchurOK wantq A Q) (h : SwMem wantq A Q μ FA FQ ν) {j : Nat} (hj : j + 1 < A.n) (c s : T) :
    wp (schurRot wantq A Q j c s) ν (fun _ ν' =>
      SwMem wantq A Q μ (outRot j A.n c s FA) (rowMap (pairRot j (j + 1) c (star s)) FQ) ν') := by
  have k1 := ok.Am
  have k4 := ok.Qm
  have k5 := ok.Qn
  unfold schurRot
  rw [wp_bind]
  have s1 : wp (if j + 2 < A.n then do
      let r1 ← A.sliceRow j (j + 2) A.n
      let r2 ← A.sliceRow (j + 1) (j + 2) A.n
      rot r1 r2 c s
    else (pure () : M L T Unit)) ν (fun _ ν' => MState A ν (fun r k => if j + 2 ≤ k ∧ k < A.n then
        colMap (pairRot j (j + 1) c s) FA r k else FA r k) ν') := by
    rw [wp_ite]
    split
    · simp only [wp_bind]
      refine wp_sliceRow (by omega) (by omega) (by omega) ?_
      refine wp_sliceRow (by omega) (by omega) (by omega) ?_
      exact wp_rotRows h.st ok.injA (by omega) (by omega) (by omega) (by omega) c s
    · rw [wp_pure]
      exact h.st.congr fun r k hr hk => by rw [if_neg (by omega)]
  refine wp_conseq s1 ?_
  intro _ ν1 h1
  rw [wp_bind]
  have s2 : wp (if 0 < j then do
      let c1 ← A.sliceCol 0 j j
      let c2 ← A.sliceCol 0 j (j + 1)
      rot c1 c2 c (star s)
    else (pure () : M L T Unit)) ν1 (fun _ ν' => MState A ν (outRot j A.n c s FA) ν') := by
    rw [wp_ite]
    split
    · simp only [wp_bind]
      refine wp_sliceCol (by omega) (by omega) (by omega) ?_
      refine wp_sliceCol (by omega) (by omega) (by omega) ?_
      refine wp_conseq (wp_rotCols h1 ok.injA (by omega) (by omega) (by omega) (by omega) c (star s)) ?_
      intro _ ν2 h2
      refine h2.congr fun r k hr hk => ?_
      unfold outRot rowMap colMap pairRot
      beta_reduce
      split_ifs <;> first | rfl | omega
    · rw [wp_pure]
      refine h1.congr fun r k hr hk => ?_
      unfold outRot
      by_cases e1 : j + 2 ≤ k ∧ k < A.n
      · rw [if_pos e1, if_pos e1]
      · rw [if_neg e1, if_neg e1, if_neg (by omega)]
  refine wp_conseq s2 ?_
  intro _ ν2 h2
  have m2 := h.setA ok h2
  rw [wp_ite]
  split
  · next w =>
    simp only [wp_bind]
    refine wp_sliceCol (by omega) (by omega) (by omega) ?_
    refine wp_sliceCol (by omega) (by omega) (by omega) ?_
    have bQ : MState Q ν2 FQ ν2 := ⟨m2.q w, fun _ _ => rfl⟩
    refine wp_conseq (wp_rotCols bQ (ok.injQ w) (by omega) (by omega) (by omega) (by omega) c (star s)) ?_
    intro _ ν5 h5
    exact m2.setQ ok w (h5.congr fun r q hr hq => by rw [if_pos (by omega)])
  · next w =>
    rw [wp_pure]
    exact ⟨m2.a, fun w' => absurd w' w, m2.frame⟩

/-- outRot together with the updated diagonal block is the full similarity. -/
theorem simRot_eq {n j : Nat} {c s : T} {F G : Nat → Nat → T} (hj : j + 1 < n)
    (zl : ∀ r k, j ≤ r → r < n → k < j → F r k = 0)
    (zb : ∀ r k, j + 2 ≤ r → r < n → k < j + 2 → F r k = 0)
    (hG : ∀ r k, ¬ (j ≤ r ∧ r < j + 2 ∧ j ≤ k ∧ k < j + 2) → G r k = F r k)
    (hB : ∀ r k, j ≤ r → r < j + 2 → j ≤ k → k < j + 2 → G r k = simRot j (j + 1) c s F r k) :
    ∀ r k, r < n → k < n → outRot j n c s G r k = simRot j (j + 1) c s F r k := by
  intro r k hr hk
  by_cases hb : j ≤ r ∧ r < j + 2 ∧ j ≤ k ∧ k < j + 2
  · rw [← hB r k hb.1 hb.2.1 hb.2.2.1 hb.2.2.2]
    unfold outRot
    rw [if_neg (by omega), if_neg (by omega)]
  by_cases h1 : j + 2 ≤ k
  · unfold outRot simRot
    rw [if_pos ⟨h1, hk⟩]
    unfold rowMap colMap pairRot
    rw [if_neg (by omega : ¬ k = j), if_neg (by omega : ¬ k = j + 1)]
    beta_reduce
    rw [hG j k (by omega), hG (j + 1) k (by omega), hG r k hb]
  · unfold outRot simRot
    rw [if_neg (by omega)]
    unfold rowMap colMap pairRot
    by_cases h2 : r < j
    · rw [if_pos h2]
      simp only [if_neg (by omega : ¬ r = j), if_neg (by omega : ¬ r = j + 1)]
      rw [hG r j (by omega), hG r (j + 1) (by omega), hG r k hb]
    · rw [if_neg h2, hG r k hb]
      by_cases h3 : j + 2 ≤ r
      · simp only [if_neg (by omega : ¬ r = j), if_neg (by omega : ¬ r = j + 1)]
        rw [zb r k h3 hr (by omega), zb r j h3 hr (by omega), zb r (j + 1) h3 hr (by omega)]
        simp
      · have hk' : k < j := by omega
        rw [if_neg (by omega : ¬ k = j), if_neg (by omega : ¬ k = j + 1)]
        beta_reduce
        rw [zl r k (by omega) hr hk', zl j k (by omega) (by omega) hk', zl (j + 1) k (by omega) hj hk']
        simp

theorem wp_schurSwap11 (ho : RotLaws o) (ok : SchurOK wantq A Q) (h : SwMem wantq A Q μ FA FQ ν) {j : Nat}
    (hj : j + 1 < A.n) (zl : ∀ r k, j ≤ r → r < A.n → k < j → FA r k = 0)
    (zb : ∀ r k, j + 2 ≤ r → r < A.n → k < j + 2 → FA r k = 0) (z0 : FA (j + 1) j = 0) :
    wp (schurSwap11 o wantq A Q j) ν (fun _ ν' => ∃ c s, IsRot c s ∧
      simRot j (j + 1) c s FA j j = FA (j + 1) (j + 1) ∧ simRot j (j + 1) c s FA (j + 1) (j + 1) = FA j j ∧
      simRot j (j + 1) c s FA (j + 1) j = 0 ∧
      SwMem wantq A Q μ (simRot j (j + 1) c s FA) (rowMap (pairRot j (j + 1) c (star s)) FQ) ν') := by
  have k1 := ok.Am
  have ne : ¬ j + 1 = j := by omega
  have ne' : ¬ j = j + 1 := by omega
  unfold schurSwap11
  obtain ⟨r, z, c, s, e, hr, h2, h3⟩ := ho (FA j (j + 1)) (FA (j + 1) (j + 1) - FA j j)
  simp only [wp_bind, wp_get, h.a j j (by omega) (by omega), h.a (j + 1) (j + 1) (by omega) (by omega),
    h.a j (j + 1) (by omega) (by omega), e]
  refine ⟨⟨by omega, by omega⟩, ⟨by omega, by omega⟩, ⟨by omega, by omega⟩, ?_⟩
  refine wp_conseq (wp_setM h.st ok.injA (by omega) (by omega) (FA j j)) ?_
  intro _ ν1 h1
  refine wp_conseq (wp_setM h1 ok.injA (by omega) (by omega) (FA (j + 1) (j + 1))) ?_
  intro _ ν2 h2'
  refine wp_conseq (wp_schurRot ok (h.setA ok h2') hj c s) ?_
  intro _ ν3 h4
  obtain ⟨hc, hcs⟩ := hr
  have b00 : simRot j (j + 1) c s FA j j = FA (j + 1) (j + 1) := by
    simp only [simRot, rowMap, colMap, pairRot, if_true, ne, ne', if_false, star_star, z0]
    linear_combination (FA (j + 1) (j + 1)) * hcs - c * h3 + (star s * FA j (j + 1)) * (0 : T)
  have b11 : simRot j (j + 1) c s FA (j + 1) (j + 1) = FA j j := by
    simp only [simRot, rowMap, colMap, pairRot, if_true, ne, ne', if_false, star_star, z0]
    linear_combination (FA j j) * hcs + c * h3
  have b10 : simRot j (j + 1) c s FA (j + 1) j = 0 := by
    simp only [simRot, rowMap, colMap, pairRot, if_true, ne, ne', if_false, star_star, z0]
    linear_combination star s * h3
  have b01 : simRot j (j + 1) c s FA j (j + 1) = FA j (j + 1) := by
    simp only [simRot, rowMap, colMap, pairRot, if_true, ne, ne', if_false, star_star, z0]
    linear_combination (FA j (j + 1)) * hcs + s * h3
  refine ⟨c, s, ⟨hc, hcs⟩, b00, b11, b10, h4.congr fun r k hr hk => ?_⟩
  refine simRot_eq hj zl zb ?_ ?_ r k (by omega) hk
  · intro r k hb
    rw [if_neg (by omega), if_neg (by omega)]
  · intro r k g1 g2 g3 g4
    rcases (by omega : r = j ∨ r = j + 1) with e1 | e1 <;> rcases (by omega : k = j ∨ k = j + 1) with e2 | e2 <;>
      rw [e1, e2]
    · rw [if_pos ⟨rfl, rfl⟩, b00]
    · rw [if_neg (by omega), if_neg (by omega), b01]
    · rw [if_neg (by omega), if_neg (by omega), b10, z0]
    · rw [if_neg (by omega), if_pos ⟨rfl, rfl⟩, b11]

/-- Outside rows and columns `j`, `j+1`. -/
theorem simRot_out {j : Nat} {c s : T} {F : Nat → Nat → T} {r k : Nat} (h1 : r ≠ j) (h2 : r ≠ j + 1) (h3 : k ≠ j)
    (h4 : k ≠ j + 1) : simRot j (j + 1) c s F r k = F r k := by
  simp [simRot, rowMap, colMap, pairRot, h1, h2, h3, h4]

/-- Rows of zeros stay zero. -/
theorem simRot_zero_row {j : Nat} {c s : T} {F : Nat → Nat → T} {r k : Nat} (h1 : r ≠ j) (h2 : r ≠ j + 1)
    (z : F r k = 0) (z1 : k = j ∨ k = j + 1 → F r j = 0 ∧ F r (j + 1) = 0) : simRot j (j + 1) c s F r k = 0 := by
  simp only [simRot, rowMap, colMap, pairRot, h1, h2, if_false]
  by_cases e1 : k = j
  · obtain ⟨a, b⟩ := z1 (.inl e1); simp [e1, a, b]
  · by_cases e2 : k = j + 1
    · obtain ⟨a, b⟩ := z1 (.inr e2); simp [e2, a, b]
    · simp [e1, e2, z]

theorem simRot_zero_col {j : Nat} {c s : T} {F : Nat → Nat → T} {r k : Nat} (h1 : k ≠ j) (h2 : k ≠ j + 1)
    (z : F r k = 0) (z1 : r = j ∨ r = j + 1 → F j k = 0 ∧ F (j + 1) k = 0) : simRot j (j + 1) c s F r k = 0 := by
  simp only [simRot, rowMap, colMap, pairRot, h1, h2, if_false]
  by_cases e1 : r = j
  · obtain ⟨a, b⟩ := z1 (.inl e1); simp [e1, a, b]
  · by_cases e2 : r = j + 1
    · obtain ⟨a, b⟩ := z1 (.inr e2); simp [e2, a, b]
    · simp [e1, e2, z]

/-- Invariant of schur_move on a triangular matrix: `σ i` is the old position of the diagonal entry at `i`. -/
def MvInv (wantq : Bool) (A Q : MatV L) (μ : Store L T) (σ : Nat → Nat) (ν : Store L T) : Prop :=
  ∃ FA FQ, SwMem wantq A Q μ FA FQ ν ∧ SwEq wantq A.n (entry μ A) (entry μ Q) FA FQ ∧
    (∀ r k, r < A.n → k < r → FA r k = 0) ∧ ∀ i, i < A.n → FA i i = entry μ A (σ i) (σ i)

theorem wp_schurSwapC (ho : RotLaws o) (ok : SchurOK wantq A Q) {σ : Nat → Nat} (h : MvInv wantq A Q μ σ ν) {j : Nat}
    (hj : j + 1 < A.n) :
    wp (schurSwapC o wantq A Q j 1 1) ν (fun r ν' => r = 0 ∧
      MvInv wantq A Q μ (fun i => if i = j then σ (j + 1) else if i = j + 1 then σ j else σ i) ν') := by
  obtain ⟨FA, FQ, m, e, t, d⟩ := h
  have k1 := ok.Am
  have k2 := ok.Qm
  have k3 := ok.Qn
  unfold schurSwapC
  simp only [wp_bind, wp_check]
  rw [if_pos (by simp; omega), if_pos (by simp; omega), if_pos (by simp; omega), if_pos (by simp; omega),
    if_pos (by simp), if_pos (by simp)]
  refine wp_conseq (wp_schurSwap11 ho ok m hj (fun r k h1 h2 h3 => t r k h2 (by omega))
    (fun r k h1 h2 h3 => t r k h2 (by omega)) (t _ _ hj (by omega))) ?_
  rintro _ ν1 ⟨c, s, hr, b0, b1, b2, m1⟩
  rw [wp_pure]
  refine ⟨rfl, _, _, m1, e.rot (by omega) (by omega) (by omega) hr, fun r k hr hk => ?_, fun i hi => ?_⟩
  · by_cases h1 : r = j ∨ r = j + 1
    · by_cases h2 : k = j
      · have : r = j + 1 := by omega
        rw [h2, this, b2]
      · exact simRot_zero_col h2 (by omega) (t r k hr hk) fun _ => ⟨t _ _ (by omega) (by omega), t _ _ (by omega) (by omega)⟩
    · exact simRot_zero_row (by omega) (by omega) (t r k hr hk) fun h => ⟨t _ _ (by omega) (by omega), t _ _ (by omega) (by omega)⟩
  · beta_reduce
    by_cases h1 : i = j
    · rw [if_pos h1, h1, b0, d (j + 1) hj]
    · rw [if_neg h1]
      by_cases h2 : i = j + 1
      · rw [if_pos h2, h2, b1, d j (by omega)]
      · rw [if_neg h2, simRot_out h1 h2 h1 h2, d i hi]

theorem MvInv.congr {σ τ : Nat → Nat} (h : MvInv wantq A Q μ σ ν) (e : ∀ i, i < A.n → σ i = τ i) :
    MvInv wantq A Q μ τ ν := by
  obtain ⟨FA, FQ, m, e1, t, d⟩ := h
  exact ⟨FA, FQ, m, e1, t, fun i hi => by rw [d i hi, e i hi]⟩

theorem wp_schurMoveC (ho : RotLaws o) (ok : SchurOK wantq A Q) {ifst ilst : Nat} (h1 : ifst < A.n) (h2 : ilst < A.n)
    (ht : ∀ r k, r < A.n → k < r → entry μ A r k = 0) :
    wp (schurMoveC o wantq A Q ifst ilst) μ (fun r ν' => r = (0, ifst, ilst) ∧
      MvInv wantq A Q μ (moveIdx ifst ilst) ν') := by
  have i0 : MvInv wantq A Q μ id μ := ⟨entry μ A, entry μ Q, ⟨fun _ _ _ _ => rfl, fun _ _ _ _ _ => rfl, fun _ _ _ => rfl⟩,
    ⟨1, by simp, by simp, by simp⟩, ht, fun _ _ => rfl⟩
  unfold schurMoveC
  rw [if_neg (by omega), wp_bind, wp_ite]
  split
  · next hlt =>
    refine wp_forUp_ (fun k ν' => MvInv wantq A Q μ (moveIdx ifst k) ν') (by omega) ?_ ?_ ?_
    · exact i0.congr fun i _ => by unfold moveIdx; simp only [id]; split_ifs <;> omega
    · intro k ν1 g1 g2 hi
      simp only [wp_bind]
      refine wp_conseq (wp_schurSwapC ho ok hi (by omega)) ?_
      rintro _ ν2 ⟨-, hi2⟩
      rw [wp_pure]
      exact hi2.congr fun i _ => by unfold moveIdx; split_ifs <;> omega
    · intro ν1 hi
      rw [wp_pure]
      exact ⟨rfl, hi⟩
  · next hlt =>
    refine wp_forDown_ (fun k ν' => MvInv wantq A Q μ (moveIdx ifst k) ν') (by omega) ?_ ?_ ?_
    · exact i0.congr fun i _ => by unfold moveIdx; simp only [id]; split_ifs <;> omega
    · intro k ν1 g1 g2 hi
      simp only [wp_bind]
      refine wp_conseq (wp_schurSwapC ho ok hi (by omega)) ?_
      rintro _ ν2 ⟨-, hi2⟩
      rw [wp_pure]
      exact hi2.congr fun i _ => by unfold moveIdx; split_ifs <;> omega
    · intro ν1 hi
      rw [wp_pure]
      exact ⟨rfl, hi⟩

end TLA
