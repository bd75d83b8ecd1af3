import Verif.Proofs.RotView
import Mathlib.Tactic.LinearCombination
import Mathlib.LinearAlgebra.Matrix.NonsingularInverse

/-! gghrd. -/

set_option linter.unusedTactic false
set_option linter.unusedSectionVars false
set_option linter.unusedVariables false
set_option linter.unreachableTactic false
set_option linter.unusedSimpArgs false

namespace TLA
open Matrix Finset
variable {L T : Type} [DecidableEq L] [Field T] [StarRing T] [DecidableEq T]

theorem MatV.Disj.sy {A B : MatV L} (h : A.Disj B) : B.Disj A :=
  fun i j hi hj ⟨i', j', hi', hj', e⟩ => h i' j' hi' hj' ⟨i, j, hi, hj, e.symm⟩

/-- What is in memory. -/
structure GgMem (wantq wantz : Bool) (A B Q Z : MatV L) (μ : Store L T) (FA FB FQ FZ : Nat → Nat → T)
    (ν : Store L T) : Prop where
  a : ∀ r c, r < A.m → c < A.n → ν (A.cell r c) = FA r c
  b : ∀ r c, r < B.m → c < B.n → ν (B.cell r c) = FB r c
  q : wantq = true → ∀ r c, r < Q.m → c < Q.n → ν (Q.cell r c) = FQ r c
  z : wantz = true → ∀ r c, r < Z.m → c < Z.n → ν (Z.cell r c) = FZ r c
  frame : ∀ l, ¬ A.Owns l → ¬ B.Owns l → ¬ (wantq = true ∧ Q.Owns l) → ¬ (wantz = true ∧ Z.Owns l) → ν l = μ l

variable {o : RotOps T} {wantq wantz : Bool} {ilo ihi : Nat} {A B Q Z : MatV L} {μ ν ν' : Store L T}
  {FA FB FQ FZ F : Nat → Nat → T}

theorem GgMem.setA (ok : GghrdOK wantq wantz ilo ihi A B Q Z) (h : GgMem wantq wantz A B Q Z μ FA FB FQ FZ ν)
    (g : MState A ν F ν') : GgMem wantq wantz A B Q Z μ F FB FQ FZ ν' :=
  ⟨g.val, fun r c hr hc => (g.read ok.AB.sy hr hc).trans (h.b r c hr hc),
    fun w r c hr hc => (g.read (ok.AQ w).sy hr hc).trans (h.q w r c hr hc),
    fun w r c hr hc => (g.read (ok.AZ w).sy hr hc).trans (h.z w r c hr hc),
    fun l h1 h2 h3 h4 => (g.frame l h1).trans (h.frame l h1 h2 h3 h4)⟩

theorem GgMem.setB (ok : GghrdOK wantq wantz ilo ihi A B Q Z) (h : GgMem wantq wantz A B Q Z μ FA FB FQ FZ ν)
    (g : MState B ν F ν') : GgMem wantq wantz A B Q Z μ FA F FQ FZ ν' :=
  ⟨fun r c hr hc => (g.read ok.AB hr hc).trans (h.a r c hr hc), g.val,
    fun w r c hr hc => (g.read (ok.BQ w).sy hr hc).trans (h.q w r c hr hc),
    fun w r c hr hc => (g.read (ok.BZ w).sy hr hc).trans (h.z w r c hr hc),
    fun l h1 h2 h3 h4 => (g.frame l h2).trans (h.frame l h1 h2 h3 h4)⟩

theorem GgMem.setQ (ok : GghrdOK wantq wantz ilo ihi A B Q Z) (w : wantq = true)
    (h : GgMem wantq wantz A B Q Z μ FA FB FQ FZ ν)
    (g : MState Q ν F ν') : GgMem wantq wantz A B Q Z μ FA FB F FZ ν' :=
  ⟨fun r c hr hc => (g.read (ok.AQ w) hr hc).trans (h.a r c hr hc),
    fun r c hr hc => (g.read (ok.BQ w) hr hc).trans (h.b r c hr hc),
    fun _ => g.val,
    fun w' r c hr hc => (g.read (ok.QZ w w').sy hr hc).trans (h.z w' r c hr hc),
    fun l h1 h2 h3 h4 => (g.frame l (fun h => h3 ⟨w, h⟩)).trans (h.frame l h1 h2 h3 h4)⟩

theorem GgMem.setZ (ok : GghrdOK wantq wantz ilo ihi A B Q Z) (w : wantz = true)
    (h : GgMem wantq wantz A B Q Z μ FA FB FQ FZ ν)
    (g : MState Z ν F ν') : GgMem wantq wantz A B Q Z μ FA FB FQ F ν' :=
  ⟨fun r c hr hc => (g.read (ok.AZ w) hr hc).trans (h.a r c hr hc),
    fun r c hr hc => (g.read (ok.BZ w) hr hc).trans (h.b r c hr hc),
    fun w' r c hr hc => (g.read (ok.QZ w' w) hr hc).trans (h.q w' r c hr hc),
    fun _ => g.val,
    fun l h1 h2 h3 h4 => (g.frame l (fun h => h4 ⟨w, h⟩)).trans (h.frame l h1 h2 h3 h4)⟩

theorem wp_gghrdLeft (ho : RotLaws o) (ok : GghrdOK wantq wantz ilo ihi A B Q Z)
    (h : GgMem wantq wantz A B Q Z μ FA FB FQ FZ ν) {i j : Nat} (hj : j + 2 ≤ i) (hi : i < A.n)
    (zA : ∀ c, c < j → FA (i - 1) c = 0 ∧ FA i c = 0) (zB : ∀ c, c < i - 1 → FB (i - 1) c = 0 ∧ FB i c = 0) :
    wp (gghrdLeft o wantq A B Q A.n j i) ν (fun _ ν' => ∃ c s, IsRot c s ∧ c * FA i j = star s * FA (i - 1) j ∧
      GgMem wantq wantz A B Q Z μ (colMap (pairRot (i - 1) i c s) FA) (colMap (pairRot (i - 1) i c s) FB)
        (rowMap (pairRot (i - 1) i c (star s)) FQ) FZ ν') := by
  have k1 := ok.Am
  have k2 := ok.Bm
  have k3 := ok.Bn
  have k4 := ok.Qm
  have k5 := ok.Qn
  unfold gghrdLeft
  rw [wp_bind]
  have bA : MState A ν FA ν := ⟨h.a, fun _ _ => rfl⟩
  refine wp_conseq (wp_rotgAt ho bA ok.injA (by omega) (by omega) (by omega : i < A.m) (by omega : j < A.n)) ?_
  rintro ⟨c, s⟩ ν1 ⟨z, hrot, hann, h1⟩
  dsimp only at hrot hann h1 ⊢
  rw [wp_bind]
  refine wp_conseq (wp_setM h1 ok.injA (by omega) (by omega) 0) ?_
  intro _ ν2 h2
  simp only [wp_bind]
  refine wp_sliceRow (by omega) (by omega) (by omega) ?_
  refine wp_sliceRow (by omega) (by omega) (by omega) ?_
  refine wp_conseq (wp_rotRows h2 ok.injA (by omega) (by omega) (by omega) (by omega) c s) ?_
  intro _ ν3 h3
  have m3 := h.setA ok (F := colMap (pairRot (i - 1) i c s) FA) (h3.congr fun r q hr hq => by
    have ne : ¬ i - 1 = i := by omega
    have ne' : ¬ i = i - 1 := by omega
    by_cases hc : j + 1 ≤ q ∧ q < A.n
    · rw [if_pos hc]
      have e1 : ¬ q = j := by omega
      unfold colMap pairRot
      simp only [e1, and_false, if_false]
    · rw [if_neg hc]
      unfold colMap pairRot
      by_cases e1 : q = j
      · subst e1
        by_cases e2 : r = i - 1
        · rw [if_pos e2]; simp [e2, ne]
        · rw [if_neg e2]
          by_cases e3 : r = i
          · rw [if_pos e3]; simp only [e3, and_self, if_true]; linear_combination hann
          · simp [e2, e3]
      · have hq' : q < j := by omega
        obtain ⟨z1, z2⟩ := zA q hq'
        simp only [e1, and_false, if_false]
        by_cases e2 : r = i - 1
        · subst e2; simp [z1, z2]
        · rw [if_neg e2]
          by_cases e3 : r = i
          · subst e3; simp [z1, z2]
          · simp [e3])
  have bB : MState B ν3 FB ν3 := ⟨m3.b, fun _ _ => rfl⟩
  refine wp_sliceRow (by omega) (by omega) (by omega) ?_
  refine wp_sliceRow (by omega) (by omega) (by omega) ?_
  refine wp_conseq (wp_rotRows bB ok.injB (by omega) (by omega) (by omega) (by omega) c s) ?_
  intro _ ν4 h4
  have m4 := m3.setB ok (F := colMap (pairRot (i - 1) i c s) FB) (h4.congr fun r q hr hq => by
    by_cases hc : i - 1 ≤ q ∧ q < A.n
    · rw [if_pos hc]
    · rw [if_neg hc]
      obtain ⟨z1, z2⟩ := zB q (by omega)
      unfold colMap pairRot
      by_cases e2 : r = i - 1
      · subst e2; simp [z1, z2]
      · rw [if_neg e2]
        by_cases e3 : r = i
        · subst e3; simp [z1, z2]
        · simp [e3])
  rw [wp_ite]
  split
  · next w =>
    simp only [wp_bind]
    refine wp_sliceCol (by omega) (by omega) (by omega) ?_
    refine wp_sliceCol (by omega) (by omega) (by omega) ?_
    have bQ : MState Q ν4 FQ ν4 := ⟨m4.q w, fun _ _ => rfl⟩
    refine wp_conseq (wp_rotCols bQ (ok.injQ w) (by omega) (by omega) (by omega) (by omega) c (star s)) ?_
    intro _ ν5 h5
    exact ⟨c, s, hrot, hann, m4.setQ ok w (h5.congr fun r q hr hq => by rw [if_pos (by omega)])⟩
  · next w =>
    rw [wp_pure]
    exact ⟨c, s, hrot, hann, ⟨m4.a, m4.b, fun w' => absurd w' w, m4.z, m4.frame⟩⟩

theorem wp_gghrdRight (ho : RotLaws o) (ok : GghrdOK wantq wantz ilo ihi A B Q Z)
    (h : GgMem wantq wantz A B Q Z μ FA FB FQ FZ ν) {i : Nat} (h0 : 1 ≤ i) (hi : i < A.n)
    (zA : ∀ r, ihi ≤ r → r < A.n → FA r (i - 1) = 0 ∧ FA r i = 0)
    (zB : ∀ r, i < r → r < A.n → FB r (i - 1) = 0 ∧ FB r i = 0) :
    wp (gghrdRight o wantz ihi A B Z A.n i) ν (fun _ ν' => ∃ c s, IsRot c s ∧
      c * FB i (i - 1) = star s * FB i i ∧
      GgMem wantq wantz A B Q Z μ (rowMap (pairRot i (i - 1) c s) FA) (rowMap (pairRot i (i - 1) c s) FB)
        FQ (rowMap (pairRot i (i - 1) c s) FZ) ν') := by
  have k1 := ok.Am
  have k2 := ok.Bm
  have k3 := ok.Bn
  have k4 := ok.Zm
  have k5 := ok.Zn
  have k6 := ok.hi
  have ne : ¬ i - 1 = i := by omega
  have ne' : ¬ i = i - 1 := by omega
  unfold gghrdRight
  rw [wp_bind]
  have bB : MState B ν FB ν := ⟨h.b, fun _ _ => rfl⟩
  refine wp_conseq (wp_rotgAt ho bB ok.injB (by omega) (by omega) (by omega : i < B.m) (by omega : i - 1 < B.n)) ?_
  rintro ⟨c, s⟩ ν1 ⟨z, hrot, hann, h1⟩
  dsimp only at hrot hann h1 ⊢
  rw [wp_bind]
  refine wp_conseq (wp_setM h1 ok.injB (by omega) (by omega) 0) ?_
  intro _ ν2 h2
  have m2 := h.setB ok h2
  simp only [wp_bind]
  refine wp_sliceCol (by omega) (by omega) (by omega) ?_
  refine wp_sliceCol (by omega) (by omega) (by omega) ?_
  have bA : MState A ν2 FA ν2 := ⟨m2.a, fun _ _ => rfl⟩
  refine wp_conseq (wp_rotCols bA ok.injA (by omega) (by omega) (by omega) (by omega) c s) ?_
  intro _ ν3 h3
  have m3 := m2.setA ok (F := rowMap (pairRot i (i - 1) c s) FA) (h3.congr fun r q hr hq => by
    by_cases hc : r < ihi
    · rw [if_pos hc]
    · rw [if_neg hc]
      obtain ⟨z1, z2⟩ := zA r (by omega) (by omega)
      unfold rowMap pairRot
      by_cases e2 : q = i
      · subst e2; simp [z1, z2]
      · rw [if_neg e2]
        by_cases e3 : q = i - 1
        · subst e3; simp [z1, z2]
        · simp [e3])
  have bB3 : MState B ν3 _ ν3 := ⟨m3.b, fun _ _ => rfl⟩
  refine wp_sliceCol (by omega) (by omega) (by omega) ?_
  refine wp_sliceCol (by omega) (by omega) (by omega) ?_
  refine wp_conseq (wp_rotCols bB3 ok.injB (by omega) (by omega) (by omega) (by omega) c s) ?_
  intro _ ν4 h4
  have m4 := m3.setB ok (F := rowMap (pairRot i (i - 1) c s) FB) (h4.congr fun r q hr hq => by
    by_cases hc : r < i
    · rw [if_pos hc]
      have e0 : ¬ r = i := by omega
      unfold rowMap pairRot
      simp only [e0, false_and, if_false]
    · rw [if_neg hc]
      by_cases e : r = i
      · subst e
        unfold rowMap pairRot
        by_cases e2 : q = r
        · subst e2; simp [ne, ne']
        · rw [if_neg e2]
          by_cases e3 : q = r - 1
          · subst e3
            simp only [if_true, and_self]
            linear_combination hann
          · simp [e2, e3]
      · obtain ⟨z1, z2⟩ := zB r (by omega) (by omega)
        unfold rowMap pairRot
        simp only [e, false_and, if_false]
        by_cases e2 : q = i
        · subst e2; simp [z1, z2]
        · rw [if_neg e2]
          by_cases e3 : q = i - 1
          · subst e3; simp [z1, z2]
          · simp [e3])
  rw [wp_ite]
  split
  · next w =>
    simp only [wp_bind]
    refine wp_sliceCol (by omega) (by omega) (by omega) ?_
    refine wp_sliceCol (by omega) (by omega) (by omega) ?_
    have bZ : MState Z ν4 FZ ν4 := ⟨m4.z w, fun _ _ => rfl⟩
    refine wp_conseq (wp_rotCols bZ (ok.injZ w) (by omega) (by omega) (by omega) (by omega) c s) ?_
    intro _ ν5 h5
    exact ⟨c, s, hrot, hann, m4.setZ ok w (h5.congr fun r q hr hq => by rw [if_pos (by omega)])⟩
  · next w =>
    rw [wp_pure]
    exact ⟨c, s, hrot, hann, ⟨m4.a, m4.b, m4.q, fun w' => absurd w' w, m4.frame⟩⟩

/-- The equivalence with the input. -/
def GgEq (wantq wantz : Bool) (n : Nat) (A0 B0 Q0 Z0 FA FB FQ FZ : Nat → Nat → T) : Prop :=
  ∃ U V : Matrix (Fin n) (Fin n) T, Uᴴ * U = 1 ∧ Vᴴ * V = 1 ∧
    mat n n A0 = U * mat n n FA * Vᴴ ∧ mat n n B0 = U * mat n n FB * Vᴴ ∧
    (wantq = true → mat n n FQ = mat n n Q0 * U) ∧ (wantz = true → mat n n FZ = mat n n Z0 * V)

section
variable {n : Nat} {A0 B0 Q0 Z0 : Nat → Nat → T}

theorem GgEq.left (h : GgEq wantq wantz n A0 B0 Q0 Z0 FA FB FQ FZ) {p q : Nat} (hp : p < n) (hq : q < n) (hpq : p ≠ q)
    {c s : T} (hr : IsRot c s) :
    GgEq wantq wantz n A0 B0 Q0 Z0 (colMap (pairRot p q c s) FA) (colMap (pairRot p q c s) FB)
      (rowMap (pairRot p q c (star s)) FQ) FZ := by
  obtain ⟨U, V, hU, hV, ha, hb, hq', hz⟩ := h
  have hg := rotMat_unitary hp hq hpq hr
  have hg' := mul_eq_one_comm.1 hg
  refine ⟨U * (rotMat n p q c s)ᴴ, V, ?_, hV, ?_, ?_, ?_, hz⟩
  · rw [conjTranspose_mul, conjTranspose_conjTranspose, Matrix.mul_assoc, ← Matrix.mul_assoc Uᴴ, hU, Matrix.one_mul, hg']
  · have : U * (rotMat n p q c s)ᴴ * (rotMat n p q c s * mat n n FA) = U * mat n n FA := by
      rw [Matrix.mul_assoc U, ← Matrix.mul_assoc _ (rotMat n p q c s), hg, Matrix.one_mul]
    rw [mat_colMap_rot hp hq hpq, this, ha]
  · have : U * (rotMat n p q c s)ᴴ * (rotMat n p q c s * mat n n FB) = U * mat n n FB := by
      rw [Matrix.mul_assoc U, ← Matrix.mul_assoc _ (rotMat n p q c s), hg, Matrix.one_mul]
    rw [mat_colMap_rot hp hq hpq, this, hb]
  · intro w
    rw [mat_rowMap_rot hp hq hpq, rotMat_transpose_star hpq hr.1, hq' w, Matrix.mul_assoc]

theorem GgEq.right (h : GgEq wantq wantz n A0 B0 Q0 Z0 FA FB FQ FZ) {p q : Nat} (hp : p < n) (hq : q < n) (hpq : p ≠ q)
    {c s : T} (hr : IsRot c s) :
    GgEq wantq wantz n A0 B0 Q0 Z0 (rowMap (pairRot p q c s) FA) (rowMap (pairRot p q c s) FB)
      FQ (rowMap (pairRot p q c s) FZ) := by
  obtain ⟨U, V, hU, hV, ha, hb, hq', hz⟩ := h
  have hr' : IsRot c (star s) := ⟨hr.1, by rw [star_star, mul_comm (star s)]; exact hr.2⟩
  have hg := rotMat_unitary hp hq hpq hr'
  have hg' := mul_eq_one_comm.1 hg
  have e := rotMat_transpose_eq (n := n) hpq hr.1 s
  refine ⟨U, V * (rotMat n p q c s)ᵀ, hU, ?_, ?_, ?_, hq', ?_⟩
  · rw [e, conjTranspose_mul, conjTranspose_conjTranspose, Matrix.mul_assoc, ← Matrix.mul_assoc Vᴴ, hV, Matrix.one_mul, hg']
  · rw [mat_rowMap_rot hp hq hpq, e, conjTranspose_mul, conjTranspose_conjTranspose, ha, ← Matrix.mul_assoc U,
      Matrix.mul_assoc (U * mat n n FA), ← Matrix.mul_assoc _ (rotMat n p q c (star s)), hg, Matrix.one_mul]
  · rw [mat_rowMap_rot hp hq hpq, e, conjTranspose_mul, conjTranspose_conjTranspose, hb, ← Matrix.mul_assoc U,
      Matrix.mul_assoc (U * mat n n FB), ← Matrix.mul_assoc _ (rotMat n p q c (star s)), hg, Matrix.one_mul]
  · intro w
    rw [mat_rowMap_rot hp hq hpq, hz w, Matrix.mul_assoc]
end

/-- Invariant: column `j` is zero from row `i` on. -/
structure GgInv (wantq wantz : Bool) (ihi : Nat) (A B Q Z : MatV L) (μ : Store L T) (B0 : Nat → Nat → T) (j i : Nat)
    (ν : Store L T) (FA FB FQ FZ : Nat → Nat → T) : Prop where
  mem : GgMem wantq wantz A B Q Z μ FA FB FQ FZ ν
  eqn : GgEq wantq wantz A.n (entry μ A) B0 (entry μ Q) (entry μ Z) FA FB FQ FZ
  btri : ∀ r c, r < A.n → c < r → FB r c = 0
  done : ∀ r c, r < A.n → c < j → c + 1 < r → FA r c = 0
  cur : ∀ r, r < A.n → i ≤ r → j + 1 < r → FA r j = 0
  bot : ∀ r c, r < A.n → ihi ≤ r → c < r → FA r c = 0

set_option maxHeartbeats 1000000 in
theorem wp_gghrd (ho : RotLaws o) (ok : GghrdOK wantq wantz ilo ihi A B Q Z)
    (zl : ∀ r c, r < A.n → c < ilo → c < r → entry μ A r c = 0)
    (zb : ∀ r c, r < A.n → ihi ≤ r → c < r → entry μ A r c = 0) :
    wp (gghrd o wantq wantz ilo ihi A B Q Z) μ (fun r ν => r = 0 ∧
      (∃ U V : Matrix (Fin A.n) (Fin A.n) T, Uᴴ * U = 1 ∧ Vᴴ * V = 1 ∧
        mat A.n A.n (entry μ A) = U * mat A.n A.n (entry ν A) * Vᴴ ∧
        mat A.n A.n (fun i j => if i ≤ j then entry μ B i j else 0) = U * mat A.n A.n (entry ν B) * Vᴴ ∧
        (wantq = true → mat A.n A.n (entry ν Q) = mat A.n A.n (entry μ Q) * U) ∧
        (wantz = true → mat A.n A.n (entry ν Z) = mat A.n A.n (entry μ Z) * V)) ∧
      (∀ r c, r < A.n → c + 1 < r → entry ν A r c = 0) ∧
      (∀ r c, r < A.n → c < r → entry ν B r c = 0) ∧
      ∀ l, ¬ A.Owns l → ¬ B.Owns l → ¬ (wantq = true ∧ Q.Owns l) → ¬ (wantz = true ∧ Z.Owns l) → ν l = μ l) := by
  have k0 := ok.lo
  have k1 := ok.hi
  have k2 := ok.Am
  have k3 := ok.Bm
  have k4 := ok.Bn
  have k5 := ok.Qm
  have k6 := ok.Qn
  have k7 := ok.Zm
  have k8 := ok.Zn
  unfold gghrd
  simp only [wp_bind, wp_check]
  rw [if_pos (by simp; omega), if_pos (by simp; omega), if_pos (by simp; omega), if_pos (by simp; omega),
    if_pos (by simp; omega), if_pos (by simp; omega), if_pos (by simp; omega), if_pos (by simp; omega),
    if_pos (by simp; omega), wp_ite]
  split
  · next hn =>
    rw [wp_pure]
    refine ⟨rfl, ⟨1, 1, by simp, by simp, by simp, ?_, by simp, by simp⟩, fun r c h1 h2 => by omega,
      fun r c h1 h2 => by omega, fun _ _ _ _ _ => rfl⟩
    rw [Matrix.one_mul, conjTranspose_one, Matrix.mul_one]
    exact mat_ext_iff.2 fun i j hi hj => if_pos (by omega)
  next hn =>
  simp only [wp_bind]
  have m0 : GgMem wantq wantz A B Q Z μ (entry μ A) (entry μ B) (entry μ Q) (entry μ Z) μ :=
    ⟨fun _ _ _ _ => rfl, fun _ _ _ _ => rfl, fun _ _ _ _ _ => rfl, fun _ _ _ _ _ => rfl, fun _ _ _ _ _ => rfl⟩
  -- clearing the lower part of B
  have hb0 : MState B μ (entry μ B) μ := ⟨fun _ _ _ _ => rfl, fun _ _ => rfl⟩
  refine wp_forUp_ (fun k ν => MState B μ (fun r c => if c < k ∧ c < r then 0 else entry μ B r c) ν) (Nat.zero_le _)
    (hb0.congr fun r c _ _ => by rw [if_neg (by omega)]) ?_ ?_
  · intro j ν _ hj hν
    refine wp_conseq (wp_colLoop (j := j) (fun _ => 0) hν ok.injB (by omega) (by omega) (by omega) ?_) ?_
    · intro i ν' h1 h2 h3
      rw [wp_set]
      exact ⟨⟨by omega, by omega⟩, rfl⟩
    · intro _ ν' h3
      refine h3.congr fun r c hr hc => ?_
      by_cases e : c = j
      · by_cases e2 : c < r
        · rw [if_pos (by omega), if_pos (by omega)]
        · rw [if_neg (by omega), if_neg (by omega), if_neg (by omega)]
      · rw [if_neg (by omega : ¬ (c = j ∧ _))]
        by_cases e2 : c < j ∧ c < r
        · rw [if_pos (by omega), if_pos e2]
        · rw [if_neg (by omega), if_neg e2]
  intro ν1 h1
  have h1' : MState B μ (fun i j => if i ≤ j then entry μ B i j else 0) ν1 := h1.congr fun r c hr hc => by
    by_cases e : c < r
    · rw [if_neg (by omega), if_pos (by omega)]
    · rw [if_pos (by omega), if_neg (by omega)]
  have m1 := m0.setB ok h1'
  -- the reduction
  have fin : ∀ ν FA FB FQ FZ, GgInv wantq wantz ihi A B Q Z μ (fun i j => if i ≤ j then entry μ B i j else 0)
      (max ilo (ihi - 2)) A.n ν FA FB FQ FZ → (True ∧
      (∃ U V : Matrix (Fin A.n) (Fin A.n) T, Uᴴ * U = 1 ∧ Vᴴ * V = 1 ∧
        mat A.n A.n (entry μ A) = U * mat A.n A.n (entry ν A) * Vᴴ ∧
        mat A.n A.n (fun i j => if i ≤ j then entry μ B i j else 0) = U * mat A.n A.n (entry ν B) * Vᴴ ∧
        (wantq = true → mat A.n A.n (entry ν Q) = mat A.n A.n (entry μ Q) * U) ∧
        (wantz = true → mat A.n A.n (entry ν Z) = mat A.n A.n (entry μ Z) * V)) ∧
      (∀ r c, r < A.n → c + 1 < r → entry ν A r c = 0) ∧
      (∀ r c, r < A.n → c < r → entry ν B r c = 0) ∧
      ∀ l, ¬ A.Owns l → ¬ B.Owns l → ¬ (wantq = true ∧ Q.Owns l) → ¬ (wantz = true ∧ Z.Owns l) → ν l = μ l) := by
    intro ν FA FB FQ FZ I
    have eA : mat A.n A.n (entry ν A) = mat A.n A.n FA :=
      mat_ext_iff.2 fun r c hr hc => I.mem.a r c (by omega) hc
    have eB : mat A.n A.n (entry ν B) = mat A.n A.n FB :=
      mat_ext_iff.2 fun r c hr hc => I.mem.b r c (by omega) (by omega)
    refine ⟨trivial, ?_, ?_, ?_, I.mem.frame⟩
    · obtain ⟨U, V, hU, hV, ha, hb, hq, hz⟩ := I.eqn
      refine ⟨U, V, hU, hV, by rw [eA]; exact ha, by rw [eB]; exact hb, fun w => ?_, fun w => ?_⟩
      · rw [← hq w]
        exact mat_ext_iff.2 fun r c hr hc => I.mem.q w r c (by omega) (by omega)
      · rw [← hz w]
        exact mat_ext_iff.2 fun r c hr hc => I.mem.z w r c (by omega) (by omega)
    · intro r c hr hc
      show ν (A.cell r c) = 0
      rw [I.mem.a r c (by omega) (by omega)]
      by_cases e : c < max ilo (ihi - 2)
      · exact I.done r c hr e hc
      · exact I.bot r c hr (by omega) (by omega)
    · intro r c hr hc
      show ν (B.cell r c) = 0
      rw [I.mem.b r c (by omega) (by omega)]
      exact I.btri r c hr hc
  have start : GgInv wantq wantz ihi A B Q Z μ (fun i j => if i ≤ j then entry μ B i j else 0) ilo A.n ν1
      (entry μ A) (fun i j => if i ≤ j then entry μ B i j else 0) (entry μ Q) (entry μ Z) :=
    ⟨m1, ⟨1, 1, by simp, by simp, by simp, by simp, by simp, by simp⟩, fun r c hr hc => if_neg (by omega),
      fun r c hr h2 h3 => zl r c hr h2 (by omega), fun r hr h2 => by omega, zb⟩
  by_cases hlt : ilo ≤ ihi - 2
  swap
  · have : (forUp_ ilo (ihi - 2) fun j =>
        forDown_ (j + 2) ihi fun i => do
          gghrdLeft o wantq A B Q A.n j i
          gghrdRight o wantz ihi A B Z A.n i) = (pure () : M L T Unit) := by
      simp [forUp_, forUp, show ihi - 2 - ilo = 0 by omega, forUpN]
    rw [this]
    simp only [wp_pure]
    exact fin ν1 _ _ _ _ (by rw [show max ilo (ihi - 2) = ilo by omega]; exact start)
  refine wp_forUp_ (fun j ν => ∃ FA FB FQ FZ, GgInv wantq wantz ihi A B Q Z μ
    (fun i j => if i ≤ j then entry μ B i j else 0) j A.n ν FA FB FQ FZ) hlt ⟨_, _, _, _, start⟩ ?_ ?_
  · rintro j ν hj1 hj2 ⟨FA, FB, FQ, FZ, I⟩
    refine wp_forDown_ (fun i ν => ∃ FA FB FQ FZ, GgInv wantq wantz ihi A B Q Z μ
      (fun i j => if i ≤ j then entry μ B i j else 0) j i ν FA FB FQ FZ) (by omega)
      ⟨FA, FB, FQ, FZ, I.mem, I.eqn, I.btri, I.done, fun r hr h1 h2 => I.bot r j hr h1 (by omega), I.bot⟩ ?_ ?_
    · rintro i ν hi1 hi2 ⟨FA, FB, FQ, FZ, I⟩
      rw [wp_bind]
      refine wp_conseq (wp_gghrdLeft ho ok I.mem hi1 (by omega)
        (fun c hc => ⟨I.done _ c (by omega) hc (by omega), I.done _ c (by omega) hc (by omega)⟩)
        (fun c hc => ⟨I.btri _ c (by omega) hc, I.btri _ c (by omega) (by omega)⟩)) ?_
      rintro _ ν2 ⟨c, s, hr, hann, m2⟩
      have q2 := I.eqn.left (by omega : i - 1 < A.n) (by omega : i < A.n) (by omega) hr
      refine wp_conseq (wp_gghrdRight ho ok m2 (by omega) (by omega) ?_ ?_) ?_
      · intro r h1 h2
        have e1 : ¬ r = i - 1 := by omega
        have e2 : ¬ r = i := by omega
        unfold colMap pairRot
        rw [if_neg e1, if_neg e2, if_neg e1, if_neg e2]
        exact ⟨I.bot r _ h2 h1 (by omega), I.bot r _ h2 h1 (by omega)⟩
      · intro r h1 h2
        have e1 : ¬ r = i - 1 := by omega
        have e2 : ¬ r = i := by omega
        unfold colMap pairRot
        rw [if_neg e1, if_neg e2, if_neg e1, if_neg e2]
        exact ⟨I.btri r _ h2 (by omega), I.btri r _ h2 (by omega)⟩
      · rintro _ ν3 ⟨c', s', hr', hann', m3⟩
        have q3 := q2.right (by omega : i < A.n) (by omega : i - 1 < A.n) (by omega) hr'
        have lowA : ∀ r q, q ≤ j → rowMap (pairRot i (i - 1) c' s') (colMap (pairRot (i - 1) i c s) FA) r q
            = pairRot (i - 1) i c s (fun r => FA r q) r := by
          intro r q hq
          show pairRot i (i - 1) c' s' _ q = _
          unfold pairRot
          rw [if_neg (by omega), if_neg (by omega)]
          rfl
        refine ⟨_, _, _, _, m3, q3, ?_, ?_, ?_, ?_⟩
        · intro r q hr2 hq
          have base : ∀ r q, r < A.n → q < r → ¬ (r = i ∧ q = i - 1) → colMap (pairRot (i - 1) i c s) FB r q = 0 := by
            intro r q hr2 hq hn
            unfold colMap pairRot
            beta_reduce
            by_cases e1 : r = i - 1
            · rw [if_pos e1, I.btri (i - 1) q (by omega) (by omega), I.btri i q (by omega) (by omega)]; ring
            · rw [if_neg e1]
              by_cases e2 : r = i
              · rw [if_pos e2, I.btri (i - 1) q (by omega) (by omega), I.btri i q (by omega) (by omega)]; ring
              · rw [if_neg e2, I.btri r q hr2 hq]
          generalize colMap (pairRot (i - 1) i c s) FB = X at base hann'
          show pairRot i (i - 1) c' s' (fun q => X r q) q = 0
          unfold pairRot
          beta_reduce
          by_cases e1 : q = i
          · rw [if_pos e1, base r i hr2 (by omega) (by omega), base r (i - 1) hr2 (by omega) (by omega)]; ring
          · rw [if_neg e1]
            by_cases e2 : q = i - 1
            · rw [if_pos e2]
              by_cases e3 : r = i
              · rw [e3]; linear_combination hann'
              · rw [base r i hr2 (by omega) (by omega), base r (i - 1) hr2 (by omega) (by omega)]; ring
            · rw [if_neg e2, base r q hr2 hq (by omega)]
        · intro r q hr2 hq h3
          rw [lowA r q (by omega)]
          unfold pairRot
          beta_reduce
          by_cases e1 : r = i - 1
          · rw [if_pos e1, I.done _ q (by omega) hq (by omega), I.done _ q (by omega) hq (by omega)]; ring
          · rw [if_neg e1]
            by_cases e2 : r = i
            · rw [if_pos e2, I.done _ q (by omega) hq (by omega), I.done _ q (by omega) hq (by omega)]; ring
            · rw [if_neg e2, I.done r q hr2 hq h3]
        · intro r hr2 h3 h4
          rw [lowA r j (by omega)]
          unfold pairRot
          beta_reduce
          rw [if_neg (by omega)]
          by_cases e2 : r = i
          · rw [if_pos e2]; linear_combination hann
          · rw [if_neg e2, I.cur r hr2 (by omega) h4]
        · intro r q hr2 h3 h4
          have e1 : ¬ r = i - 1 := by omega
          have e2 : ¬ r = i := by omega
          have cm : ∀ q, colMap (pairRot (i - 1) i c s) FA r q = FA r q := by
            intro q
            unfold colMap pairRot
            rw [if_neg e1, if_neg e2]
          show pairRot i (i - 1) c' s' (fun q => colMap (pairRot (i - 1) i c s) FA r q) q = 0
          simp only [cm]
          unfold pairRot
          beta_reduce
          by_cases e1 : q = i
          · rw [if_pos e1, I.bot r _ hr2 h3 (by omega), I.bot r _ hr2 h3 (by omega)]; ring
          · rw [if_neg e1]
            by_cases e2 : q = i - 1
            · rw [if_pos e2, I.bot r _ hr2 h3 (by omega), I.bot r _ hr2 h3 (by omega)]; ring
            · rw [if_neg e2, I.bot r q hr2 h3 h4]
    · rintro ν ⟨FA, FB, FQ, FZ, I⟩
      refine ⟨FA, FB, FQ, FZ, I.mem, I.eqn, I.btri, ?_, fun r hr h1 => by omega, I.bot⟩
      intro r c hr hc h3
      by_cases e : c = j
      · rw [e]; exact I.cur r hr (by omega) (by omega)
      · exact I.done r c hr (by omega) h3
  · rintro ν ⟨FA, FB, FQ, FZ, I⟩
    simp only [wp_pure]
    refine fin ν FA FB FQ FZ ?_
    rw [show max ilo (ihi - 2) = ihi - 2 by omega]
    exact I

end TLA
