import Verif.Proofs.Schur
import Verif.Model.GSchur
import Mathlib.Tactic.FieldSimp

/-! generalized_schur_swap, generalized_schur_move: 1×1 blocks. -/

set_option linter.unusedTactic false
set_option linter.unusedSectionVars false
set_option linter.unusedVariables false
set_option linter.unreachableTactic false
set_option linter.unusedSimpArgs false

namespace TLA
open Matrix Finset
variable {L T : Type} [DecidableEq L] [Field T] [StarRing T] [DecidableEq T]

/-- rotg of `(f, 0)` does not rotate. -/
def RotZero (o : RotOps T) : Prop := ∀ a r z c s, o.gen a 0 = some (r, z, c, s) → s = 0

/-- What is used of `abs(x) > abs(y)`. -/
def AbsGt (g : T → T → Bool) : Prop := (∀ x y, g x y = true → x ≠ 0) ∧ ∀ x, g x 0 = false → x = 0

theorem SameEig.refl (a b : T) : SameEig a b a b := ⟨1, one_ne_zero, by ring, by ring⟩

theorem SameEig.trans {a b a' b' a'' b'' : T} (h : SameEig a b a' b') (g : SameEig a' b' a'' b'') :
    SameEig a b a'' b'' := by
  obtain ⟨t, h0, rfl, rfl⟩ := h
  obtain ⟨u, h1, rfl, rfl⟩ := g
  exact ⟨u * t, mul_ne_zero h1 h0, by ring, by ring⟩

/-- The zeros are genuine. -/
theorem gs_zero {g : T → T → Bool} (hg : AbsGt g) {a00 a01 a11 b00 b01 b11 cr sr cl sl : T}
    (h1 : cr * (b11 * a00 - a11 * b00) = star sr * (b11 * a01 - a11 * b01))
    (z1 : b11 * a00 - a11 * b00 = 0 → sr = 0)
    (hB : g (b11 * a00) (b00 * a11) = true →
      cl * (-star sr * b11) = star sl * (cr * b00 - star sr * b01))
    (hA : g (b11 * a00) (b00 * a11) = false →
      cl * (-star sr * a11) = star sl * (cr * a00 - star sr * a01) ∧ (-star sr * a11 = 0 → sl = 0)) :
    cl * (-star sr * a11) = star sl * (cr * a00 - star sr * a01) ∧
      cl * (-star sr * b11) = star sl * (cr * b00 - star sr * b01) := by
  cases hu : g (b11 * a00) (b00 * a11) with
  | true =>
    have h2 := hB hu
    have h0 : b11 ≠ 0 := left_ne_zero_of_mul (hg.1 _ _ hu)
    refine ⟨?_, h2⟩
    apply mul_left_cancel₀ h0
    linear_combination a11 * h2 - star sl * h1
  | false =>
    obtain ⟨h2, z2⟩ := hA hu
    refine ⟨h2, ?_⟩
    by_cases h0 : a11 = 0
    · subst h0
      rw [mul_zero] at hu
      have h3 := hg.2 _ hu
      have s0 := z1 (by rw [h3]; ring)
      subst s0
      have s1 := z2 (by simp)
      subst s1
      simp
    · apply mul_left_cancel₀ h0
      linear_combination b11 * h2 + star sl * h1

/-- The diagonal pairs are exchanged. -/
theorem gs_eig {a00 a01 a11 b00 b01 b11 cr sr cl sl : T} (hr : IsRot cr sr) (hl : IsRot cl sl)
    (h1 : cr * (b11 * a00 - a11 * b00) = star sr * (b11 * a01 - a11 * b01))
    (hA : cl * (-star sr * a11) = star sl * (cr * a00 - star sr * a01))
    (hB : cl * (-star sr * b11) = star sl * (cr * b00 - star sr * b01))
    (r0 : a00 ≠ 0 ∨ b00 ≠ 0) (r1 : a11 ≠ 0 ∨ b11 ≠ 0) :
    SameEig a11 b11 (cl * (cr * a00 - star sr * a01) + sl * (-star sr * a11))
      (cl * (cr * b00 - star sr * b01) + sl * (-star sr * b11)) ∧
    SameEig a00 b00 (cl * (cr * a11) - star sl * (cr * a01 + sr * a00))
      (cl * (cr * b11) - star sl * (cr * b01 + sr * b00)) := by
  obtain ⟨-, hr⟩ := hr
  obtain ⟨-, hl⟩ := hl
  generalize hX0 : cl * (cr * a00 - star sr * a01) + sl * (-star sr * a11) = X0
  generalize hY0 : cl * (cr * b00 - star sr * b01) + sl * (-star sr * b11) = Y0
  generalize hX1 : cl * (cr * a11) - star sl * (cr * a01 + sr * a00) = X1
  generalize hY1 : cl * (cr * b11) - star sl * (cr * b01 + sr * b00) = Y1
  have p : b11 * X0 = a11 * Y0 := by
    rw [← hX0, ← hY0]; linear_combination cl * h1
  have d1 : X0 * X1 = a00 * a11 := by
    rw [← hX0, ← hX1]
    linear_combination (cl * (cr * a01 + sr * a00) + sl * (cr * a11)) * hA +
      ((cr * a00 - star sr * a01) * (cr * a11) + (star sr * a11) * (cr * a01 + sr * a00)) * hl + a00 * a11 * hr
  have d2 : Y0 * Y1 = b00 * b11 := by
    rw [← hY0, ← hY1]
    linear_combination (cl * (cr * b01 + sr * b00) + sl * (cr * b11)) * hB +
      ((cr * b00 - star sr * b01) * (cr * b11) + (star sr * b11) * (cr * b01 + sr * b00)) * hl + b00 * b11 * hr
  have d3 : X0 * Y1 + Y0 * X1 = a00 * b11 + b00 * a11 := by
    rw [← hX0, ← hX1, ← hY0, ← hY1]
    linear_combination (cl * (cr * b01 + sr * b00) + sl * (cr * b11)) * hA +
      (cl * (cr * a01 + sr * a00) + sl * (cr * a11)) * hB +
      ((cr * a00 - star sr * a01) * (cr * b11) + (star sr * a11) * (cr * b01 + sr * b00) +
        (cr * b00 - star sr * b01) * (cr * a11) + (star sr * b11) * (cr * a01 + sr * a00)) * hl +
      (a00 * b11 + b00 * a11) * hr
  have key : ∃ t, t ≠ 0 ∧ X0 = t * a11 ∧ Y0 = t * b11 := by
    rcases r1 with h | h
    · refine ⟨X0 / a11, fun h0 => ?_, by field_simp, ?_⟩
      · have x0 : X0 = 0 := (div_eq_zero_iff.1 h0).resolve_right h
        have y0 : Y0 = 0 := by
          rw [x0, mul_zero] at p; exact (mul_eq_zero.1 p.symm).resolve_left h
        rw [x0, zero_mul] at d1 d3
        rw [y0, zero_mul] at d3
        have e0 : a00 = 0 := (mul_eq_zero.1 d1.symm).resolve_right h
        rw [e0] at d3
        have e1 : b00 = 0 := (mul_eq_zero.1 (show b00 * a11 = 0 by linear_combination -d3)).resolve_right h
        exact r0.elim (fun g => g e0) fun g => g e1
      · field_simp; linear_combination -p
    · refine ⟨Y0 / b11, fun h0 => ?_, ?_, by field_simp⟩
      · have y0 : Y0 = 0 := (div_eq_zero_iff.1 h0).resolve_right h
        have x0 : X0 = 0 := by
          rw [y0, mul_zero] at p; exact (mul_eq_zero.1 p).resolve_left h
        rw [y0, zero_mul] at d2 d3
        rw [x0, zero_mul] at d3
        have e0 : b00 = 0 := (mul_eq_zero.1 d2.symm).resolve_right h
        rw [e0] at d3
        have e1 : a00 = 0 := (mul_eq_zero.1 (show a00 * b11 = 0 by linear_combination -d3)).resolve_right h
        exact r0.elim (fun g => g e1) fun g => g e0
      · field_simp; linear_combination p
  obtain ⟨t, t0, ex, ey⟩ := key
  have q : t * X1 = a00 ∧ t * Y1 = b00 := by
    rw [ex] at d1; rw [ey] at d2; rw [ex, ey] at d3
    rcases r1 with h | h
    · have e : t * X1 = a00 := by apply mul_left_cancel₀ h; linear_combination d1
      exact ⟨e, by apply mul_left_cancel₀ h; linear_combination d3 - b11 * e⟩
    · have e : t * Y1 = b00 := by apply mul_left_cancel₀ h; linear_combination d2
      exact ⟨by apply mul_left_cancel₀ h; linear_combination d3 - a11 * e, e⟩
  refine ⟨⟨t, t0, ex, ey⟩, t⁻¹, inv_ne_zero t0, ?_, ?_⟩
  · rw [← q.1, inv_mul_cancel_left₀ t0]
  · rw [← q.2, inv_mul_cancel_left₀ t0]

variable {o : RotOps T} {g : T → T → Bool} {wantq wantz : Bool} {A B Q Z : MatV L} {μ ν ν' : Store L T}
  {FA FB FQ FZ F : Nat → Nat → T}

abbrev GSOK (wantq wantz : Bool) (A B Q Z : MatV L) : Prop := GghrdOK wantq wantz 0 A.n A B Q Z

theorem rowMap_tri {n j : Nat} {c s : T} {F : Nat → Nat → T} (t : ∀ r k, r < n → k < r → F r k = 0) (r k : Nat)
    (hr : r < n) : (if r < j + 2 then rowMap (pairRot (j + 1) j c s) F r k else F r k) =
      rowMap (pairRot (j + 1) j c s) F r k := by
  by_cases h : r < j + 2
  · rw [if_pos h]
  · rw [if_neg h]
    unfold rowMap pairRot
    have e0 := t r j hr (by omega)
    have e1 := t r (j + 1) hr (by omega)
    by_cases h1 : k = j + 1
    · rw [if_pos h1, h1, e0, e1]; simp
    · rw [if_neg h1]
      by_cases h2 : k = j
      · rw [if_pos h2, h2, e0, e1]; simp
      · rw [if_neg h2]

theorem wp_gsRight (ok : GSOK wantq wantz A B Q Z) (h : GgMem wantq wantz A B Q Z μ FA FB FQ FZ ν) {j : Nat}
    (hj : j + 1 < A.n) (tA : ∀ r k, r < A.n → k < r → FA r k = 0) (tB : ∀ r k, r < A.n → k < r → FB r k = 0)
    (c s : T) :
    wp (gsRight wantz A B Z j c s) ν (fun _ ν' => GgMem wantq wantz A B Q Z μ
      (rowMap (pairRot (j + 1) j c s) FA) (rowMap (pairRot (j + 1) j c s) FB) FQ
      (rowMap (pairRot (j + 1) j c s) FZ) ν') := by
  have k1 := ok.Am
  have k2 := ok.Bm
  have k3 := ok.Bn
  have k4 := ok.Zm
  have k5 := ok.Zn
  unfold gsRight
  simp only [wp_bind]
  have bA : MState A ν FA ν := ⟨h.a, fun _ _ => rfl⟩
  refine wp_sliceCol (by omega) (by omega) (by omega) ?_
  refine wp_sliceCol (by omega) (by omega) (by omega) ?_
  refine wp_conseq (wp_rotCols bA ok.injA (by omega) (by omega) (by omega) (by omega) c s) ?_
  intro _ ν1 h1
  have m1 := h.setA ok (h1.congr fun r k hr hk => (rowMap_tri tA r k (by omega)).symm)
  have bB : MState B ν1 FB ν1 := ⟨m1.b, fun _ _ => rfl⟩
  refine wp_sliceCol (by omega) (by omega) (by omega) ?_
  refine wp_sliceCol (by omega) (by omega) (by omega) ?_
  refine wp_conseq (wp_rotCols bB ok.injB (by omega) (by omega) (by omega) (by omega) c s) ?_
  intro _ ν2 h2
  have m2 := m1.setB ok (h2.congr fun r k hr hk => (rowMap_tri tB r k (by omega)).symm)
  rw [wp_ite]
  split
  · next w =>
    simp only [wp_bind]
    refine wp_sliceCol (by omega) (by omega) (by omega) ?_
    refine wp_sliceCol (by omega) (by omega) (by omega) ?_
    have bZ : MState Z ν2 FZ ν2 := ⟨m2.z w, fun _ _ => rfl⟩
    refine wp_conseq (wp_rotCols bZ (ok.injZ w) (by omega) (by omega) (by omega) (by omega) c s) ?_
    intro _ ν5 h5
    exact m2.setZ ok w (h5.congr fun r q hr hq => by rw [if_pos (by omega)])
  · next w =>
    rw [wp_pure]
    exact ⟨m2.a, m2.b, m2.q, fun w' => absurd w' w, m2.frame⟩

/-- Rows `j`, `j+1` are combined in full, the explicit zero being genuine. -/
theorem colMap_tri {n j : Nat} {c s : T} {F : Nat → Nat → T} (z : ∀ k, k < j → F j k = 0 ∧ F (j + 1) k = 0)
    (h0 : c * F (j + 1) j = star s * F j j) (r k : Nat) (hk : k < n) :
    (if r = j + 1 ∧ k = j then 0 else if j ≤ k ∧ k < n then colMap (pairRot j (j + 1) c s) F r k else F r k) =
      colMap (pairRot j (j + 1) c s) F r k := by
  have ne : ¬ j + 1 = j := by omega
  by_cases h : r = j + 1 ∧ k = j
  · rw [if_pos h, h.1, h.2]
    unfold colMap pairRot
    rw [if_neg ne, if_pos rfl]
    linear_combination -h0
  · rw [if_neg h]
    by_cases h1 : j ≤ k ∧ k < n
    · rw [if_pos h1]
    · rw [if_neg h1]
      obtain ⟨e0, e1⟩ := z k (by omega)
      unfold colMap pairRot
      by_cases h2 : r = j
      · simp [h2, e0, e1]
      · by_cases h3 : r = j + 1
        · simp [h3, e0, e1]
        · simp [h2, h3]

theorem wp_gsLeft (ok : GSOK wantq wantz A B Q Z) (h : GgMem wantq wantz A B Q Z μ FA FB FQ FZ ν) {j : Nat}
    (hj : j + 1 < A.n) (zA : ∀ k, k < j → FA j k = 0 ∧ FA (j + 1) k = 0)
    (zB : ∀ k, k < j → FB j k = 0 ∧ FB (j + 1) k = 0) {c s : T}
    (hA : c * FA (j + 1) j = star s * FA j j) (hB : c * FB (j + 1) j = star s * FB j j) :
    wp (gsLeft wantq A B Q j c s) ν (fun _ ν' => GgMem wantq wantz A B Q Z μ
      (colMap (pairRot j (j + 1) c s) FA) (colMap (pairRot j (j + 1) c s) FB)
      (rowMap (pairRot j (j + 1) c (star s)) FQ) FZ ν') := by
  have k1 := ok.Am
  have k2 := ok.Bm
  have k3 := ok.Bn
  have k4 := ok.Qm
  have k5 := ok.Qn
  unfold gsLeft
  simp only [wp_bind]
  have bA : MState A ν FA ν := ⟨h.a, fun _ _ => rfl⟩
  refine wp_sliceRow (by omega) (by omega) (by omega) ?_
  refine wp_sliceRow (by omega) (by omega) (by omega) ?_
  refine wp_conseq (wp_rotRows bA ok.injA (by omega) (by omega) (by omega) (by omega) c s) ?_
  intro _ ν1 h1
  have m1 := h.setA ok h1
  have bB : MState B ν1 FB ν1 := ⟨m1.b, fun _ _ => rfl⟩
  refine wp_sliceRow (by omega) (by omega) (by omega) ?_
  refine wp_sliceRow (by omega) (by omega) (by omega) ?_
  refine wp_conseq (wp_rotRows bB ok.injB (by omega) (by omega) (by omega) (by omega) c s) ?_
  intro _ ν2 h2
  have m2 := m1.setB ok h2
  have s3 : wp (if wantq then do
      let q1 ← Q.sliceCol 0 Q.m j
      let q2 ← Q.sliceCol 0 Q.m (j + 1)
      rot q1 q2 c (star s)
    else (pure () : M L T Unit)) ν2 (fun _ ν' => GgMem wantq wantz A B Q Z μ
      (fun r k => if j ≤ k ∧ k < A.n then colMap (pairRot j (j + 1) c s) FA r k else FA r k)
      (fun r k => if j ≤ k ∧ k < A.n then colMap (pairRot j (j + 1) c s) FB r k else FB r k)
      (rowMap (pairRot j (j + 1) c (star s)) FQ) FZ ν') := by
    rw [wp_ite]
    split
    · next w =>
      simp only [wp_bind]
      refine wp_sliceCol (by omega) (by omega) (by omega) ?_
      refine wp_sliceCol (by omega) (by omega) (by omega) ?_
      have bQ : MState Q ν2 FQ ν2 := ⟨m2.q w, fun _ _ => rfl⟩
      refine wp_conseq (wp_rotCols bQ (ok.injQ w) (by omega) (by omega) (by omega) (by omega) c (star s)) ?_
      intro _ ν5 h5
      exact m2.setQ ok w (h5.congr fun r q hr hq => by rw [if_pos (by omega)])
    · next w =>
      rw [wp_pure]
      exact ⟨m2.a, m2.b, fun w' => absurd w' w, m2.z, m2.frame⟩
  refine wp_conseq s3 ?_
  intro _ ν3 m3
  have bA : MState A ν3 _ ν3 := ⟨m3.a, fun _ _ => rfl⟩
  refine wp_conseq (wp_setM bA ok.injA (by omega) (by omega) 0) ?_
  intro _ ν4 h4
  have m4 := m3.setA ok (h4.congr fun r k hr hk => (colMap_tri zA hA r k (by omega)).symm)
  have bB : MState B ν4 _ ν4 := ⟨m4.b, fun _ _ => rfl⟩
  refine wp_conseq (wp_setM bB ok.injB (by omega) (by omega) 0) ?_
  intro _ ν5 h5
  exact m4.setB ok (h5.congr fun r k hr hk => (colMap_tri zB hB r k (by omega)).symm)

/-- Invariant of generalized_schur_move: `σ i` is the old position of the eigenvalue at `i`. -/
def GMvInv (wantq wantz : Bool) (A B Q Z : MatV L) (μ : Store L T) (σ : Nat → Nat) (ν : Store L T) : Prop :=
  ∃ FA FB FQ FZ, GgMem wantq wantz A B Q Z μ FA FB FQ FZ ν ∧
    GgEq wantq wantz A.n (entry μ A) (entry μ B) (entry μ Q) (entry μ Z) FA FB FQ FZ ∧
    (∀ r k, r < A.n → k < r → FA r k = 0) ∧ (∀ r k, r < A.n → k < r → FB r k = 0) ∧
    ((∀ i, i < A.n → entry μ A i i ≠ 0 ∨ entry μ B i i ≠ 0) →
      (∀ i, i < A.n → FA i i ≠ 0 ∨ FB i i ≠ 0) ∧
      ∀ i, i < A.n → SameEig (entry μ A (σ i) (σ i)) (entry μ B (σ i) (σ i)) (FA i i) (FB i i))

theorem SameEig.ne {a b a' b' : T} (h : SameEig a b a' b') (r : a ≠ 0 ∨ b ≠ 0) : a' ≠ 0 ∨ b' ≠ 0 := by
  obtain ⟨t, t0, rfl, rfl⟩ := h
  exact r.imp (mul_ne_zero t0) (mul_ne_zero t0)

theorem genRot_tri {n j : Nat} {cr sr cl sl : T} {F : Nat → Nat → T} (hj : j + 1 < n)
    (t : ∀ r k, r < n → k < r → F r k = 0)
    (z : cl * (-star sr * F (j + 1) (j + 1)) = star sl * (cr * F j j - star sr * F j (j + 1))) :
    let G := colMap (pairRot j (j + 1) cl sl) (rowMap (pairRot (j + 1) j cr sr) F)
    (∀ r k, r < n → k < r → G r k = 0) ∧
    G j j = cl * (cr * F j j - star sr * F j (j + 1)) + sl * (-star sr * F (j + 1) (j + 1)) ∧
    G (j + 1) (j + 1) = cl * (cr * F (j + 1) (j + 1)) - star sl * (cr * F j (j + 1) + sr * F j j) ∧
    ∀ i, i ≠ j → i ≠ j + 1 → G i i = F i i := by
  have ne : ¬ j + 1 = j := by omega
  have ne' : ¬ j = j + 1 := by omega
  have t0 := t (j + 1) j hj (by omega)
  dsimp only
  refine ⟨fun r k hr hk => ?_, ?_, ?_, fun i h1 h2 => ?_⟩
  · simp only [colMap, rowMap, pairRot]
    by_cases h1 : r = j
    · have e2 := t j k (by omega) (by omega)
      have e3 := t (j + 1) k (by omega) (by omega)
      simp [h1, e2, e3, show k ≠ j by omega, show k ≠ j + 1 by omega]
    · by_cases h2 : r = j + 1
      · by_cases h3 : k = j
        · subst h3
          simp only [h2, ne, ne', if_true, if_false, t0]
          linear_combination z
        · have e2 := t j k (by omega) (by omega)
          have e3 := t (j + 1) k (by omega) (by omega)
          simp [h2, e2, e3, h3, show k ≠ j + 1 by omega]
      · by_cases h3 : k = j + 1
        · have e2 := t r (j + 1) hr (by omega)
          have e3 := t r j hr (by omega)
          simp [h1, h2, h3, e2, e3]
        · by_cases h4 : k = j
          · have e2 := t r (j + 1) hr (by omega)
            have e3 := t r j hr (by omega)
            simp [h1, h2, h3, h4, e2, e3]
          · simp [h1, h2, h3, h4, t r k hr hk]
  · simp only [colMap, rowMap, pairRot, if_true, ne, ne', if_false, t0]
    ring
  · simp only [colMap, rowMap, pairRot, if_true, ne, ne', if_false, t0]
    ring
  · simp [colMap, rowMap, pairRot, h1, h2]

set_option maxHeartbeats 1000000 in
theorem wp_gschurSwapC (ho : RotLaws o) (hz : RotZero o) (hg : AbsGt g) (ok : GSOK wantq wantz A B Q Z)
    {σ : Nat → Nat} (h : GMvInv wantq wantz A B Q Z μ σ ν) {j : Nat} (hj : j + 1 < A.n) :
    wp (gschurSwapC o g wantq wantz A B Q Z j 1 1) ν (fun r ν' => r = 0 ∧
      GMvInv wantq wantz A B Q Z μ (fun i => if i = j then σ (j + 1) else if i = j + 1 then σ j else σ i) ν') := by
  obtain ⟨FA, FB, FQ, FZ, m, e, tA, tB, d⟩ := h
  have k1 := ok.Am
  have k2 := ok.Qm
  have k3 := ok.Qn
  have k4 := ok.Bm
  have k5 := ok.Bn
  have ne : ¬ j + 1 = j := by omega
  have ne' : ¬ j = j + 1 := by omega
  have a10 := tA (j + 1) j hj (by omega)
  have b10 := tB (j + 1) j hj (by omega)
  unfold gschurSwapC gschurSwap11
  simp only [wp_bind, wp_check]
  rw [if_pos (by simp; omega), if_pos (by simp; omega), if_pos (by simp; omega), if_pos (by simp; omega),
    if_pos (by simp), if_pos (by simp)]
  simp only [wp_get, m.a j j (by omega) (by omega), m.a (j + 1) (j + 1) (by omega) (by omega),
    m.a j (j + 1) (by omega) (by omega), m.b j j (by omega) (by omega), m.b (j + 1) (j + 1) (by omega) (by omega),
    m.b j (j + 1) (by omega) (by omega)]
  refine ⟨⟨by omega, by omega⟩, ⟨by omega, by omega⟩, ⟨by omega, by omega⟩, ⟨by omega, by omega⟩,
    ⟨by omega, by omega⟩, ⟨by omega, by omega⟩, ?_⟩
  obtain ⟨r, z, cr, sr, er, hr, -, h1⟩ := ho (FB (j + 1) (j + 1) * FA j (j + 1) - FA (j + 1) (j + 1) * FB j (j + 1))
    (FB (j + 1) (j + 1) * FA j j - FA (j + 1) (j + 1) * FB j j)
  have z1 : FB (j + 1) (j + 1) * FA j j - FA (j + 1) (j + 1) * FB j j = 0 → sr = 0 := fun h0 => by
    rw [h0] at er; exact hz _ _ _ _ _ er
  rw [er]
  dsimp only
  rw [wp_bind]
  refine wp_conseq (wp_gsRight ok m hj tA tB cr sr) ?_
  intro _ ν1 m1
  have x00 : rowMap (pairRot (j + 1) j cr sr) FA j j = cr * FA j j - star sr * FA j (j + 1) := by
    simp [rowMap, pairRot]; ring
  have x10 : rowMap (pairRot (j + 1) j cr sr) FA (j + 1) j = -star sr * FA (j + 1) (j + 1) := by
    simp [rowMap, pairRot, a10]
  have y00 : rowMap (pairRot (j + 1) j cr sr) FB j j = cr * FB j j - star sr * FB j (j + 1) := by
    simp [rowMap, pairRot]; ring
  have y10 : rowMap (pairRot (j + 1) j cr sr) FB (j + 1) j = -star sr * FB (j + 1) (j + 1) := by
    simp [rowMap, pairRot, b10]
  have tail : ∀ cl sl : T, IsRot cl sl →
      (g (FB (j + 1) (j + 1) * FA j j) (FB j j * FA (j + 1) (j + 1)) = true →
        cl * (-star sr * FB (j + 1) (j + 1)) = star sl * (cr * FB j j - star sr * FB j (j + 1))) →
      (g (FB (j + 1) (j + 1) * FA j j) (FB j j * FA (j + 1) (j + 1)) = false →
        cl * (-star sr * FA (j + 1) (j + 1)) = star sl * (cr * FA j j - star sr * FA j (j + 1)) ∧
          (-star sr * FA (j + 1) (j + 1) = 0 → sl = 0)) →
      wp (gsLeft wantq A B Q j cl sl) ν1 (fun _ ν' =>
        GMvInv wantq wantz A B Q Z μ (fun i => if i = j then σ (j + 1) else if i = j + 1 then σ j else σ i) ν') := by
    intro cl sl hl hB hA
    obtain ⟨wA, wB⟩ := gs_zero hg h1 z1 hB hA
    have zz : ∀ {F : Nat → Nat → T}, (∀ r k, r < A.n → k < r → F r k = 0) → ∀ k, k < j →
        rowMap (pairRot (j + 1) j cr sr) F j k = 0 ∧ rowMap (pairRot (j + 1) j cr sr) F (j + 1) k = 0 := by
      intro F t k hk
      simp only [rowMap, pairRot, if_neg (by omega : ¬ k = j + 1), if_neg (by omega : ¬ k = j)]
      exact ⟨t _ _ (by omega) hk, t _ _ hj (by omega)⟩
    refine wp_conseq (wp_gsLeft ok m1 hj (zz tA) (zz tB) (c := cl) (s := sl) (by rw [x00, x10, wA])
      (by rw [y00, y10, wB])) ?_
    intro _ ν2 m2
    obtain ⟨ta, ga0, ga1, ga2⟩ := genRot_tri (cl := cl) (sl := sl) hj tA wA
    obtain ⟨tb, gb0, gb1, gb2⟩ := genRot_tri (cl := cl) (sl := sl) hj tB wB
    refine ⟨_, _, _, _, m2, (e.right hj (by omega) ne hr).left (by omega) hj ne' hl, ta, tb, fun reg => ?_⟩
    obtain ⟨d1, d2⟩ := d reg
    obtain ⟨s1, s2⟩ := gs_eig hr hl h1 wA wB (d1 j (by omega)) (d1 (j + 1) hj)
    rw [← ga0, ← gb0] at s1
    rw [← ga1, ← gb1] at s2
    refine ⟨fun i hi => ?_, fun i hi => ?_⟩
    · by_cases h1 : i = j
      · rw [h1]; exact s1.ne (d1 (j + 1) hj)
      · by_cases h2 : i = j + 1
        · rw [h2]; exact s2.ne (d1 j (by omega))
        · rw [ga2 i h1 h2, gb2 i h1 h2]; exact d1 i hi
    · beta_reduce
      by_cases h1 : i = j
      · rw [if_pos h1, h1]; exact (d2 (j + 1) hj).trans s1
      · rw [if_neg h1]
        by_cases h2 : i = j + 1
        · rw [if_pos h2, h2]; exact (d2 j (by omega)).trans s2
        · rw [if_neg h2, ga2 i h1 h2, gb2 i h1 h2]; exact d2 i hi
  rw [wp_bind, wp_ite]
  cases hu : g (FB (j + 1) (j + 1) * FA j j) (FB j j * FA (j + 1) (j + 1)) with
  | true =>
    rw [if_pos rfl]
    simp only [wp_bind, wp_get, wp_pure, m1.b j j (by omega) (by omega), m1.b (j + 1) j (by omega) (by omega),
      y00, y10]
    refine ⟨⟨by omega, by omega⟩, ⟨by omega, by omega⟩, ?_⟩
    obtain ⟨r', z', cl, sl, el, hl, -, h2⟩ := ho (cr * FB j j - star sr * FB j (j + 1)) (-star sr * FB (j + 1) (j + 1))
    rw [el]
    refine wp_conseq (tail cl sl hl (fun _ => h2) fun h0 => by rw [hu] at h0; cases h0) fun _ _ h => ?_
    exact ⟨trivial, h⟩
  | false =>
    rw [if_neg (by simp)]
    simp only [wp_bind, wp_get, wp_pure, m1.a j j (by omega) (by omega), m1.a (j + 1) j (by omega) (by omega),
      x00, x10]
    refine ⟨⟨by omega, by omega⟩, ⟨by omega, by omega⟩, ?_⟩
    obtain ⟨r', z', cl, sl, el, hl, -, h2⟩ := ho (cr * FA j j - star sr * FA j (j + 1)) (-star sr * FA (j + 1) (j + 1))
    rw [el]
    refine wp_conseq (tail cl sl hl (fun h0 => by rw [hu] at h0; cases h0) fun _ => ⟨h2, fun h0 => by
      rw [h0] at el; exact hz _ _ _ _ _ el⟩) fun _ _ h => ?_
    exact ⟨trivial, h⟩

theorem GMvInv.congr {σ τ : Nat → Nat} (h : GMvInv wantq wantz A B Q Z μ σ ν) (e : ∀ i, i < A.n → σ i = τ i) :
    GMvInv wantq wantz A B Q Z μ τ ν := by
  obtain ⟨FA, FB, FQ, FZ, m, e1, t, tb, d⟩ := h
  exact ⟨FA, FB, FQ, FZ, m, e1, t, tb, fun r => ⟨(d r).1, fun i hi => by rw [← e i hi]; exact (d r).2 i hi⟩⟩

theorem GMvInv.init (tA : ∀ r k, r < A.n → k < r → entry μ A r k = 0)
    (tB : ∀ r k, r < A.n → k < r → entry μ B r k = 0) : GMvInv wantq wantz A B Q Z μ id μ :=
  ⟨entry μ A, entry μ B, entry μ Q, entry μ Z,
    ⟨fun _ _ _ _ => rfl, fun _ _ _ _ => rfl, fun _ _ _ _ _ => rfl, fun _ _ _ _ _ => rfl, fun _ _ _ _ _ => rfl⟩,
    ⟨1, 1, by simp, by simp, by simp, by simp, by simp, by simp⟩, tA, tB,
    fun r => ⟨r, fun _ _ => SameEig.refl _ _⟩⟩

theorem wp_gschurMoveC (ho : RotLaws o) (hz : RotZero o) (hg : AbsGt g) (ok : GSOK wantq wantz A B Q Z)
    {ifst ilst : Nat} (h1 : ifst < A.n) (h2 : ilst < A.n)
    (tA : ∀ r k, r < A.n → k < r → entry μ A r k = 0) (tB : ∀ r k, r < A.n → k < r → entry μ B r k = 0) :
    wp (gschurMoveC o g wantq wantz A B Q Z ifst ilst) μ (fun r ν' => r = (0, ifst, ilst) ∧
      GMvInv wantq wantz A B Q Z μ (moveIdx ifst ilst) ν') := by
  have i0 : GMvInv wantq wantz A B Q Z μ id μ := .init tA tB
  unfold gschurMoveC
  rw [if_neg (by omega), wp_bind, wp_ite]
  split
  · next hlt =>
    refine wp_forUp_ (fun k ν' => GMvInv wantq wantz A B Q Z μ (moveIdx ifst k) ν') (by omega) ?_ ?_ ?_
    · exact i0.congr fun i _ => by unfold moveIdx; simp only [id]; split_ifs <;> omega
    · intro k ν1 g1 g2 hi
      simp only [wp_bind]
      refine wp_conseq (wp_gschurSwapC ho hz hg ok hi (by omega)) ?_
      rintro _ ν2 ⟨-, hi2⟩
      rw [wp_pure]
      exact hi2.congr fun i _ => by unfold moveIdx; split_ifs <;> omega
    · intro ν1 hi
      rw [wp_pure]
      exact ⟨rfl, hi⟩
  · next hlt =>
    refine wp_forDown_ (fun k ν' => GMvInv wantq wantz A B Q Z μ (moveIdx ifst k) ν') (by omega) ?_ ?_ ?_
    · exact i0.congr fun i _ => by unfold moveIdx; simp only [id]; split_ifs <;> omega
    · intro k ν1 g1 g2 hi
      simp only [wp_bind]
      refine wp_conseq (wp_gschurSwapC ho hz hg ok hi (by omega)) ?_
      rintro _ ν2 ⟨-, hi2⟩
      rw [wp_pure]
      exact hi2.congr fun i _ => by unfold moveIdx; split_ifs <;> omega
    · intro ν1 hi
      rw [wp_pure]
      exact ⟨rfl, hi⟩

end TLA
