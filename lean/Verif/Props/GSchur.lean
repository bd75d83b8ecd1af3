import Verif.Proofs.GSchur
import Verif.Props.Schur

/-!
# C88: generalized_schur_swap and generalized_schur_move on a triangular generalized Schur form
-/

set_option linter.unusedVariables false
set_option linter.unusedSectionVars false

namespace TLA
open Matrix
variable {L T : Type} [DecidableEq L] [Field T] [StarRing T] [DecidableEq T]

/-- The equivalence, the triangular shape and the frame, read off the invariant. -/
theorem GMvInv.out {wantq wantz : Bool} {A B Q Z : MatV L} {μ ν : Store L T} {σ : Nat → Nat}
    (ok : GSOK wantq wantz A B Q Z) (h : GMvInv wantq wantz A B Q Z μ σ ν) :
    (∃ U V : Matrix (Fin A.n) (Fin A.n) T, Uᴴ * U = 1 ∧ Vᴴ * V = 1 ∧
        mat A.n A.n (entry μ A) = U * mat A.n A.n (entry ν A) * Vᴴ ∧
        mat A.n A.n (entry μ B) = U * mat A.n A.n (entry ν B) * Vᴴ ∧
        (wantq = true → mat A.n A.n (entry ν Q) = mat A.n A.n (entry μ Q) * U) ∧
        (wantz = true → mat A.n A.n (entry ν Z) = mat A.n A.n (entry μ Z) * V)) ∧
      (∀ r k, r < A.n → k < r → entry ν A r k = 0 ∧ entry ν B r k = 0) ∧
      ((∀ i, i < A.n → entry μ A i i ≠ 0 ∨ entry μ B i i ≠ 0) → ∀ i, i < A.n →
        SameEig (entry μ A (σ i) (σ i)) (entry μ B (σ i) (σ i)) (entry ν A i i) (entry ν B i i)) ∧
      ∀ l, ¬ A.Owns l → ¬ B.Owns l → ¬ (wantq = true ∧ Q.Owns l) → ¬ (wantz = true ∧ Z.Owns l) → ν l = μ l := by
  obtain ⟨FA, FB, FQ, FZ, m, ⟨U, V, hU, hV, ha, hb, hq, hz⟩, tA, tB, d⟩ := h
  have k1 := ok.Am
  have k2 := ok.Qm
  have k3 := ok.Qn
  have k4 := ok.Bm
  have k5 := ok.Bn
  have k6 := ok.Zm
  have k7 := ok.Zn
  have ea : ∀ r k, r < A.n → k < A.n → entry ν A r k = FA r k := fun r k hr hk => m.a r k (by omega) hk
  have eb : ∀ r k, r < A.n → k < A.n → entry ν B r k = FB r k := fun r k hr hk => m.b r k (by omega) (by omega)
  refine ⟨⟨U, V, hU, hV, ?_, ?_, fun w => ?_, fun w => ?_⟩, fun r k hr hk => ⟨?_, ?_⟩, fun reg i hi => ?_, m.frame⟩
  · rw [ha, mat_ext_iff.2 fun i j hi hj => (ea i j hi hj).symm]
  · rw [hb, mat_ext_iff.2 fun i j hi hj => (eb i j hi hj).symm]
  · rw [← hq w]
    exact mat_ext_iff.2 fun i j hi hj => m.q w i j (by omega) (by omega)
  · rw [← hz w]
    exact mat_ext_iff.2 fun i j hi hj => m.z w i j (by omega) (by omega)
  · rw [ea r k hr (by omega), tA r k hr hk]
  · rw [eb r k hr (by omega), tB r k hr hk]
  · rw [ea i i hi hi, eb i i hi hi]; exact (d reg).2 i hi

/-- **C88** generalized_schur_swap on upper triangular `A`, `B`: unitary `U`, `V` with `A = U A' Vᴴ`, `B = U B' Vᴴ`,
`Q' = Q U`, `Z' = Z V`, and `A'`, `B'` upper triangular; if no diagonal pair is `(0, 0)`, the eigenvalues `j0` and
`j0+1` are exchanged and all others kept. -/
theorem C88_generalized_schur_swap {o : RotOps T} (ho : RotLaws o) (hz : RotZero o) {g : T → T → Bool} (hg : AbsGt g)
    {wantq wantz : Bool} {A B Q Z : MatV L} (ok : GghrdOK wantq wantz 0 A.n A B Q Z) (μ : Store L T) {j0 : Nat}
    (hj : j0 + 1 < A.n) (tA : ∀ r k, r < A.n → k < r → entry μ A r k = 0)
    (tB : ∀ r k, r < A.n → k < r → entry μ B r k = 0) :
    ∃ ν, gschurSwapC o g wantq wantz A B Q Z j0 1 1 μ = (.ok 0, ν) ∧
      (∃ U V : Matrix (Fin A.n) (Fin A.n) T, Uᴴ * U = 1 ∧ Vᴴ * V = 1 ∧
        mat A.n A.n (entry μ A) = U * mat A.n A.n (entry ν A) * Vᴴ ∧
        mat A.n A.n (entry μ B) = U * mat A.n A.n (entry ν B) * Vᴴ ∧
        (wantq = true → mat A.n A.n (entry ν Q) = mat A.n A.n (entry μ Q) * U) ∧
        (wantz = true → mat A.n A.n (entry ν Z) = mat A.n A.n (entry μ Z) * V)) ∧
      (∀ r k, r < A.n → k < r → entry ν A r k = 0 ∧ entry ν B r k = 0) ∧
      ((∀ i, i < A.n → entry μ A i i ≠ 0 ∨ entry μ B i i ≠ 0) → ∀ i, i < A.n →
        let i' := if i = j0 then j0 + 1 else if i = j0 + 1 then j0 else i
        SameEig (entry μ A i' i') (entry μ B i' i') (entry ν A i i) (entry ν B i i)) ∧
      ∀ l, ¬ A.Owns l → ¬ B.Owns l → ¬ (wantq = true ∧ Q.Owns l) → ¬ (wantz = true ∧ Z.Owns l) → ν l = μ l := by
  obtain ⟨_, ν, e, rfl, h⟩ := wp_iff.1 (wp_gschurSwapC ho hz hg ok (.init tA tB) hj)
  exact ⟨ν, e, h.out ok⟩

/-- **C88** generalized_schur_move on upper triangular `A`, `B`: the same equivalence; eigenvalue `ifst` is moved to
position `ilst`, those in between are shifted by one and all others kept. -/
theorem C88_generalized_schur_move {o : RotOps T} (ho : RotLaws o) (hz : RotZero o) {g : T → T → Bool} (hg : AbsGt g)
    {wantq wantz : Bool} {A B Q Z : MatV L} (ok : GghrdOK wantq wantz 0 A.n A B Q Z) (μ : Store L T) {ifst ilst : Nat}
    (h1 : ifst < A.n) (h2 : ilst < A.n) (tA : ∀ r k, r < A.n → k < r → entry μ A r k = 0)
    (tB : ∀ r k, r < A.n → k < r → entry μ B r k = 0) :
    ∃ ν, gschurMoveC o g wantq wantz A B Q Z ifst ilst μ = (.ok (0, ifst, ilst), ν) ∧
      (∃ U V : Matrix (Fin A.n) (Fin A.n) T, Uᴴ * U = 1 ∧ Vᴴ * V = 1 ∧
        mat A.n A.n (entry μ A) = U * mat A.n A.n (entry ν A) * Vᴴ ∧
        mat A.n A.n (entry μ B) = U * mat A.n A.n (entry ν B) * Vᴴ ∧
        (wantq = true → mat A.n A.n (entry ν Q) = mat A.n A.n (entry μ Q) * U) ∧
        (wantz = true → mat A.n A.n (entry ν Z) = mat A.n A.n (entry μ Z) * V)) ∧
      (∀ r k, r < A.n → k < r → entry ν A r k = 0 ∧ entry ν B r k = 0) ∧
      ((∀ i, i < A.n → entry μ A i i ≠ 0 ∨ entry μ B i i ≠ 0) → ∀ i, i < A.n →
        SameEig (entry μ A (moveIdx ifst ilst i) (moveIdx ifst ilst i))
          (entry μ B (moveIdx ifst ilst i) (moveIdx ifst ilst i)) (entry ν A i i) (entry ν B i i)) ∧
      ∀ l, ¬ A.Owns l → ¬ B.Owns l → ¬ (wantq = true ∧ Q.Owns l) → ¬ (wantz = true ∧ Z.Owns l) → ν l = μ l := by
  obtain ⟨_, ν, e, rfl, h⟩ := wp_iff.1 (wp_gschurMoveC ho hz hg ok h1 h2 tA tB)
  exact ⟨ν, e, h.out ok⟩

/-- **C88** the decomposition stays one of the same pencil: `Q' A' Z'ᴴ = Q A Zᴴ` and `Q' B' Z'ᴴ = Q B Zᴴ`. -/
theorem C88_move_decomposition {o : RotOps T} (ho : RotLaws o) (hz : RotZero o) {g : T → T → Bool} (hg : AbsGt g)
    {A B Q Z : MatV L} (ok : GghrdOK true true 0 A.n A B Q Z) (μ : Store L T) {ifst ilst : Nat}
    (h1 : ifst < A.n) (h2 : ilst < A.n) (tA : ∀ r k, r < A.n → k < r → entry μ A r k = 0)
    (tB : ∀ r k, r < A.n → k < r → entry μ B r k = 0) :
    ∃ ν, gschurMoveC o g true true A B Q Z ifst ilst μ = (.ok (0, ifst, ilst), ν) ∧
      mat A.n A.n (entry ν Q) * mat A.n A.n (entry ν A) * (mat A.n A.n (entry ν Z))ᴴ =
        mat A.n A.n (entry μ Q) * mat A.n A.n (entry μ A) * (mat A.n A.n (entry μ Z))ᴴ ∧
      mat A.n A.n (entry ν Q) * mat A.n A.n (entry ν B) * (mat A.n A.n (entry ν Z))ᴴ =
        mat A.n A.n (entry μ Q) * mat A.n A.n (entry μ B) * (mat A.n A.n (entry μ Z))ᴴ := by
  obtain ⟨ν, e, ⟨U, V, hU, hV, ha, hb, hq, hz⟩, -⟩ := C88_generalized_schur_move ho hz hg ok μ h1 h2 tA tB
  refine ⟨ν, e, ?_, ?_⟩
  · rw [hq rfl, hz rfl, ha, conjTranspose_mul]; simp only [Matrix.mul_assoc]
  · rw [hq rfl, hz rfl, hb, conjTranspose_mul]; simp only [Matrix.mul_assoc]

/-- `abs(x) > abs(y)` on complex numbers. -/
noncomputable def absGtC (x y : ℂ) : Bool := ‖x‖ > ‖y‖

theorem absGtC_ok : AbsGt absGtC := by
  constructor
  · intro x y h h0
    simp only [absGtC, h0, norm_zero, gt_iff_lt, decide_eq_true_eq] at h
    exact absurd h (not_lt.2 (norm_nonneg _))
  · intro x h
    simpa [absGtC] using h

theorem rotZero_complex {p : Kernel.RotPar} : RotZero (rotOpsC p) := by
  intro a r z c s h
  simp only [rotOpsC, Kernel.rotgC, if_true, Option.bind_eq_bind, Option.map_eq_some_iff, Option.bind_eq_some_iff] at h
  obtain ⟨t, ⟨_, _, _, _, _, _, e⟩, h⟩ := h
  cases e
  simp only [Prod.mk.injEq] at h
  exact h.2.2.2.symm

theorem rotZero_real {p : Kernel.RotPar} : RotZero (rotOpsR p) := by
  intro a r z c s h
  simp only [rotOpsR, Kernel.rotg, abs_zero, if_true] at h
  cases h
  rfl

/-- **C88** the instance with the modelled complex rotg and absolute value. -/
theorem C88_generalized_schur_move_complex {p : Kernel.RotPar} (g1 : 0 < p.safmin) (g2 : 0 < p.safmax) (g3 : 0 < p.ulp)
    {wantq wantz : Bool} {A B Q Z : MatV L} (ok : GghrdOK wantq wantz 0 A.n A B Q Z) (μ : Store L ℂ) {ifst ilst : Nat}
    (h1 : ifst < A.n) (h2 : ilst < A.n) (tA : ∀ r k, r < A.n → k < r → entry μ A r k = 0)
    (tB : ∀ r k, r < A.n → k < r → entry μ B r k = 0)
    (reg : ∀ i, i < A.n → entry μ A i i ≠ 0 ∨ entry μ B i i ≠ 0) :
    ∃ ν, gschurMoveC (rotOpsC p) absGtC wantq wantz A B Q Z ifst ilst μ = (.ok (0, ifst, ilst), ν) ∧
      (∃ U V : Matrix (Fin A.n) (Fin A.n) ℂ, Uᴴ * U = 1 ∧ Vᴴ * V = 1 ∧
        mat A.n A.n (entry μ A) = U * mat A.n A.n (entry ν A) * Vᴴ ∧
        mat A.n A.n (entry μ B) = U * mat A.n A.n (entry ν B) * Vᴴ ∧
        (wantq = true → mat A.n A.n (entry ν Q) = mat A.n A.n (entry μ Q) * U) ∧
        (wantz = true → mat A.n A.n (entry ν Z) = mat A.n A.n (entry μ Z) * V)) ∧
      (∀ r k, r < A.n → k < r → entry ν A r k = 0 ∧ entry ν B r k = 0) ∧
      (∀ i, i < A.n → SameEig (entry μ A (moveIdx ifst ilst i) (moveIdx ifst ilst i))
          (entry μ B (moveIdx ifst ilst i) (moveIdx ifst ilst i)) (entry ν A i i) (entry ν B i i)) := by
  obtain ⟨ν, e, h1, h2, h3, -⟩ :=
    C88_generalized_schur_move (rotLaws_complex g1 g2 g3) rotZero_complex absGtC_ok ok μ h1 h2 tA tB
  exact ⟨ν, e, h1, h2, h3 reg⟩

/-- The hypotheses are met: order 4, all four matrices apart, triangular, regular. -/
example : GghrdOK true true 0 (mkM 0 4 4).n (mkM 0 4 4) (mkM 1 4 4) (mkM 2 4 4) (mkM 3 4 4) ∧
    (∀ r k, r < (mkM 0 4 4).n → k < r →
      entry (fun l : Nat × Nat × Nat => if l.2.1 ≤ l.2.2 then (l.1 : ℂ) else 0) (mkM 0 4 4) r k = 0 ∧
      entry (fun l : Nat × Nat × Nat => if l.2.1 ≤ l.2.2 then (l.1 : ℂ) else 0) (mkM 1 4 4) r k = 0) ∧
    (∀ i, i < (mkM 0 4 4).n →
      entry (fun l : Nat × Nat × Nat => if l.2.1 ≤ l.2.2 then (l.1 : ℂ) else 0) (mkM 1 4 4) i i ≠ 0) := by
  refine ⟨⟨by decide, by decide, rfl, rfl, rfl, rfl, rfl, rfl, rfl, mkM_inj _ _ _, mkM_inj _ _ _, fun _ => mkM_inj _ _ _,
    fun _ => mkM_inj _ _ _, mkM_disj (by decide), fun _ => mkM_disj (by decide), fun _ => mkM_disj (by decide),
    fun _ => mkM_disj (by decide), fun _ => mkM_disj (by decide), fun _ _ => mkM_disj (by decide)⟩, fun r k _ h => ?_,
    fun i _ => ?_⟩
  · simp [entry, mkM]; omega
  · simp [entry, mkM]

/-- **C88** (deviation) as in schur_swap, the argument check admits `j0 = n - 1`: the routine then accesses `A(n-1, n)`
out of range. -/
theorem C88_swap_bounds_violated (o : RotOps T) (g : T → T → Bool) (wantq wantz : Bool) {A B Q Z : MatV L}
    (hA : A.m = A.n) (hQ : Q.m = A.n) (hQ' : Q.n = A.n) {j0 : Nat} (hj : j0 + 1 = A.n) (μ : Store L T) :
    gschurSwapC o g wantq wantz A B Q Z j0 1 1 μ = (.error .ub, μ) := by
  have key : wp (gschurSwapC o g wantq wantz A B Q Z j0 1 1) μ (fun _ _ => False) (fun e ν => e = .ub ∧ ν = μ) := by
    unfold gschurSwapC gschurSwap11
    simp only [wp_bind, wp_check]
    rw [if_pos (by simp; omega), if_pos (by simp; omega), if_pos (by simp; omega), if_pos (by simp; omega),
      if_pos (by simp), if_pos (by simp)]
    refine wp_getE ⟨by omega, by omega⟩ ?_
    unfold wp MatV.get
    rw [if_neg (by omega)]
    exact ⟨rfl, rfl⟩
  unfold wp at key
  rcases hx : gschurSwapC o g wantq wantz A B Q Z j0 1 1 μ with ⟨r, ν⟩
  rw [hx] at key
  cases r with
  | ok a => exact key.elim
  | error e => rw [key.1, key.2]

/-- **C88** (deviation) with a pair `(0, 0)` on the diagonal (a singular pencil) nothing is exchanged: if
`A(j0+1, j0+1) = B(j0+1, j0+1) = 0`, position `j0` keeps a nonzero multiple of its own pair. The hypothesis "no pair is
`(0, 0)`" above cannot be dropped. -/
theorem C88_singular_not_swapped_violated :
    ∃ ν, gschurSwapC (T := ℚ) ⟨fun a b => if b = 0 then some (a, 0, 1, 0) else some (b, 1, 0, 1)⟩
      (fun x y => |x| > |y|) false false (mkM 0 2 2) (mkM 1 2 2) (mkM 2 2 2) (mkM 3 2 2) 0 1 1
      (fun l => if l = (0, 0, 0) ∨ l = (1, 0, 0) then 1 else 0) = (.ok 0, ν) ∧
      entry ν (mkM 0 2 2) 0 0 = 1 ∧ entry ν (mkM 1 2 2) 0 0 = 1 ∧ entry ν (mkM 0 2 2) 1 1 = 0 ∧
      entry ν (mkM 1 2 2) 1 1 = 0 :=
  ⟨_, Prod.ext (by decide +kernel) rfl, by decide +kernel, by decide +kernel, by decide +kernel, by decide +kernel⟩

end TLA
