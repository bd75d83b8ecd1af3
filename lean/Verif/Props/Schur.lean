import Verif.Proofs.Schur
import Verif.Props.Rot
import Verif.Props.Examples

/-!
# C79: schur_swap and schur_move on a triangular Schur form
-/

set_option linter.unusedVariables false

namespace TLA
open Matrix
variable {L T : Type} [DecidableEq L]

/-- **C79** schur_swap on an upper triangular `A`: a unitary similarity `A = U A' Uᴴ`, `Q' = Q U` that exchanges the
diagonal entries `j0` and `j0+1`, keeps every other diagonal entry and keeps `A` upper triangular. -/
theorem C79_schur_swap [Field T] [StarRing T] [DecidableEq T] {o : RotOps T} (ho : RotLaws o) {wantq : Bool}
    {A Q : MatV L} (ok : SchurOK wantq A Q) (μ : Store L T) {j0 : Nat} (hj : j0 + 1 < A.n)
    (ht : ∀ r k, r < A.n → k < r → entry μ A r k = 0) :
    ∃ ν, schurSwapC o wantq A Q j0 1 1 μ = (.ok 0, ν) ∧
      (∃ U : Matrix (Fin A.n) (Fin A.n) T, Uᴴ * U = 1 ∧
        mat A.n A.n (entry μ A) = U * mat A.n A.n (entry ν A) * Uᴴ ∧
        (wantq = true → mat A.n A.n (entry ν Q) = mat A.n A.n (entry μ Q) * U)) ∧
      (∀ r k, r < A.n → k < r → entry ν A r k = 0) ∧
      entry ν A j0 j0 = entry μ A (j0 + 1) (j0 + 1) ∧ entry ν A (j0 + 1) (j0 + 1) = entry μ A j0 j0 ∧
      (∀ i, i < A.n → i ≠ j0 → i ≠ j0 + 1 → entry ν A i i = entry μ A i i) ∧
      ∀ l, ¬ A.Owns l → ¬ (wantq = true ∧ Q.Owns l) → ν l = μ l := by
  have k1 := ok.Am
  have k2 := ok.Qm
  have k3 := ok.Qn
  have i0 : MvInv wantq A Q μ id μ := ⟨entry μ A, entry μ Q, ⟨fun _ _ _ _ => rfl, fun _ _ _ _ _ => rfl, fun _ _ _ => rfl⟩,
    ⟨1, by simp, by simp, by simp⟩, ht, fun _ _ => rfl⟩
  obtain ⟨_, ν, e, rfl, FA, FQ, m, ⟨U, hU, ha, hq⟩, t, d⟩ := wp_iff.1 (wp_schurSwapC ho ok i0 hj)
  have ea : ∀ r k, r < A.n → k < A.n → entry ν A r k = FA r k := fun r k hr hk => m.a r k (by omega) hk
  refine ⟨ν, e, ⟨U, hU, ?_, fun w => ?_⟩, fun r k hr hk => ?_, ?_, ?_, fun i hi h1 h2 => ?_, m.frame⟩
  · rw [ha, mat_ext_iff.2 fun i j hi hj => (ea i j hi hj).symm]
  · rw [← hq w]
    exact mat_ext_iff.2 fun i j hi hj => m.q w i j (by omega) (by omega)
  · rw [ea r k hr (by omega), t r k hr hk]
  · rw [ea _ _ (by omega) (by omega), d _ (by omega)]; simp
  · rw [ea _ _ (by omega) (by omega), d _ (by omega)]; simp
  · rw [ea _ _ (by omega) (by omega), d _ (by omega)]; simp [h1, h2]

/-- **C79** schur_move on an upper triangular `A`: a unitary similarity `A = U A' Uᴴ`, `Q' = Q U` after which `A'` is
upper triangular and its diagonal is that of `A` with entry `ifst` moved to position `ilst`, those in between shifted
by one and all others kept. -/
theorem C79_schur_move [Field T] [StarRing T] [DecidableEq T] {o : RotOps T} (ho : RotLaws o) {wantq : Bool}
    {A Q : MatV L} (ok : SchurOK wantq A Q) (μ : Store L T) {ifst ilst : Nat} (h1 : ifst < A.n) (h2 : ilst < A.n)
    (ht : ∀ r k, r < A.n → k < r → entry μ A r k = 0) :
    ∃ ν, schurMoveC o wantq A Q ifst ilst μ = (.ok (0, ifst, ilst), ν) ∧
      (∃ U : Matrix (Fin A.n) (Fin A.n) T, Uᴴ * U = 1 ∧
        mat A.n A.n (entry μ A) = U * mat A.n A.n (entry ν A) * Uᴴ ∧
        (wantq = true → mat A.n A.n (entry ν Q) = mat A.n A.n (entry μ Q) * U)) ∧
      (∀ r k, r < A.n → k < r → entry ν A r k = 0) ∧
      (∀ i, i < A.n → entry ν A i i = entry μ A (moveIdx ifst ilst i) (moveIdx ifst ilst i)) ∧
      ∀ l, ¬ A.Owns l → ¬ (wantq = true ∧ Q.Owns l) → ν l = μ l := by
  have k1 := ok.Am
  have k2 := ok.Qm
  have k3 := ok.Qn
  obtain ⟨_, ν, e, rfl, FA, FQ, m, ⟨U, hU, ha, hq⟩, t, d⟩ := wp_iff.1 (wp_schurMoveC ho ok h1 h2 ht)
  have ea : ∀ r k, r < A.n → k < A.n → entry ν A r k = FA r k := fun r k hr hk => m.a r k (by omega) hk
  refine ⟨ν, e, ⟨U, hU, ?_, fun w => ?_⟩, fun r k hr hk => ?_, fun i hi => ?_, m.frame⟩
  · rw [ha, mat_ext_iff.2 fun i j hi hj => (ea i j hi hj).symm]
  · rw [← hq w]
    exact mat_ext_iff.2 fun i j hi hj => m.q w i j (by omega) (by omega)
  · rw [ea r k hr (by omega), t r k hr hk]
  · rw [ea i i hi hi, d i hi]

/-- **C79** the Schur decomposition stays one of the same matrix, `Q' A' Q'ᴴ = Q A Qᴴ`, and the characteristic
polynomial is kept. -/
theorem C79_schur_move_decomposition [Field T] [StarRing T] [DecidableEq T] {o : RotOps T} (ho : RotLaws o)
    {A Q : MatV L} (ok : SchurOK true A Q) (μ : Store L T) {ifst ilst : Nat} (h1 : ifst < A.n) (h2 : ilst < A.n)
    (ht : ∀ r k, r < A.n → k < r → entry μ A r k = 0) :
    ∃ ν, schurMoveC o true A Q ifst ilst μ = (.ok (0, ifst, ilst), ν) ∧
      mat A.n A.n (entry ν Q) * mat A.n A.n (entry ν A) * (mat A.n A.n (entry ν Q))ᴴ =
        mat A.n A.n (entry μ Q) * mat A.n A.n (entry μ A) * (mat A.n A.n (entry μ Q))ᴴ := by
  obtain ⟨ν, e, ⟨U, hU, ha, hq⟩, -⟩ := C79_schur_move ho ok μ h1 h2 ht
  refine ⟨ν, e, ?_⟩
  rw [hq rfl, ha, conjTranspose_mul]
  simp only [Matrix.mul_assoc]

/-- **C79** the instance with the modelled complex rotg. -/
theorem C79_schur_move_complex {p : Kernel.RotPar} (g1 : 0 < p.safmin) (g2 : 0 < p.safmax) (g3 : 0 < p.ulp)
    {wantq : Bool} {A Q : MatV L} (ok : SchurOK wantq A Q) (μ : Store L ℂ) {ifst ilst : Nat} (h1 : ifst < A.n)
    (h2 : ilst < A.n) (ht : ∀ r k, r < A.n → k < r → entry μ A r k = 0) :
    ∃ ν, schurMoveC (rotOpsC p) wantq A Q ifst ilst μ = (.ok (0, ifst, ilst), ν) ∧
      (∃ U : Matrix (Fin A.n) (Fin A.n) ℂ, Uᴴ * U = 1 ∧
        mat A.n A.n (entry μ A) = U * mat A.n A.n (entry ν A) * Uᴴ ∧
        (wantq = true → mat A.n A.n (entry ν Q) = mat A.n A.n (entry μ Q) * U)) ∧
      (∀ r k, r < A.n → k < r → entry ν A r k = 0) ∧
      (∀ i, i < A.n → entry ν A i i = entry μ A (moveIdx ifst ilst i) (moveIdx ifst ilst i)) ∧
      ∀ l, ¬ A.Owns l → ¬ (wantq = true ∧ Q.Owns l) → ν l = μ l :=
  C79_schur_move (rotLaws_complex g1 g2 g3) ok μ h1 h2 ht

example : SchurOK true (mkM 0 4 4) (mkM 1 4 4) ∧
    (∀ r k, r < (mkM 0 4 4).n → k < r →
      entry (fun l : Nat × Nat × Nat => if l.1 = 0 ∧ l.2.1 ≤ l.2.2 then (1 : ℂ) else 0) (mkM 0 4 4) r k = 0) ∧
    (1 : Nat) < (mkM 0 4 4).n ∧ 3 < (mkM 0 4 4).n := by
  refine ⟨⟨rfl, rfl, rfl, mkM_inj _ _ _, fun _ => mkM_inj _ _ _, fun _ => mkM_disj (by decide)⟩, fun r k _ h => ?_,
    by decide, by decide⟩
  simp [entry, mkM]; omega

/-- What `moveIdx` means on five items: moving item 1 to position 3 and back. -/
example : (List.range 5).map (moveIdx 1 3) = [0, 2, 3, 1, 4] ∧ (List.range 5).map (moveIdx 3 1) = [0, 3, 1, 2, 4] := by
  decide

/-- **C79** (deviation) for complex matrices the argument check admits `j0 = n - 1`, for which there is no second
eigenvalue: the routine accesses `A(n, n)` out of range instead of reporting an illegal argument. -/
theorem C79_swap_bounds_violated [Field T] [StarRing T] [DecidableEq T] (o : RotOps T) (wantq : Bool) {A Q : MatV L}
    (hA : A.m = A.n) (hQ : Q.m = A.n) (hQ' : Q.n = A.n) {j0 : Nat} (hj : j0 + 1 = A.n) (μ : Store L T) :
    schurSwapC o wantq A Q j0 1 1 μ = (.error .ub, μ) := by
  have key : wp (schurSwapC o wantq A Q j0 1 1) μ (fun _ _ => False) (fun e ν => e = .ub ∧ ν = μ) := by
    unfold schurSwapC schurSwap11
    simp only [wp_bind, wp_check]
    rw [if_pos (by simp; omega), if_pos (by simp; omega), if_pos (by simp; omega), if_pos (by simp; omega),
      if_pos (by simp), if_pos (by simp)]
    refine wp_getE ⟨by omega, by omega⟩ ?_
    unfold wp MatV.get
    rw [if_neg (by omega)]
    exact ⟨rfl, rfl⟩
  unfold wp at key
  rcases hx : schurSwapC o wantq A Q j0 1 1 μ with ⟨r, ν⟩
  rw [hx] at key
  cases r with
  | ok a => exact key.elim
  | error e => rw [key.1, key.2]

end TLA
