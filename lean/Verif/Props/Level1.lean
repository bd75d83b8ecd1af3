import Verif.Proofs.Blas1
import Verif.Props.Examples

/-! # C07: level-1 BLAS -/

namespace TLA
variable {L T : Type} [DecidableEq L]

/-- copy: `y[i] = x[i]` for `i < size(x)`, the rest of `y` and of memory unchanged. -/
theorem C07_copy {x y : VecV L} (hy : y.Inj) (hn : x.n ≤ y.n) (hd : x.Disj y) (μ : Store L T) :
    ∃ ν, copy x y μ = (.ok (), ν) ∧ (∀ i, i < x.n → ventry ν y i = ventry μ x i) ∧
      (∀ i, x.n ≤ i → i < y.n → ventry ν y i = ventry μ y i) ∧ ∀ l, ¬ y.Owns l → ν l = μ l := by
  obtain ⟨ν, h1, h2⟩ := wp_unit (wp_copy hy hn hd (VState.start y μ))
  refine ⟨ν, h1, fun i hi => ?_, fun i h1 hi => ?_, h2.frame⟩
  · exact (h2.val i (by omega)).trans (if_pos hi)
  · exact (h2.val i hi).trans (if_neg (by omega))

example : (mkV 1 5).Inj ∧ (mkV 0 3).n ≤ (mkV 1 5).n ∧ (mkV 0 3).Disj (mkV 1 5) := by
  refine ⟨?_, ?_, ?_⟩ <;> adm

/-- swap exchanges the two vectors and changes nothing else. -/
theorem C07_swap {x y : VecV L} (hx : x.Inj) (hy : y.Inj) (hn : y.n = x.n) (hd : x.Disj y)
    (μ : Store L T) :
    ∃ ν, swap x y μ = (.ok (), ν) ∧ vec x.n (ventry ν x) = vec x.n (ventry μ y) ∧
      vec x.n (ventry ν y) = vec x.n (ventry μ x) ∧
      ∀ l, ¬ x.Owns l → ¬ y.Owns l → ν l = μ l := by
  obtain ⟨ν, h1, h2, h3, h4⟩ := wp_unit (wp_swap hx hy hn hd (μ := μ))
  exact ⟨ν, h1, vec_ext_iff.2 h2, vec_ext_iff.2 (fun i hi => h3 i (by omega)), h4⟩

example : (mkV 0 3).Inj ∧ (mkV 1 3).Inj ∧ (mkV 1 3).n = (mkV 0 3).n ∧ (mkV 0 3).Disj (mkV 1 3) := by
  refine ⟨?_, ?_, ?_, ?_⟩ <;> adm

/-- scal: `x := alpha * x`. -/
theorem C07_scal [CommRing T] (alpha : T) {x : VecV L} (hx : x.Inj) (μ : Store L T) :
    ∃ ν, scal alpha x μ = (.ok (), ν) ∧ vec x.n (ventry ν x) = alpha • vec x.n (ventry μ x) ∧
      ∀ l, ¬ x.Owns l → ν l = μ l := by
  obtain ⟨ν, h1, h2⟩ := wp_unit (wp_scal (alpha := alpha) hx (VState.start x μ))
  refine ⟨ν, h1, ?_, h2.frame⟩
  rw [vec_smul]
  exact vec_ext_iff.2 (fun i hi => (h2.val i hi).trans (mul_comm _ _))

example : (mkV 0 3).Inj := by adm

/-- conjugate: every element is conjugated. -/
theorem C07_conjugate [Star T] {x : VecV L} (hx : x.Inj) (μ : Store L T) :
    ∃ ν, conjugate x μ = (.ok (), ν) ∧
      vec x.n (ventry ν x) = star (vec x.n (ventry μ x)) ∧ ∀ l, ¬ x.Owns l → ν l = μ l := by
  obtain ⟨ν, h1, h2⟩ := wp_unit (wp_conjugate hx (VState.start x μ))
  exact ⟨ν, h1, vec_ext_iff.2 (fun i hi => h2.val i hi), h2.frame⟩

/-- axpy: `y[i] := y[i] + alpha * x[i]` for `i < size(x)`. -/
theorem C07_axpy [Add T] [Mul T] (alpha : T) {x y : VecV L} (hy : y.Inj) (hn : x.n ≤ y.n)
    (hd : x.Disj y) (μ : Store L T) :
    ∃ ν, axpy alpha x y μ = (.ok (), ν) ∧
      vec x.n (ventry ν y) = vec x.n (ventry μ y) + alpha • vec x.n (ventry μ x) ∧
      (∀ i, x.n ≤ i → i < y.n → ventry ν y i = ventry μ y i) ∧ ∀ l, ¬ y.Owns l → ν l = μ l := by
  obtain ⟨ν, h1, h2⟩ := wp_unit (wp_axpy (alpha := alpha) hy hn hd (VState.start y μ))
  refine ⟨ν, h1, ?_, fun i h1 hi => (h2.val i hi).trans (if_neg (by omega)), h2.frame⟩
  rw [vec_smul, vec_add]
  exact vec_ext_iff.2 (fun i hi => (h2.val i (by omega)).trans (if_pos hi))

example : (mkV 1 5).Inj ∧ (mkV 0 3).n ≤ (mkV 1 5).n ∧ (mkV 0 3).Disj (mkV 1 5) := by
  refine ⟨?_, ?_, ?_⟩ <;> adm

omit [DecidableEq L] in
/-- dot returns `xᴴ y` and writes nothing. -/
theorem C07_dot [CommRing T] [StarRing T] {x y : VecV L} (hn : y.n = x.n) (μ : Store L T) :
    dot x y μ = (.ok (dotProduct (star (vec x.n (ventry μ x))) (vec x.n (ventry μ y))), μ) := by
  obtain ⟨r, ν, h1, h2, h3⟩ := wp_iff.1 (wp_dot (E := fun _ _ => False) hn (μ := μ))
  rw [h1, h3, h2, foldUp0_add, zero_add]
  simp only [dotProduct]
  rw [← finsum_range]
  rfl

example : (mkV 1 3).n = (mkV 0 3).n := rfl

omit [DecidableEq L] in
/-- dotu returns `xᵀ y` and writes nothing. -/
theorem C07_dotu [CommRing T] {x y : VecV L} (hn : y.n = x.n) (μ : Store L T) :
    dotu x y μ = (.ok (dotProduct (vec x.n (ventry μ x)) (vec x.n (ventry μ y))), μ) := by
  obtain ⟨r, ν, h1, h2, h3⟩ := wp_iff.1 (wp_dotu (E := fun _ _ => False) hn (μ := μ))
  rw [h1, h3, h2, foldUp0_add, zero_add]
  simp only [dotProduct]
  rw [← finsum_range]
  rfl

omit [DecidableEq L] in
/-- asum returns the sum of `abs1` over the vector and writes nothing. -/
theorem C07_asum {R : Type} [AddCommMonoid R] (abs1 : T → R) (x : VecV L) (μ : Store L T) :
    asum abs1 x μ = (.ok (∑ i : Fin x.n, abs1 (vec x.n (ventry μ x) i)), μ) := by
  obtain ⟨r, ν, h1, h2, h3⟩ := wp_iff.1 (wp_asum (abs1 := abs1) (x := x) (μ := μ))
  rw [h1, h3, h2, foldUp0_add, zero_add]
  rw [← finsum_range]
  rfl

/-- rot applies the plane rotation `x := c x + s y`, `y := c y - conj(s) x` to each pair. -/
theorem C07_rot [Field T] [StarRing T] [DecidableEq T] {x y : VecV L} (c s : T)
    (hx : x.Inj) (hy : y.Inj) (hn : y.n = x.n) (hd : x.Disj y) (μ : Store L T) :
    ∃ ν, rot x y c s μ = (.ok (), ν) ∧
      vec x.n (ventry ν x) = c • vec x.n (ventry μ x) + s • vec x.n (ventry μ y) ∧
      vec x.n (ventry ν y) = c • vec x.n (ventry μ y) - star s • vec x.n (ventry μ x) ∧
      ∀ l, ¬ x.Owns l → ¬ y.Owns l → ν l = μ l := by
  obtain ⟨ν, h1, h2, h3, h4⟩ := wp_unit (wp_rot (c := c) (s := s) hx hy hn hd (μ := μ))
  exact ⟨ν, h1, vec_ext_iff.2 h2, vec_ext_iff.2 (fun i hi => h3 i (by omega)), h4⟩

end TLA
