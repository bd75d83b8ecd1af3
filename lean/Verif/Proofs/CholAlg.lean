import Verif.RealScalar
import Verif.Proofs.Util
import Mathlib.LinearAlgebra.Matrix.PosDef
import Mathlib.LinearAlgebra.Matrix.Block
import Mathlib.LinearAlgebra.Dimension.Finrank
import Mathlib.LinearAlgebra.FiniteDimensional.Lemmas

/-! Algebra of Cholesky factorizations, entry by entry. -/

namespace TLA
variable {𝕜 : Type} [RCLike 𝕜]
open Finset
open scoped ComplexOrder

/-- Rows `< k` of `r` are the first `k` rows of a Cholesky factor of `h` (columns `< n`). -/
structure CholRows (h r : Nat → Nat → 𝕜) (k n : Nat) : Prop where
  eq : ∀ i j, i < k → i ≤ j → j < n → ∑ l ∈ range (i + 1), star (r l i) * r l j = h i j
  pos : ∀ i, i < k → 0 < RCLike.re (r i i) ∧ RCLike.im (r i i) = 0

/-- The factorization breaks down at pivot `k`. -/
def CholFail (h : Nat → Nat → 𝕜) (k : Nat) : Prop :=
  ∃ r, CholRows h r k (k + 1) ∧
    RCLike.re (h k k) ≤ RCLike.re (∑ l ∈ range k, star (r l k) * r l k)

theorem CholRows.mono {h r : Nat → Nat → 𝕜} {k n k' n' : Nat} (H : CholRows h r k n)
    (hk : k' ≤ k) (hn : n' ≤ n) : CholRows h r k' n' :=
  ⟨fun i j h1 h2 h3 => H.eq i j (by omega) h2 (by omega), fun i h1 => H.pos i (by omega)⟩

theorem CholRows.congr {h h' r r' : Nat → Nat → 𝕜} {k n : Nat} (H : CholRows h r k n) (hkn : k ≤ n)
    (hh : ∀ i j, i < k → i ≤ j → j < n → h' i j = h i j)
    (hr : ∀ i j, i < k → i ≤ j → j < n → r' i j = r i j) : CholRows h' r' k n := by
  refine ⟨fun i j h1 h2 h3 => ?_, fun i h1 => ?_⟩
  · rw [hh i j h1 h2 h3, ← H.eq i j h1 h2 h3]
    refine Finset.sum_congr rfl (fun l hl => ?_)
    have := Finset.mem_range.1 hl
    rw [hr l i (by omega) (by omega) (by omega), hr l j (by omega) (by omega) (by omega)]
  · rw [hr i i h1 (le_refl _) (by omega)]; exact H.pos i h1

theorem CholFail.congr {h h' : Nat → Nat → 𝕜} {k : Nat} (H : CholFail h k)
    (hh : ∀ i j, i ≤ j → j ≤ k → h' i j = h i j) : CholFail h' k := by
  obtain ⟨r, h1, h2⟩ := H
  refine ⟨r, h1.congr (by omega) (fun i j _ h3 h4 => hh i j h3 (by omega)) (fun _ _ _ _ _ => rfl), ?_⟩
  rw [hh k k (le_refl _) (le_refl _)]; exact h2

theorem CholRows.append {h r s r2 r' : Nat → Nat → 𝕜} {n1 n k2 : Nat}
    (H : CholRows h r n1 n) (h1n : n1 ≤ n) (hk2 : k2 ≤ n - n1)
    (hs : ∀ i j, i < k2 → i ≤ j → n1 + j < n →
      s i j = h (n1 + i) (n1 + j) - ∑ l ∈ range n1, star (r l (n1 + i)) * r l (n1 + j))
    (H2 : CholRows s r2 k2 (n - n1))
    (hr : ∀ l j, l < n1 → l ≤ j → j < n → r' l j = r l j)
    (hr2 : ∀ l j, l < k2 → l ≤ j → n1 + j < n → r' (n1 + l) (n1 + j) = r2 l j) :
    CholRows h r' (n1 + k2) n := by
  refine ⟨fun i j hi hij hj => ?_, fun i hi => ?_⟩
  · by_cases hc : i < n1
    · exact (H.congr h1n (fun _ _ _ _ _ => rfl) hr).eq i j hc hij hj
    · obtain ⟨i, rfl⟩ := Nat.exists_eq_add_of_le (by omega : n1 ≤ i)
      obtain ⟨j, rfl⟩ := Nat.exists_eq_add_of_le (by omega : n1 ≤ j)
      rw [show n1 + i + 1 = n1 + (i + 1) by omega, Finset.sum_range_add]
      have h1 := H2.eq i j (by omega) (by omega) (by omega)
      rw [hs i j (by omega) (by omega) (by omega)] at h1
      have e1 : ∀ l ∈ range n1, star (r' l (n1 + i)) * r' l (n1 + j) =
          star (r l (n1 + i)) * r l (n1 + j) := by
        intro l hl
        have := Finset.mem_range.1 hl
        rw [hr l _ (by omega) (by omega) (by omega), hr l _ (by omega) (by omega) (by omega)]
      have e2 : ∀ l ∈ range (i + 1), star (r' (n1 + l) (n1 + i)) * r' (n1 + l) (n1 + j) =
          star (r2 l i) * r2 l j := by
        intro l hl
        have := Finset.mem_range.1 hl
        rw [hr2 l _ (by omega) (by omega) (by omega), hr2 l _ (by omega) (by omega) (by omega)]
      rw [Finset.sum_congr rfl e1, Finset.sum_congr rfl e2, h1]
      ring
  · by_cases hc : i < n1
    · rw [hr i i hc (le_refl _) (by omega)]; exact H.pos i hc
    · obtain ⟨i, rfl⟩ := Nat.exists_eq_add_of_le (by omega : n1 ≤ i)
      rw [hr2 i i (by omega) (le_refl _) (by omega)]; exact H2.pos i (by omega)

theorem CholFail.append {h r s : Nat → Nat → 𝕜} {n1 n k2 : Nat}
    (H : CholRows h r n1 n) (hk2 : n1 + k2 < n)
    (hs : ∀ i j, i ≤ j → n1 + j < n →
      s i j = h (n1 + i) (n1 + j) - ∑ l ∈ range n1, star (r l (n1 + i)) * r l (n1 + j))
    (H2 : CholFail s k2) : CholFail h (n1 + k2) := by
  obtain ⟨r2, h1, h2⟩ := H2
  refine ⟨fun l j => if l < n1 then r l j else r2 (l - n1) (j - n1), ?_, ?_⟩
  · refine CholRows.append (n := n1 + k2 + 1) (r := r) (s := s) (r2 := r2)
      (H.mono (le_refl _) (by omega)) (by omega) (by omega) (fun i j h3 h4 h5 => hs i j h4 (by omega))
      (h1.mono (le_refl _) (by omega)) (fun l j h3 h4 h5 => if_pos h3) (fun l j h3 h4 h5 => ?_)
    beta_reduce
    rw [if_neg (by omega), show n1 + l - n1 = l by omega, show n1 + j - n1 = j by omega]
  · rw [Finset.sum_range_add]
    have e1 : ∀ l ∈ range n1, star (if l < n1 then r l (n1 + k2) else r2 (l - n1) (n1 + k2 - n1)) *
        (if l < n1 then r l (n1 + k2) else r2 (l - n1) (n1 + k2 - n1)) =
        star (r l (n1 + k2)) * r l (n1 + k2) := by
      intro l hl
      rw [if_pos (Finset.mem_range.1 hl)]
    have e2 : ∀ l ∈ range k2, star (if n1 + l < n1 then r (n1 + l) (n1 + k2)
        else r2 (n1 + l - n1) (n1 + k2 - n1)) *
        (if n1 + l < n1 then r (n1 + l) (n1 + k2) else r2 (n1 + l - n1) (n1 + k2 - n1)) =
        star (r2 l k2) * r2 l k2 := by
      intro l hl
      rw [if_neg (by omega), show n1 + l - n1 = l by omega, show n1 + k2 - n1 = k2 by omega]
    rw [Finset.sum_congr rfl e1, Finset.sum_congr rfl e2]
    rw [hs k2 k2 (le_refl _) hk2] at h2
    simp only [map_sub, map_add] at h2 ⊢
    linarith

theorem sum_trunc {i n : Nat} (hi : i < n) (a b : Nat → Nat → 𝕜) (j : Nat) (hij : i ≤ j) :
    ∑ l ∈ range (i + 1), star (a l i) * b l j =
      ∑ l ∈ range n, star (if l ≤ i then a l i else 0) * (if l ≤ j then b l j else 0) := by
  have h1 : ∀ l ∈ range (i + 1), star (a l i) * b l j =
      star (if l ≤ i then a l i else 0) * (if l ≤ j then b l j else 0) := by
    intro l hl
    have := Finset.mem_range.1 hl
    rw [if_pos (by omega), if_pos (by omega)]
  rw [Finset.sum_congr rfl h1]
  refine Finset.sum_subset (fun l hl => ?_) (fun l hl hl' => ?_)
  · have := Finset.mem_range.1 hl; exact Finset.mem_range.2 (by omega)
  · have := mt Finset.mem_range.2 hl'
    rw [if_neg (by omega)]; simp

/-! ### Consequences for the matrix -/

theorem chol_mul {h r : Nat → Nat → 𝕜} {n : Nat} (H : CholRows h r n n)
    (hh : ∀ i j, star (h i j) = h j i) :
    mat n n h = (mat n n (fun i j => if i ≤ j then r i j else 0)).conjTranspose *
      mat n n (fun i j => if i ≤ j then r i j else 0) := by
  rw [mat_conjTranspose, mat_mul, mat_ext_iff]
  have key : ∀ i j, i < n → i ≤ j → j < n →
      h i j = ∑ l ∈ range n, star (if l ≤ i then r l i else 0) * (if l ≤ j then r l j else 0) := by
    intro i j hi hij hj
    rw [← H.eq i j hi hij hj]
    exact sum_trunc hi r r j hij
  intro i j hi hj
  by_cases hij : i ≤ j
  · exact key i j hi hij hj
  · rw [← hh j i, key j i hj (by omega) hi, star_sum]
    refine Finset.sum_congr rfl (fun l _ => ?_)
    rw [star_mul', star_star, mul_comm]

theorem chol_posDef {h r : Nat → Nat → 𝕜} {n : Nat} (H : CholRows h r n n)
    (hh : ∀ i j, star (h i j) = h j i) : (mat n n h).PosDef := by
  rw [chol_mul H hh]
  refine Matrix.PosDef.conjTranspose_mul_self _ ?_
  have ht : (mat n n (fun i j => if i ≤ j then r i j else 0)).BlockTriangular id := by
    intro i j hij
    have : (j : Nat) < i := hij
    exact if_neg (by omega)
  have hdet : IsUnit (mat n n (fun i j => if i ≤ j then r i j else 0)).det := by
    rw [Matrix.det_of_isUpperTriangular ht, isUnit_iff_ne_zero, Finset.prod_ne_zero_iff]
    intro i _ h0
    have h1 : r i i = 0 := by simpa [mat] using h0
    have := (H.pos i i.2).1
    rw [h1] at this
    simp at this
  exact Matrix.mulVec_injective_of_isUnit ((Matrix.isUnit_iff_isUnit_det _).2 hdet)

theorem cholFail_not {h : Nat → Nat → 𝕜} {k : Nat} (H : CholFail h k)
    (hh : ∀ i j, star (h i j) = h j i) :
    (mat k k h).PosDef ∧ ¬ (mat (k + 1) (k + 1) h).PosDef := by
  obtain ⟨r, H1, H2⟩ := H
  refine ⟨chol_posDef (H1.mono (le_refl _) (by omega)) hh, fun hpd => ?_⟩
  set R := mat k (k + 1) (fun i j => if i ≤ j then r i j else 0) with hR
  obtain ⟨d, hd⟩ : ∃ d : 𝕜, d = h k k - ∑ l ∈ range k, star (r l k) * r l k := ⟨_, rfl⟩
  have hdre : RCLike.re d ≤ 0 := by rw [hd, map_sub]; linarith
  have hdec : mat (k + 1) (k + 1) h = R.conjTranspose * R +
      mat (k + 1) (k + 1) (fun i j => if i = k ∧ j = k then d else 0) := by
    rw [hR, mat_conjTranspose, mat_mul, mat_add, mat_ext_iff]
    have key : ∀ i j, i ≤ j → j < k + 1 →
        h i j = (∑ l ∈ range k, star (if l ≤ i then r l i else 0) * (if l ≤ j then r l j else 0)) +
          (if i = k ∧ j = k then d else 0) := by
      intro i j hij hj
      by_cases hi : i = k
      · obtain rfl : j = k := by omega
        subst hi
        rw [if_pos ⟨rfl, rfl⟩, hd]
        have : ∀ l ∈ range i, star (if l ≤ i then r l i else 0) * (if l ≤ i then r l i else 0) =
            star (r l i) * r l i := by
          intro l hl
          have := Finset.mem_range.1 hl
          rw [if_pos (by omega)]
        rw [Finset.sum_congr rfl this]; ring
      · rw [if_neg (by tauto), add_zero, ← H1.eq i j (by omega) hij (by omega)]
        exact sum_trunc (by omega) r r j hij
    have hdreal : star d = d := by
      rw [hd, star_sub, hh, star_sum]
      congr 1
      refine Finset.sum_congr rfl (fun l _ => ?_)
      rw [star_mul', star_star, mul_comm]
    intro i j hi hj
    by_cases hij : i ≤ j
    · exact key i j hij hj
    · rw [← hh j i, key j i (by omega) hi, star_add, star_sum]
      congr 1
      · refine Finset.sum_congr rfl (fun l _ => ?_)
        rw [star_mul', star_star, mul_comm]
      · rw [if_neg (by omega), if_neg (by omega), star_zero]
  -- a non-zero vector in the kernel of the wide matrix `R`
  obtain ⟨x, hx0, hx⟩ : ∃ x : Fin (k + 1) → 𝕜, x ≠ 0 ∧ R.mulVec x = 0 := by
    have := LinearMap.ker_ne_bot_of_finrank_lt (f := R.mulVecLin) (by simp)
    obtain ⟨x, hx, hne⟩ := (Submodule.ne_bot_iff _).1 this
    exact ⟨x, hne, by simpa using hx⟩
  have hpos := hpd.dotProduct_mulVec_pos hx0
  rw [hdec, Matrix.add_mulVec, ← Matrix.mulVec_mulVec, hx, Matrix.mulVec_zero, zero_add] at hpos
  have hval : star x ⬝ᵥ (mat (k + 1) (k + 1) (fun i j => if i = k ∧ j = k then d else 0)).mulVec x =
      d * (star (x (Fin.last k)) * x (Fin.last k)) := by
    simp only [dotProduct, Matrix.mulVec, mat]
    rw [Finset.sum_eq_single (Fin.last k)]
    · rw [Finset.sum_eq_single (Fin.last k)]
      · simp; ring
      · intro j _ hj
        rw [if_neg, zero_mul]
        rintro ⟨_, h2⟩
        exact hj (Fin.ext h2)
      · simp
    · intro i _ hi
      rw [Finset.sum_eq_zero, mul_zero]
      intro j _
      rw [if_neg, zero_mul]
      rintro ⟨h2, _⟩
      exact hi (Fin.ext h2)
    · simp
  rw [hval] at hpos
  have h3 := (RCLike.pos_iff.1 hpos).1
  have h4 : star (x (Fin.last k)) * x (Fin.last k) = ((‖x (Fin.last k)‖ ^ 2 : ℝ) : 𝕜) := by
    rw [show star (x (Fin.last k)) = (starRingEnd 𝕜) (x (Fin.last k)) from rfl, RCLike.conj_mul]
    norm_cast
  rw [h4, RCLike.re_mul_ofReal] at h3
  have : (0 : ℝ) ≤ ‖x (Fin.last k)‖ ^ 2 := by positivity
  nlinarith

/-- The Cholesky factor is unique. -/
theorem chol_unique {h r r' : Nat → Nat → 𝕜} {n : Nat} (H : CholRows h r n n)
    (H' : CholRows h r' n n) : ∀ i j, i ≤ j → j < n → r i j = r' i j := by
  intro i
  induction i using Nat.strong_induction_on with
  | _ i ih =>
    intro j hij hj
    have hi : i < n := by omega
    have hsum : ∀ c, i ≤ c → c < n → ∑ l ∈ range i, star (r l i) * r l c =
        ∑ l ∈ range i, star (r' l i) * r' l c := by
      intro c h1 h2
      refine Finset.sum_congr rfl (fun l hl => ?_)
      have := Finset.mem_range.1 hl
      rw [ih l this i (by omega) hi, ih l this c (by omega) h2]
    have hdiag : r i i = r' i i := by
      have e1 := H.eq i i hi (le_refl _) hi
      have e2 := H'.eq i i hi (le_refl _) hi
      rw [Finset.sum_range_succ, hsum i (le_refl _) hi] at e1
      rw [Finset.sum_range_succ] at e2
      have e3 : star (r i i) * r i i = star (r' i i) * r' i i :=
        add_left_cancel (e1.trans e2.symm)
      obtain ⟨p1, q1⟩ := H.pos i hi
      obtain ⟨p2, q2⟩ := H'.pos i hi
      have f1 : r i i = ((RCLike.re (r i i) : ℝ) : 𝕜) := by
        refine (RCLike.conj_eq_iff_re.1 (RCLike.conj_eq_iff_im.2 q1)).symm
      have f2 : r' i i = ((RCLike.re (r' i i) : ℝ) : 𝕜) := by
        refine (RCLike.conj_eq_iff_re.1 (RCLike.conj_eq_iff_im.2 q2)).symm
      rw [f1, f2] at e3
      simp only [RCLike.star_def, RCLike.conj_ofReal] at e3
      have e4 : RCLike.re (r i i) * RCLike.re (r i i) = RCLike.re (r' i i) * RCLike.re (r' i i) := by
        exact_mod_cast e3
      rw [f1, f2, (mul_self_inj p1.le p2.le).1 e4]
    have e1 := H.eq i j hi hij hj
    have e2 := H'.eq i j hi hij hj
    rw [Finset.sum_range_succ, hsum j hij hj] at e1
    rw [Finset.sum_range_succ] at e2
    have e3 : star (r i i) * r i j = star (r' i i) * r' i j := add_left_cancel (e1.trans e2.symm)
    rw [hdiag] at e3
    refine mul_left_cancel₀ ?_ e3
    intro h0
    have h1 : r' i i = 0 := by simpa using h0
    have := (H'.pos i hi).1
    rw [h1] at this; simp at this

end TLA
