import Verif.SpecTik
import Verif.Proofs.Util
import Verif.Proofs.BlockMat
import Mathlib.LinearAlgebra.Matrix.PosDef
import Mathlib.LinearAlgebra.Matrix.Block
import Mathlib.Analysis.Matrix.PosDef
import Mathlib.Tactic.LinearCombination

/-! # Algebra of the Tikhonov solver -/

namespace TLA
open Finset Matrix
open scoped ComplexOrder
variable {𝕜 : Type} [RCLike 𝕜]

/-- `Q` depends only on the stored reflectors. -/
theorem houseQ_congr {dir : Direction} {store : StoreV} {q k : Nat} {V V' : Nat → Nat → 𝕜} {t t' : Nat → 𝕜}
    (hv : ∀ i r, i < k → r < q → houseVec dir store q k V i r = houseVec dir store q k V' i r) (ht : ∀ i, i < k → t i = t' i) :
    houseQ dir store q k V t = houseQ dir store q k V' t' := by
  have hH : ∀ i, i < k → houseH dir store q k V t i = houseH dir store q k V' t' i := by
    intro i hi
    unfold houseH
    rw [mat_ext_iff]
    intro r c hr hc
    unfold reflF
    rw [ht i hi, hv i r hi hr, hv i c hi hc]
  unfold houseQ
  cases dir <;> cases store <;> simp only []
  · congr 1; exact List.map_congr_left fun i hi => hH i (List.mem_range.1 hi)
  · congr 1; exact List.map_congr_left fun i hi => by rw [hH i (by simpa using hi)]
  · congr 1; exact List.map_congr_left fun i hi => hH i (by simpa using hi)
  · congr 1; exact List.map_congr_left fun i hi => by rw [hH i (by simpa using hi)]

theorem houseQ_congr_cols {dir : Direction} {q k : Nat} {V V' : Nat → Nat → 𝕜} {t t' : Nat → 𝕜}
    (hv : ∀ r i, r < q → i < k → V r i = V' r i) (ht : ∀ i, i < k → t i = t' i) :
    houseQ dir .Columnwise q k V t = houseQ dir .Columnwise q k V' t' :=
  houseQ_congr (fun i r hi hr => by unfold houseVec; simp only [hv r i hr hi]) ht

/-- Only the first `n` rows of `F` count in `Fᴴ Y`. -/
theorem mul_top {a n k : Nat} (hle : n ≤ a) {F Y : Nat → Nat → 𝕜} (h0 : ∀ i j, n ≤ i → i < a → j < n → F i j = 0) :
    (mat a n F)ᴴ * mat a k Y = (mat n n F)ᴴ * mat n k Y := by
  rw [mat_conjTranspose, mat_conjTranspose, mat_mul, mat_mul, mat_ext_iff]
  intro i j hi _
  refine (Finset.sum_subset (fun x hx => ?_) fun x hx hx' => ?_).symm
  · simp only [mem_range] at hx ⊢; omega
  · simp only [mem_range] at hx hx'
    rw [h0 x i (by omega) hx hi]; simp

theorem triU_below {A : Nat → Nat → 𝕜} {i j : Nat} (h : j < i) : triF .Upper .NonUnit A i j = 0 := by
  unfold triF
  rw [if_neg (by omega), if_neg (by simp only [inTri]; omega)]

theorem triU_above {A : Nat → Nat → 𝕜} {i j : Nat} (h : i ≤ j) : triF .Upper .NonUnit A i j = A i j := by
  unfold triF
  by_cases e : i = j
  · subst e; rw [if_pos rfl]
  · rw [if_neg e, if_pos (by simp only [inTri]; omega)]

/-- Gram matrix of the triangular factor. -/
theorem qr_gram {a n : Nat} (hle : n ≤ a) {A0 A1 : Nat → Nat → 𝕜} {Q : Matrix (Fin a) (Fin a) 𝕜}
    (h : mat a n A0 = Q * mat a n (triF .Upper .NonUnit A1)) (hQ : Qᴴ * Q = 1) :
    (mat n n (triF .Upper .NonUnit A1))ᴴ * mat n n (triF .Upper .NonUnit A1) = (mat a n A0)ᴴ * mat a n A0 := by
  rw [← mul_top hle (fun i j hi _ hj => triU_below (by omega)), h, conjTranspose_mul, Matrix.mul_assoc,
    ← Matrix.mul_assoc (Qᴴ), hQ, Matrix.one_mul]

/-- Right hand side seen through the factorisation. -/
theorem qr_rhs {a n k : Nat} (hle : n ≤ a) {A0 A1 B0 B1 : Nat → Nat → 𝕜} {Q : Matrix (Fin a) (Fin a) 𝕜}
    (h : mat a n A0 = Q * mat a n (triF .Upper .NonUnit A1)) (hB : mat a k B1 = Qᴴ * mat a k B0) :
    (mat n n (triF .Upper .NonUnit A1))ᴴ * mat n k B1 = (mat a n A0)ᴴ * mat a k B0 := by
  rw [← mul_top hle (fun i j hi _ hj => triU_below (by omega)), h, conjTranspose_mul, Matrix.mul_assoc, hB]

/-- The stacked matrix `[R; lam I]`. -/
def tikG (n : Nat) (lam : 𝕜) (A1 : Nat → Nat → 𝕜) (i j : Nat) : 𝕜 :=
  if i < n then triF .Upper .NonUnit A1 i j else if i - n = j then lam else 0

theorem tikG_low {n i j : Nat} {lam : 𝕜} {A1 : Nat → Nat → 𝕜} : tikG n lam A1 (n + i) j = if i = j then lam else 0 := by
  unfold tikG
  rw [if_neg (show ¬ n + i < n by omega), Nat.add_sub_cancel_left]

theorem sum_two {n : Nat} (f : Nat → 𝕜) : ∑ i ∈ range (n + n), f i = ∑ i ∈ range n, f i + ∑ i ∈ range n, f (n + i) :=
  Finset.sum_range_add f n n

theorem tikG_gram {n : Nat} {lam : 𝕜} {A1 : Nat → Nat → 𝕜} :
    (mat (n + n) n (tikG n lam A1))ᴴ * mat (n + n) n (tikG n lam A1) =
      (mat n n (triF .Upper .NonUnit A1))ᴴ * mat n n (triF .Upper .NonUnit A1) + (star lam * lam) • (1 : Matrix (Fin n) (Fin n) 𝕜) := by
  rw [mat_conjTranspose, mat_conjTranspose, mat_mul, mat_mul, ← mat_idF, mat_smul, mat_add, mat_ext_iff]
  intro i j hi hj
  rw [sum_two]
  congr 1
  · refine Finset.sum_congr rfl fun x hx => ?_
    unfold tikG
    rw [if_pos (mem_range.1 hx), if_pos (mem_range.1 hx)]
  · rw [Finset.sum_eq_single i]
    · rw [tikG_low, tikG_low, if_pos rfl]
      unfold idF
      by_cases e : i = j
      · rw [if_pos e, if_pos e, mul_one]
      · rw [if_neg e, if_neg e, mul_zero, mul_zero]
    · intro x _ hx
      rw [tikG_low, if_neg hx, star_zero, zero_mul]
    · intro h; exact absurd (mem_range.2 hi) h

theorem tikG_rhs {n k : Nat} {lam : 𝕜} {A1 B1 : Nat → Nat → 𝕜} :
    (mat (n + n) n (tikG n lam A1))ᴴ * mat (n + n) k (fun i j => if i < n then B1 i j else 0) =
      (mat n n (triF .Upper .NonUnit A1))ᴴ * mat n k B1 := by
  rw [mat_conjTranspose, mat_conjTranspose, mat_mul, mat_mul, mat_ext_iff]
  intro i j hi hj
  rw [sum_two, Finset.sum_eq_zero (s := range n) (f := fun x => _ * if n + x < n then _ else _), add_zero]
  · refine Finset.sum_congr rfl fun x hx => ?_
    unfold tikG
    rw [if_pos (mem_range.1 hx), if_pos (mem_range.1 hx)]
  · intro x _
    rw [if_neg (by omega), mul_zero]

/-- Column sums of a Gram matrix. -/
theorem colsq {a n : Nat} {A : Nat → Nat → 𝕜} {c : Nat} (hc : c < n) :
    ((mat a n A)ᴴ * mat a n A) ⟨c, hc⟩ ⟨c, hc⟩ = ((∑ r ∈ range a, ‖A r c‖ ^ 2 : ℝ) : 𝕜) := by
  rw [mat_conjTranspose, mat_mul]
  simp only [mat]
  rw [RCLike.ofReal_sum]
  refine Finset.sum_congr rfl fun r _ => ?_
  rw [← starRingEnd_apply, RCLike.conj_mul]; simp

theorem tikG_colsq {m n : Nat} (hle : n ≤ m) {lam : ℝ} {A0 A1 : Nat → Nat → 𝕜} {Q : Matrix (Fin m) (Fin m) 𝕜}
    (h : mat m n A0 = Q * mat m n (triF .Upper .NonUnit A1)) (hQ : Qᴴ * Q = 1) {c : Nat} (hc : c < n) :
    ∑ r ∈ range (n + n), ‖tikG n (lam : 𝕜) A1 r c‖ ^ 2 = ∑ r ∈ range m, ‖A0 r c‖ ^ 2 + lam ^ 2 := by
  have e := colsq (a := n + n) (A := tikG n (lam : 𝕜) A1) hc
  rw [tikG_gram, qr_gram hle h hQ, Matrix.add_apply, colsq hc, Matrix.smul_apply, Matrix.one_apply_eq] at e
  have e' : ((∑ r ∈ range m, ‖A0 r c‖ ^ 2 + lam ^ 2 : ℝ) : 𝕜) = ((∑ r ∈ range (n + n), ‖tikG n (lam : 𝕜) A1 r c‖ ^ 2 : ℝ) : 𝕜) := by
    rw [← e, RCLike.ofReal_add]
    congr 1
    simp [pow_two]
  exact (RCLike.ofReal_inj.1 e').symm

/-- `A^H A + lam² I` is positive definite. -/
theorem tik_posDef {m n : Nat} {A : Matrix (Fin m) (Fin n) 𝕜} {lam : ℝ} (h : lam ≠ 0 ∨ Function.Injective A.mulVec) :
    (Aᴴ * A + ((lam : 𝕜) ^ 2) • (1 : Matrix (Fin n) (Fin n) 𝕜)).PosDef := by
  have h1 : (Aᴴ * A).PosSemidef := posSemidef_conjTranspose_mul_self A
  have h2 : ((lam : 𝕜) ^ 2) = ((lam ^ 2 : ℝ) : 𝕜) := by push_cast; rfl
  by_cases hl : lam = 0
  · have := PosDef.conjTranspose_mul_self A (h.resolve_left (fun h => h hl))
    simpa [hl] using this
  · have h3 : (((lam : 𝕜) ^ 2) • (1 : Matrix (Fin n) (Fin n) 𝕜)).PosDef := by
      refine PosDef.smul PosDef.one ?_
      rw [h2]
      exact RCLike.ofReal_pos.2 (by positivity)
    exact PosDef.posSemidef_add h1 h3

theorem triU_diag_ne {n : Nat} {G : Nat → Nat → 𝕜} {P : Matrix (Fin n) (Fin n) 𝕜} (hP : P.PosDef)
    (h : (mat n n (triF .Upper .NonUnit G))ᴴ * mat n n (triF .Upper .NonUnit G) = P) {i : Nat} (hi : i < n) : G i i ≠ 0 := by
  intro h0
  have hd := hP.det_pos
  rw [← h, det_mul, det_of_isUpperTriangular (M := mat n n (triF .Upper .NonUnit G))] at hd
  · rw [Finset.prod_eq_zero (i := (⟨i, hi⟩ : Fin n)) (mem_univ _), mul_zero] at hd
    · exact lt_irrefl _ hd
    · show triF .Upper .NonUnit G i i = 0
      rw [triU_above (le_refl _), h0]
  · intro r c hrc
    exact triU_below (by simpa using hrc)

/-- The normal equations. -/
theorem tik_normal {m n k : Nat} (hle : n ≤ m) {lam : ℝ} {A0 A1 B0 B1 G0 G1 C0 C1 X : Nat → Nat → 𝕜}
    {Q1 : Matrix (Fin m) (Fin m) 𝕜} {Q2 : Matrix (Fin (n + n)) (Fin (n + n)) 𝕜}
    (h1 : mat m n A0 = Q1 * mat m n (triF .Upper .NonUnit A1)) (hQ1 : Q1ᴴ * Q1 = 1)
    (h2 : mat m k B1 = Q1ᴴ * mat m k B0)
    (h3 : mat (n + n) n G0 = mat (n + n) n (tikG n (lam : 𝕜) A1))
    (h4 : mat (n + n) n G0 = Q2 * mat (n + n) n (triF .Upper .NonUnit G1)) (hQ2 : Q2ᴴ * Q2 = 1)
    (h5 : mat (n + n) k C0 = mat (n + n) k (fun i j => if i < n then B1 i j else 0))
    (h6 : mat (n + n) k C1 = Q2ᴴ * mat (n + n) k C0)
    (h7 : mat n n (triF .Upper .NonUnit G1) * mat n k X = mat n k C1) :
    ((mat m n A0)ᴴ * mat m n A0 + ((lam : 𝕜) ^ 2) • 1) * mat n k X = (mat m n A0)ᴴ * mat m k B0 := by
  have e1 := qr_gram (by omega) h4 hQ2
  rw [h3, tikG_gram, qr_gram hle h1 hQ1] at e1
  have e2 : (star (lam : 𝕜) * lam) = (lam : 𝕜) ^ 2 := by simp [pow_two]
  rw [e2] at e1
  rw [← e1, Matrix.mul_assoc, h7, qr_rhs (by omega) h4 h6, h3, h5, tikG_rhs, qr_rhs hle h1 h2]

/-- Two solutions of the regularised problem. -/
theorem tikhonov_add {m n : Nat} (A : Matrix (Fin m) (Fin n) 𝕜) (b : Fin m → 𝕜) (lam : ℝ) (x y : Fin n → 𝕜)
    (hx : (Aᴴ * A + ((lam : 𝕜) ^ 2) • 1).mulVec x = Aᴴ.mulVec b) :
    tikhonov A b lam y = tikhonov A b lam x + (∑ r, ‖A.mulVec (y - x) r‖ ^ 2 + lam ^ 2 * ∑ c, ‖(y - x) c‖ ^ 2) := by
  have nsq : ∀ {q : Nat} (v : Fin q → 𝕜), ((∑ r, ‖v r‖ ^ 2 : ℝ) : 𝕜) = star v ⬝ᵥ v := by
    intro q v
    simp only [dotProduct, RCLike.ofReal_sum]
    refine Finset.sum_congr rfl fun r _ => ?_
    rw [Pi.star_apply, ← starRingEnd_apply, RCLike.conj_mul]; simp
  have key : ∀ z : Fin n → 𝕜, ((tikhonov A b lam z : ℝ) : 𝕜) = star (A.mulVec z - b) ⬝ᵥ (A.mulVec z - b) + (lam : 𝕜) ^ 2 * (star z ⬝ᵥ z) := by
    intro z
    unfold tikhonov
    rw [RCLike.ofReal_add, RCLike.ofReal_mul, nsq z, ← nsq (A.mulVec z - b)]
    push_cast; rfl
  have hy : y = x + (y - x) := by abel
  generalize y - x = d at hy ⊢
  subst hy
  have h0 : Aᴴ.mulVec (A.mulVec x - b) + ((lam : 𝕜) ^ 2) • x = 0 := by
    rw [add_mulVec, smul_mulVec, one_mulVec, ← mulVec_mulVec] at hx
    rw [mulVec_sub, ← hx]; abel
  have c1 : star (A.mulVec d) ⬝ᵥ (A.mulVec x - b) + (lam : 𝕜) ^ 2 * (star d ⬝ᵥ x) = 0 := by
    rw [star_mulVec, ← dotProduct_mulVec, ← smul_eq_mul, ← dotProduct_smul, ← dotProduct_add, h0, dotProduct_zero]
  have c2 : star (A.mulVec x - b) ⬝ᵥ A.mulVec d + (lam : 𝕜) ^ 2 * (star x ⬝ᵥ d) = 0 := by
    have sd : ∀ {q : Nat} (u v : Fin q → 𝕜), star (star u ⬝ᵥ v) = star v ⬝ᵥ u := by
      intro q u v
      simp [dotProduct, star_sum, mul_comm]
    have := congrArg star c1
    rw [star_add, star_mul', star_zero, sd, sd] at this
    simpa using this
  refine RCLike.ofReal_inj (K := 𝕜).1 ?_
  rw [RCLike.ofReal_add, RCLike.ofReal_add, RCLike.ofReal_mul, key, key, nsq, nsq]
  have e : A.mulVec (x + d) - b = (A.mulVec x - b) + A.mulVec d := by rw [mulVec_add]; abel
  rw [e]
  simp only [star_add, add_dotProduct, dotProduct_add]
  push_cast
  linear_combination c1 + c2

/-- A solution of the normal equations is the unique minimiser. -/
theorem tik_min {m n : Nat} {A : Matrix (Fin m) (Fin n) 𝕜} {b : Fin m → 𝕜} {lam : ℝ} {x y : Fin n → 𝕜} (hrank : lam ≠ 0 ∨ Function.Injective A.mulVec)
    (h : (Aᴴ * A + ((lam : 𝕜) ^ 2) • 1).mulVec x = Aᴴ.mulVec b) (hy : y ≠ x) : tikhonov A b lam x < tikhonov A b lam y := by
  rw [tikhonov_add (x := x) (y := y) A b lam]
  · have hd : y - x ≠ 0 := sub_ne_zero.2 hy
    generalize y - x = d at hd
    obtain ⟨c, hc⟩ := Function.ne_iff.1 hd
    have p1 : 0 ≤ ∑ r, ‖A.mulVec d r‖ ^ 2 := Finset.sum_nonneg fun _ _ => sq_nonneg _
    have p2 : 0 < ∑ c, ‖d c‖ ^ 2 :=
      Finset.sum_pos' (fun _ _ => sq_nonneg _) ⟨c, mem_univ _, by have := norm_pos_iff.2 hc; positivity⟩
    rcases hrank with hl | hi
    · have : 0 < lam ^ 2 * ∑ c, ‖d c‖ ^ 2 := mul_pos (by positivity) p2
      linarith
    · have hne : A.mulVec d ≠ 0 := fun h0 => hd (hi (by rw [h0, mulVec_zero]))
      obtain ⟨r, hr⟩ := Function.ne_iff.1 hne
      have p3 : 0 < ∑ r, ‖A.mulVec d r‖ ^ 2 :=
        Finset.sum_pos' (fun _ _ => sq_nonneg _) ⟨r, mem_univ _, by have := norm_pos_iff.2 hr; positivity⟩
      have : 0 ≤ lam ^ 2 * ∑ c, ‖d c‖ ^ 2 := by positivity
      linarith
  · exact h

end TLA
