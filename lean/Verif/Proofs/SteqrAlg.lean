import Verif.SpecEig
import Verif.Proofs.RotAlg
import Mathlib.LinearAlgebra.Matrix.NonsingularInverse
import Mathlib.Tactic.LinearCombination
import Mathlib.Tactic.Linarith
set_option linter.unusedTactic false
set_option linter.unusedVariables false
set_option linter.unusedSimpArgs false
set_option linter.unreachableTactic false

/-! # Algebra of the implicit QR and QL sweeps -/

namespace TLA
open Finset Matrix

/-- A tridiagonal matrix over the integers with a bulge at `k`: diagonal entry `a` at `k`, entries `u` at `(k-1,k)`,
`b` at `(k,k+1)` and `w` at `(k-1,k+1)`. -/
def bulZ (d e : ℤ → ℝ) (k : ℤ) (u w a b : ℝ) (r v : ℤ) : ℝ :=
  if r = v then (if r = k then a else d r)
  else if r + 1 = v then (if v = k then u else if r = k then b else e r)
  else if v + 1 = r then (if r = k then u else if v = k then b else e v)
  else if (r = k - 1 ∧ v = k + 1) ∨ (v = k - 1 ∧ r = k + 1) then w else 0

/-- Rotation of coordinates `k`, `k+1`. -/
def prZ (k : ℤ) (c s : ℝ) (x : ℤ → ℝ) : ℤ → ℝ := fun r =>
  if r = k then c * x k + s * x (k + 1) else if r = k + 1 then -s * x k + c * x (k + 1) else x r

variable {d e : ℤ → ℝ} {k : ℤ} {u w a b : ℝ}

theorem bulZ_symm (r v : ℤ) : bulZ d e k u w a b r v = bulZ d e k u w a b v r := by
  unfold bulZ
  by_cases h1 : r = v
  · subst h1; rfl
  · rw [if_neg h1, if_neg (Ne.symm h1)]
    by_cases h2 : r + 1 = v
    · rw [if_pos h2, if_neg (show ¬ v + 1 = r by omega), if_pos h2]
    · rw [if_neg h2]
      by_cases h3 : v + 1 = r
      · rw [if_pos h3, if_pos h3]
      · rw [if_neg h3, if_neg h3, if_neg h2]
        by_cases h4 : (r = k - 1 ∧ v = k + 1) ∨ (v = k - 1 ∧ r = k + 1)
        · rw [if_pos h4, if_pos (Or.symm h4)]
        · rw [if_neg h4, if_neg (fun h => h4 (Or.symm h))]

theorem bulZ_kk : bulZ d e k u w a b k k = a := by simp [bulZ]

theorem bulZ_k1 : bulZ d e k u w a b (k + 1) (k + 1) = d (k + 1) := by simp [bulZ]

theorem bulZ_kk1 : bulZ d e k u w a b k (k + 1) = b := by simp [bulZ]

theorem bulZ_k {v : ℤ} (h1 : v ≠ k) (h2 : v ≠ k + 1) : bulZ d e k u w a b k v = if v = k - 1 then u else 0 := by
  unfold bulZ
  rw [if_neg (Ne.symm h1), if_neg (by omega)]
  by_cases h : v = k - 1
  · rw [if_pos (by omega), if_pos rfl, if_pos h]
  · rw [if_neg (by omega), if_neg (by omega), if_neg h]

theorem bulZ_k' {v : ℤ} (h1 : v ≠ k) (h2 : v ≠ k + 1) :
    bulZ d e k u w a b (k + 1) v = if v = k - 1 then w else if v = k + 2 then e (k + 1) else 0 := by
  unfold bulZ
  rw [if_neg (Ne.symm h2)]
  by_cases h3 : v = k + 2
  · rw [if_pos (by omega), if_neg (by omega), if_neg (by omega), if_neg (by omega), if_pos h3]
  · rw [if_neg (by omega), if_neg (by omega), if_neg h3]
    by_cases h : v = k - 1
    · rw [if_pos (by omega), if_pos h]
    · rw [if_neg (by omega), if_neg h]

theorem bulZ_out {d' e' : ℤ → ℝ} {u' w' a' b' : ℝ} {r v : ℤ} (hd : ∀ j, j ≠ k → d' j = d j) (he : ∀ j, j ≠ k - 1 → e' j = e j)
    (h1 : r ≠ k) (h2 : r ≠ k + 1) (h3 : v ≠ k) (h4 : v ≠ k + 1) :
    bulZ d' e' (k + 1) u' w' a' b' r v = bulZ d e k u w a b r v := by
  unfold bulZ
  by_cases q1 : r = v
  · rw [if_pos q1, if_pos q1, if_neg h2, if_neg h1, hd r h1]
  · rw [if_neg q1, if_neg q1]
    by_cases q2 : r + 1 = v
    · rw [if_pos q2, if_pos q2, if_neg h4, if_neg h2, if_neg h3, if_neg h1, he r (by omega)]
    · rw [if_neg q2, if_neg q2]
      by_cases q3 : v + 1 = r
      · rw [if_pos q3, if_pos q3, if_neg h2, if_neg h4, if_neg h1, if_neg h3, he v (by omega)]
      · rw [if_neg q3, if_neg q3, if_neg (by omega), if_neg (by omega)]

/-- One step of the bulge chase. -/
theorem bulZ_step {d' e' : ℤ → ℝ} {c s rr : ℝ} (hu : c * c + s * s = 1) (h1 : c * u + s * w = rr) (h2 : -s * u + c * w = 0)
    (hdk : d' k = a + s * ((d (k + 1) - a) * s + 2 * c * b)) (hd : ∀ j, j ≠ k → d' j = d j)
    (hek : e' (k - 1) = rr) (he : ∀ j, j ≠ k - 1 → e' j = e j) (r v : ℤ) :
    prZ k c s (fun v => prZ k c s (fun r => bulZ d e k u w a b r v) r) v =
      bulZ d' e' (k + 1) (c * ((d (k + 1) - a) * s + 2 * c * b) - b) (s * e (k + 1))
        (d (k + 1) - s * ((d (k + 1) - a) * s + 2 * c * b)) (c * e (k + 1)) r v := by
  have sym : ∀ {x y}, (bulZ d e k u w a b x y) = bulZ d e k u w a b y x := fun {x y} => bulZ_symm x y
  have w1 : bulZ d e k u w a b (k + 1) k = b := by rw [bulZ_symm, bulZ_kk1]
  have keyk : ∀ v, v ≠ k → v ≠ k + 1 → c * bulZ d e k u w a b k v + s * bulZ d e k u w a b (k + 1) v =
      bulZ d' e' (k + 1) (c * ((d (k + 1) - a) * s + 2 * c * b) - b) (s * e (k + 1))
        (d (k + 1) - s * ((d (k + 1) - a) * s + 2 * c * b)) (c * e (k + 1)) k v := by
    intro v h3 h4
    rw [bulZ_k h3 h4, bulZ_k' h3 h4]
    unfold bulZ
    rw [if_neg (Ne.symm h3), if_neg (show ¬ k + 1 = v by omega)]
    by_cases q : v = k - 1
    · rw [if_pos q, if_pos q, if_pos (show v + 1 = k by omega), if_neg (show ¬ k = k + 1 by omega), if_neg (show ¬ v = k + 1 by omega),
        show v = k - 1 from q, hek, h1]
    · rw [if_neg q, if_neg q, if_neg (show ¬ v + 1 = k by omega)]
      by_cases q' : v = k + 2
      · rw [if_pos q', if_pos (by omega)]; ring
      · rw [if_neg q', if_neg (by omega)]; ring
  have keyk' : ∀ v, v ≠ k → v ≠ k + 1 → -s * bulZ d e k u w a b k v + c * bulZ d e k u w a b (k + 1) v =
      bulZ d' e' (k + 1) (c * ((d (k + 1) - a) * s + 2 * c * b) - b) (s * e (k + 1))
        (d (k + 1) - s * ((d (k + 1) - a) * s + 2 * c * b)) (c * e (k + 1)) (k + 1) v := by
    intro v h3 h4
    rw [bulZ_k h3 h4, bulZ_k' h3 h4]
    unfold bulZ
    rw [if_neg (Ne.symm h4)]
    by_cases q : v = k - 1
    · rw [if_pos q, if_pos q, if_neg (show ¬ k + 1 + 1 = v by omega), if_neg (show ¬ v + 1 = k + 1 by omega), if_neg (by omega), h2]
    · rw [if_neg q, if_neg q]
      by_cases q' : v = k + 2
      · rw [if_pos q', if_pos (show k + 1 + 1 = v by omega), if_neg (show ¬ v = k + 1 by omega), if_pos rfl]; ring
      · rw [if_neg q', if_neg (show ¬ k + 1 + 1 = v by omega), if_neg (show ¬ v + 1 = k + 1 by omega), if_neg (by omega)]; ring
  have hk1 : k + 1 ≠ k := by omega
  unfold prZ
  by_cases v1 : v = k
  · subst v1
    rw [if_pos rfl]
    by_cases r1 : r = v
    · subst r1
      simp only [if_true, bulZ_kk, bulZ_k1, bulZ_kk1, w1]
      rw [show bulZ d' e' (r + 1) _ _ _ _ r r = d' r from by simp [bulZ], hdk]
      linear_combination (a + 2 * s * s * (d (r + 1) - a) * 0 ) * hu
    · by_cases r2 : r = v + 1
      · subst r2
        simp only [if_neg hk1, if_true, bulZ_kk, bulZ_k1, bulZ_kk1, w1]
        rw [show bulZ d' e' (v + 1) (c * ((d (v + 1) - a) * s + 2 * c * b) - b) (s * e (v + 1))
        (d (v + 1) - s * ((d (v + 1) - a) * s + 2 * c * b)) (c * e (v + 1)) (v + 1) v = c * ((d (v + 1) - a) * s + 2 * c * b) - b from by
            simp [bulZ]; intro h; omega]
        linear_combination (-b) * hu
      · simp only [if_neg r1, if_neg r2]
        rw [bulZ_symm r v, bulZ_symm r (v + 1), keyk r r1 r2, bulZ_symm]
  · by_cases v2 : v = k + 1
    · subst v2
      simp only [if_neg hk1, if_true]
      by_cases r1 : r = k
      · subst r1
        simp only [if_true, bulZ_kk, bulZ_k1, bulZ_kk1, w1]
        rw [show bulZ d' e' (r + 1) (c * ((d (r + 1) - a) * s + 2 * c * b) - b) (s * e (r + 1))
        (d (r + 1) - s * ((d (r + 1) - a) * s + 2 * c * b)) (c * e (r + 1)) r (r + 1) = c * ((d (r + 1) - a) * s + 2 * c * b) - b from by simp [bulZ]]
        linear_combination (-b) * hu
      · by_cases r2 : r = k + 1
        · subst r2
          simp only [if_neg hk1, if_true, bulZ_kk, bulZ_k1, bulZ_kk1, w1]
          linear_combination (d (k + 1)) * hu
        · simp only [if_neg r1, if_neg r2]
          rw [bulZ_symm r k, bulZ_symm r (k + 1), keyk' r r1 r2, bulZ_symm]
    · simp only [if_neg v1, if_neg v2]
      by_cases r1 : r = k
      · subst r1
        simp only [if_true]
        exact keyk v v1 v2
      · by_cases r2 : r = k + 1
        · subst r2
          simp only [if_neg hk1, if_true]
          exact keyk' v v1 v2
        · simp only [if_neg r1, if_neg r2]
          exact (bulZ_out hd he r1 r2 v1 v2).symm

/-- Matrix form, for an injective numbering `f` of the coordinates with neighbours `x`, `y`. -/
theorem bulZ_mat {n : Nat} {f : Nat → ℤ} (hf : Function.Injective f) {x y : Nat} (hx : x < n) (hy : y < n) (hxy : f y = f x + 1)
    {d e d' e' : ℤ → ℝ} {u w a b c s rr : ℝ} (hu : c * c + s * s = 1) (h1 : c * u + s * w = rr) (h2 : -s * u + c * w = 0)
    (hdk : d' (f x) = a + s * ((d (f x + 1) - a) * s + 2 * c * b)) (hd : ∀ j, j ≠ f x → d' j = d j)
    (hek : e' (f x - 1) = rr) (he : ∀ j, j ≠ f x - 1 → e' j = e j) :
    rotMat n x y c s * mat n n (fun r v => bulZ d e (f x) u w a b (f r) (f v)) * (rotMat n x y c s)ᵀ =
      mat n n (fun r v => bulZ d' e' (f x + 1) (c * ((d (f x + 1) - a) * s + 2 * c * b) - b) (s * e (f x + 1))
        (d (f x + 1) - s * ((d (f x + 1) - a) * s + 2 * c * b)) (c * e (f x + 1)) (f r) (f v)) := by
  have hne : x ≠ y := fun h => by subst h; omega
  rw [← mat_colMap_rot hx hy hne, ← mat_rowMap_rot hx hy hne, mat_ext_iff]
  intro r v _ _
  have key := bulZ_step (k := f x) hu h1 h2 hdk hd hek he (f r) (f v)
  rw [← key]
  have pr : ∀ (g : ℤ → ℝ) (t : Nat), pairRot x y c s (fun t => g (f t)) t = prZ (f x) c s g (f t) := by
    intro g t
    unfold pairRot prZ
    by_cases e1 : t = x
    · subst e1; rw [if_pos rfl, if_pos rfl, ← hxy]
    · rw [if_neg e1, if_neg (fun h => e1 (hf h))]
      by_cases e2 : t = y
      · subst e2; rw [if_pos rfl, if_pos hxy, ← hxy]; rfl
      · rw [if_neg e2, if_neg (fun h => e2 (hf (h.trans hxy.symm)))]
  show pairRot x y c s (fun v => pairRot x y c s (fun r => bulZ d e (f x) u w a b (f r) (f v)) r) v = _
  rw [show (fun v => pairRot x y c s (fun r => bulZ d e (f x) u w a b (f r) (f v)) r) =
    fun v => (fun q => prZ (f x) c s (fun r => bulZ d e (f x) u w a b r q) (f r)) (f v) from
      funext fun v => pr (fun r => bulZ d e (f x) u w a b r (f v)) r]
  exact pr (fun q => prZ (f x) c s (fun r => bulZ d e (f x) u w a b r q) (f r)) v

/-! ### Sweeps -/

theorem rotMat_orth {n x y : Nat} (hx : x < n) (hy : y < n) (hne : x ≠ y) {c s : ℝ} (hu : c * c + s * s = 1) :
    (rotMat n x y c s)ᵀ * rotMat n x y c s = 1 := by
  have h := rotMat_unitary hx hy hne (c := c) (s := s) ⟨rfl, hu⟩
  rwa [conjTranspose_eq_transpose_of_trivial] at h

theorem rotMat_orth' {n x y : Nat} (hx : x < n) (hy : y < n) (hne : x ≠ y) {c s : ℝ} (hu : c * c + s * s = 1) :
    rotMat n x y c s * (rotMat n x y c s)ᵀ = 1 := mul_eq_one_comm.1 (rotMat_orth hx hy hne hu)

/-- State of a sweep before the rotation at `k`: `W0 = G W G^T` with `W` tridiagonal up to the bulge. -/
structure SwInv (n : Nat) (f : Nat → ℤ) (W0 : Matrix (Fin n) (Fin n) ℝ) (k0 k : ℤ) (g s c p : ℝ) (dz ez : ℤ → ℝ)
    (G : Matrix (Fin n) (Fin n) ℝ) : Prop where
  orth : Gᵀ * G = 1
  left : ez (k0 - 1) = 0
  sim : ∃ u w, (k = k0 → u = 0 ∧ w = 0) ∧ (k ≠ k0 → u = g ∧ w = s * ez k) ∧
    W0 = G * mat n n (fun r v => bulZ dz ez k u w (dz k - p) (c * ez k) (f r) (f v)) * Gᵀ

theorem SwInv.step {n : Nat} {f : Nat → ℤ} (hf : Function.Injective f) {W0 : Matrix (Fin n) (Fin n) ℝ} {k0 : ℤ} {x y : Nat}
    (hx : x < n) (hy : y < n) (hxy : f y = f x + 1) (hk0 : k0 ≤ f x) {g s c p : ℝ} {dz ez dz' ez' : ℤ → ℝ} {G : Matrix (Fin n) (Fin n) ℝ}
    (h : SwInv n f W0 k0 (f x) g s c p dz ez G) {c' s' r' : ℝ} (hu : c' * c' + s' * s' = 1)
    (h1 : c' * g + s' * (s * ez (f x)) = r') (h2 : -s' * g + c' * (s * ez (f x)) = 0)
    (hdk : dz' (f x) = (dz (f x) - p) + s' * ((dz (f x + 1) - (dz (f x) - p)) * s' + 2 * c' * (c * ez (f x))))
    (hd : ∀ j, j ≠ f x → dz' j = dz j)
    (hek : ez' (f x - 1) = if f x = k0 then ez (f x - 1) else r') (he : ∀ j, j ≠ f x - 1 → ez' j = ez j) :
    SwInv n f W0 k0 (f x + 1) (c' * ((dz (f x + 1) - (dz (f x) - p)) * s' + 2 * c' * (c * ez (f x))) - c * ez (f x)) s' c'
      (s' * ((dz (f x + 1) - (dz (f x) - p)) * s' + 2 * c' * (c * ez (f x)))) dz' ez' (G * (rotMat n x y c' s')ᵀ) := by
  have hne : x ≠ y := fun h => by subst h; omega
  obtain ⟨orth, left, u, w, hu0, hu1, sim⟩ := h
  refine ⟨?_, ?_, _, s' * ez (f x + 1), fun h => absurd h (by omega), fun _ => ⟨rfl, ?_⟩, ?_⟩
  · rw [transpose_mul, transpose_transpose, Matrix.mul_assoc, ← Matrix.mul_assoc Gᵀ, orth, Matrix.one_mul, rotMat_orth' hx hy hne hu]
  · by_cases hk : f x = k0
    · rw [hk, if_pos rfl] at hek; rw [hek]; exact left
    · rw [he _ (by omega)]; exact left
  · rw [he _ (by omega)]
  · have hbul := bulZ_mat hf hx hy hxy (d := dz) (e := ez) (d' := dz') (e' := ez') (u := u) (w := w) (a := dz (f x) - p) (b := c * ez (f x))
      (c := c') (s := s') (rr := ez' (f x - 1)) hu ?_ ?_ hdk hd rfl he
    · have e1 : mat n n (fun r v => bulZ dz' ez' (f x + 1) (c' * ((dz (f x + 1) - (dz (f x) - p)) * s' + 2 * c' * (c * ez (f x))) - c * ez (f x))
          (s' * ez (f x + 1)) (dz' (f x + 1) - s' * ((dz (f x + 1) - (dz (f x) - p)) * s' + 2 * c' * (c * ez (f x)))) (c' * ez' (f x + 1)) (f r) (f v)) =
          rotMat n x y c' s' * mat n n (fun r v => bulZ dz ez (f x) u w (dz (f x) - p) (c * ez (f x)) (f r) (f v)) * (rotMat n x y c' s')ᵀ := by
        rw [hbul, hd _ (by omega), he (f x + 1) (by omega)]
      rw [e1, sim, transpose_mul, transpose_transpose]
      have o := rotMat_orth hx hy hne hu
      generalize mat n n (fun r v => bulZ dz ez (f x) u w (dz (f x) - p) (c * ez (f x)) (f r) (f v)) = W
      generalize rotMat n x y c' s' = P at o
      calc G * W * Gᵀ = G * (1 * W * 1) * Gᵀ := by rw [Matrix.one_mul, Matrix.mul_one]
        _ = G * ((Pᵀ * P) * W * (Pᵀ * P)) * Gᵀ := by rw [o]
        _ = _ := by simp only [Matrix.mul_assoc]
    · by_cases hk : f x = k0
      · obtain ⟨rfl, rfl⟩ := hu0 hk
        rw [hek, if_pos hk, hk, left]; ring
      · obtain ⟨rfl, rfl⟩ := hu1 hk
        rw [hek, if_neg hk, h1]
    · by_cases hk : f x = k0
      · obtain ⟨rfl, rfl⟩ := hu0 hk; ring
      · obtain ⟨rfl, rfl⟩ := hu1 hk; exact h2

/-- End of a sweep: the bulge has left the block. -/
theorem SwInv.final {n : Nat} {f : Nat → ℤ} {W0 : Matrix (Fin n) (Fin n) ℝ} {k0 k : ℤ} (hk : k0 < k) {g s c p : ℝ}
    {dz ez dz' ez' : ℤ → ℝ} {G : Matrix (Fin n) (Fin n) ℝ} (h : SwInv n f W0 k0 k g s c p dz ez G) (h0 : ez k = 0)
    (hdk : dz' k = dz k - p) (hd : ∀ j, j ≠ k → dz' j = dz j) (hek : ez' (k - 1) = g) (he : ∀ j, j ≠ k - 1 → ez' j = ez j) :
    W0 = G * mat n n (fun r v => bulZ dz' ez' k (ez' (k - 1)) 0 (dz' k) (ez' k) (f r) (f v)) * Gᵀ := by
  obtain ⟨orth, left, u, w, hu0, hu1, sim⟩ := h
  obtain ⟨rfl, rfl⟩ := hu1 (by omega)
  rw [sim]
  congr 2
  rw [mat_ext_iff]
  intro r v _ _
  rw [hek, hdk, he k (by omega), h0, mul_zero, mul_zero]
  unfold bulZ
  by_cases q1 : f r = f v
  · rw [if_pos q1, if_pos q1]
    by_cases q : f r = k
    · rw [if_pos q, if_pos q]
    · rw [if_neg q, if_neg q, hd _ q]
  · rw [if_neg q1, if_neg q1]
    by_cases q2 : f r + 1 = f v
    · rw [if_pos q2, if_pos q2]
      by_cases q : f v = k
      · rw [if_pos q, if_pos q]
      · rw [if_neg q, if_neg q, he (f r) (by omega)]
    · rw [if_neg q2, if_neg q2]
      by_cases q3 : f v + 1 = f r
      · rw [if_pos q3, if_pos q3]
        by_cases q : f r = k
        · rw [if_pos q, if_pos q]
        · rw [if_neg q, if_neg q, he (f v) (by omega)]
      · rw [if_neg q3, if_neg q3]

/-! ### The two numberings -/

/-- The diagonal, seen from above. -/
def dUp (d : Nat → ℝ) : ℤ → ℝ := fun j => if 0 ≤ j then d j.toNat else 0
/-- The off-diagonal, seen from above. -/
def eUp (n : Nat) (e : Nat → ℝ) : ℤ → ℝ := fun j => if 0 ≤ j ∧ j + 1 < n then e j.toNat else 0
/-- The diagonal, seen from below. -/
def dDn (d : Nat → ℝ) : ℤ → ℝ := fun j => if j ≤ 0 then d (-j).toNat else 0
/-- The off-diagonal, seen from below. -/
def eDn (n : Nat) (e : Nat → ℝ) : ℤ → ℝ := fun j => if 0 < -j ∧ -j < n then e ((-j).toNat - 1) else 0

theorem triS_up {n : Nat} {d e : Nat → ℝ} (k : ℤ) :
    mat n n (triS d e) = mat n n (fun r v => bulZ (dUp d) (eUp n e) k (eUp n e (k - 1)) 0 (dUp d k) (eUp n e k) (r : ℤ) (v : ℤ)) := by
  rw [mat_ext_iff]
  intro r v hr hv
  unfold triS bulZ
  by_cases q1 : r = v
  · rw [if_pos q1, if_pos (by omega)]
    by_cases q : (r : ℤ) = k
    · rw [if_pos q, ← q]; simp [dUp]
    · rw [if_neg q]; simp [dUp]
  · rw [if_neg q1, if_neg (show ¬ (r : ℤ) = v by omega)]
    by_cases q2 : r + 1 = v
    · rw [if_pos q2, if_pos (show (r : ℤ) + 1 = v by omega)]
      have ev : eUp n e r = e r := by unfold eUp; rw [if_pos (by omega)]; rfl
      by_cases q : (v : ℤ) = k
      · rw [if_pos q, ← q, show (v : ℤ) - 1 = r by omega, ev]
      · rw [if_neg q]
        by_cases q' : (r : ℤ) = k
        · rw [if_pos q', ← q', ev]
        · rw [if_neg q', ev]
    · rw [if_neg q2, if_neg (show ¬ (r : ℤ) + 1 = v by omega)]
      by_cases q3 : v + 1 = r
      · rw [if_pos q3, if_pos (show (v : ℤ) + 1 = r by omega)]
        have ev : eUp n e v = e v := by unfold eUp; rw [if_pos (by omega)]; rfl
        by_cases q : (r : ℤ) = k
        · rw [if_pos q, ← q, show (r : ℤ) - 1 = v by omega, ev]
        · rw [if_neg q]
          by_cases q' : (v : ℤ) = k
          · rw [if_pos q', ← q', ev]
          · rw [if_neg q', ev]
      · rw [if_neg q3, if_neg (show ¬ (v : ℤ) + 1 = r by omega)]
        split_ifs <;> rfl

theorem triS_dn {n : Nat} {d e : Nat → ℝ} (k : ℤ) :
    mat n n (triS d e) = mat n n (fun r v => bulZ (dDn d) (eDn n e) k (eDn n e (k - 1)) 0 (dDn d k) (eDn n e k) (-(r : ℤ)) (-(v : ℤ))) := by
  rw [mat_ext_iff]
  intro r v hr hv
  unfold triS bulZ
  by_cases q1 : r = v
  · rw [if_pos q1, if_pos (by omega)]
    by_cases q : -(r : ℤ) = k
    · rw [if_pos q, ← q]; simp [dDn]
    · rw [if_neg q]; simp [dDn]
  · rw [if_neg q1, if_neg (show ¬ -(r : ℤ) = -v by omega)]
    by_cases q2 : r + 1 = v
    · rw [if_pos q2, if_neg (show ¬ -(r : ℤ) + 1 = -v by omega), if_pos (show -(v : ℤ) + 1 = -r by omega)]
      have ev : eDn n e (-v) = e r := by unfold eDn; rw [if_pos (by omega)]; congr 1; omega
      by_cases q : -(r : ℤ) = k
      · rw [if_pos q, ← q, show -(r : ℤ) - 1 = -v by omega, ev]
      · rw [if_neg q]
        by_cases q' : -(v : ℤ) = k
        · rw [if_pos q', ← q', ev]
        · rw [if_neg q', ev]
    · rw [if_neg q2]
      by_cases q3 : v + 1 = r
      · rw [if_pos q3, if_pos (show -(r : ℤ) + 1 = -v by omega)]
        have ev : eDn n e (-r) = e v := by unfold eDn; rw [if_pos (by omega)]; congr 1; omega
        by_cases q : -(v : ℤ) = k
        · rw [if_pos q, ← q, show -(v : ℤ) - 1 = -r by omega, ev]
        · rw [if_neg q]
          by_cases q' : -(r : ℤ) = k
          · rw [if_pos q', ← q', ev]
          · rw [if_neg q', ev]
      · rw [if_neg q3, if_neg (show ¬ -(r : ℤ) + 1 = -v by omega), if_neg (show ¬ -(v : ℤ) + 1 = -r by omega)]
        split_ifs <;> rfl

/-- Start of a sweep. -/
theorem SwInv.start {n : Nat} {f : Nat → ℤ} {W0 : Matrix (Fin n) (Fin n) ℝ} {k : ℤ} {g : ℝ} {dz ez : ℤ → ℝ}
    (h0 : ez (k - 1) = 0) (h : W0 = mat n n (fun r v => bulZ dz ez k (ez (k - 1)) 0 (dz k) (ez k) (f r) (f v))) :
    SwInv n f W0 k k g 1 1 0 dz ez 1 := by
  refine ⟨by simp, h0, 0, 0, fun _ => ⟨rfl, rfl⟩, fun h => absurd rfl h, ?_⟩
  rw [h, h0, sub_zero, one_mul]
  simp

end TLA
