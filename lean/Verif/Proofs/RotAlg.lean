import Verif.SpecRot
import Verif.Proofs.Blas1
import Verif.Proofs.SubView
import Verif.Model.Rot

/-! Algebra of plane rotations. -/

set_option linter.unusedTactic false
set_option linter.unusedSectionVars false
set_option linter.unusedVariables false
set_option linter.unreachableTactic false
set_option linter.unusedSimpArgs false

namespace TLA
open Matrix Finset
variable {L T : Type} [Field T] [StarRing T]

/-- A rotation applied to a vector. -/
def pairRot (p q : Nat) (c s : T) (x : Nat → T) : Nat → T := fun r =>
  if r = p then c * x p + s * x q else if r = q then -star s * x p + c * x q else x r

/-- A map of vectors applied to all columns. -/
def colMap (g : (Nat → T) → Nat → T) (F : Nat → Nat → T) : Nat → Nat → T := fun r j => g (fun r => F r j) r

/-- A map of vectors applied to all rows. -/
def rowMap (g : (Nat → T) → Nat → T) (F : Nat → Nat → T) : Nat → Nat → T := fun r j => g (F r) j

theorem mat_rotF_mulVec {n p q : Nat} (hp : p < n) (hq : q < n) (hpq : p ≠ q) (c s : T) (x : Nat → T) (r : Nat)
    (hr : r < n) : ∑ l ∈ range n, rotF p q c s r l * x l = pairRot p q c s x r := by
  unfold rotF pairRot
  by_cases e1 : r = p
  · subst e1
    simp only [if_true]
    have : ∀ l, (if l = r then c else if l = q then s else 0) * x l
        = (if l = r then c * x r else 0) + (if l = q then s * x q else 0) := by
      intro l
      by_cases h1 : l = r
      · subst h1; simp [hpq]
      · by_cases h2 : l = q
        · subst h2; simp [h1]
        · simp [h1, h2]
    simp only [this, sum_add_distrib, sum_ite_eq', mem_range, hr, hq, if_true]
  · by_cases e2 : r = q
    · subst e2
      simp only [if_true, if_neg e1]
      have : ∀ l, (if l = p then -star s else if l = r then c else 0) * x l
          = (if l = p then -star s * x p else 0) + (if l = r then c * x r else 0) := by
        intro l
        by_cases h1 : l = p
        · subst h1; simp [hpq]
        · by_cases h2 : l = r
          · subst h2; simp [h1]
          · simp [h1, h2]
      simp only [this, sum_add_distrib, sum_ite_eq', mem_range, hr, hp, if_true]
    · simp only [if_neg e1, if_neg e2, ite_mul, one_mul, zero_mul, sum_ite_eq, mem_range, hr, if_true]

theorem mat_colMap_rot {n m p q : Nat} (hp : p < n) (hq : q < n) (hpq : p ≠ q) (c s : T) (F : Nat → Nat → T) :
    mat n m (colMap (pairRot p q c s) F) = rotMat n p q c s * mat n m F := by
  unfold rotMat
  rw [mat_mul]
  refine mat_ext_iff.2 fun i j hi hj => ?_
  rw [mat_rotF_mulVec hp hq hpq c s (fun l => F l j) i hi]
  rfl

theorem mat_rowMap_rot {n m p q : Nat} (hp : p < n) (hq : q < n) (hpq : p ≠ q) (c s : T) (F : Nat → Nat → T) :
    mat m n (rowMap (pairRot p q c s) F) = mat m n F * (rotMat n p q c s)ᵀ := by
  have := mat_colMap_rot (m := m) hp hq hpq c s (fun i j => F j i)
  have h2 := congrArg transpose this
  rw [transpose_mul] at h2
  exact h2

/-- The transpose of a rotation with real cosine is the adjoint of the rotation with the conjugate sine. -/
theorem rotMat_transpose_star {n p q : Nat} {c : T} (hpq : p ≠ q) (hc : star c = c) (s : T) :
    (rotMat n p q c (star s))ᵀ = (rotMat n p q c s)ᴴ := by
  funext i j
  show rotF p q c (star s) j i = star (rotF p q c s j i)
  unfold rotF
  by_cases h1 : (j : Nat) = p
  · rw [if_pos h1, if_pos h1]
    by_cases h3 : (i : Nat) = p
    · rw [if_pos h3, if_pos h3, hc]
    · rw [if_neg h3, if_neg h3]; split <;> simp
  · rw [if_neg h1, if_neg h1]
    by_cases h3 : (j : Nat) = q
    · rw [if_pos h3, if_pos h3]
      by_cases h4 : (i : Nat) = p
      · rw [if_pos h4, if_pos h4]; simp
      · rw [if_neg h4, if_neg h4]; split <;> simp [hc]
    · rw [if_neg h3, if_neg h3]; split <;> simp

theorem rotMat_transpose_eq {n p q : Nat} {c : T} (hpq : p ≠ q) (hc : star c = c) (s : T) :
    (rotMat n p q c s)ᵀ = (rotMat n p q c (star s))ᴴ := by
  have := rotMat_transpose_star (n := n) hpq hc (star s)
  rwa [star_star] at this

/-- A genuine rotation is unitary. -/
theorem rotMat_unitary {n p q : Nat} (hp : p < n) (hq : q < n) (hpq : p ≠ q) {c s : T} (h : IsRot c s) :
    (rotMat n p q c s)ᴴ * rotMat n p q c s = 1 := by
  have e : (rotMat n p q c s)ᴴ = rotMat n p q c (-s) := by
    funext i j
    show star (rotF p q c s j i) = rotF p q c (-s) i j
    unfold rotF
    by_cases h1 : (j : Nat) = p
    · by_cases h2 : (i : Nat) = p
      · simp [h1, h2, h.1]
      · by_cases h3 : (i : Nat) = q
        · have h4 : ¬ q = p := fun e => hpq e.symm
          simp [h1, h2, h3, h.1, h4]
        · have h4 : ¬ (i : Nat) = p := h2
          simp [h1, h2, h3]
    · by_cases h1' : (j : Nat) = q
      · have h4 : ¬ q = p := fun e => hpq e.symm
        by_cases h2 : (i : Nat) = p
        · simp [h1', h2, h4]
        · by_cases h3 : (i : Nat) = q
          · simp [h1', h2, h3, h.1, h4]
          · simp [h1', h2, h3, h4]
      · by_cases h2 : (i : Nat) = p
        · have : ¬ (j : Nat) = (i : Nat) := fun e => h1 (e.trans h2)
          simp [h1, h1', h2, fun e : (j : Nat) = p => h1 e]
        · by_cases h3 : (i : Nat) = q
          · simp [h1, h1', h2, h3]
          · simp only [h1, h1', h2, h3, if_false]
            by_cases h5 : (j : Nat) = i
            · rw [if_pos h5, if_pos h5.symm, star_one]
            · rw [if_neg h5, if_neg (fun e => h5 e.symm), star_zero]
  rw [e]
  show rotMat n p q c (-s) * mat n n (rotF p q c s) = 1
  rw [← mat_colMap_rot hp hq hpq]
  funext i j
  show pairRot p q c (-s) (fun r => rotF p q c s r j) i = (1 : Matrix (Fin n) (Fin n) T) i j
  rw [Matrix.one_apply]
  unfold pairRot rotF
  have hqp : ¬ q = p := fun e => hpq e.symm
  have hcc := h.2
  by_cases h1 : (i : Nat) = p
  · simp only [if_pos h1, if_true, if_neg hqp]
    by_cases h2 : (j : Nat) = p
    · rw [if_pos h2, if_pos h2, if_pos (Fin.ext (h1.trans h2.symm))]
      rw [← hcc]; ring
    · rw [if_neg h2, if_neg h2, if_neg (fun e : i = j => h2 (e ▸ h1))]
      split <;> ring
  · rw [if_neg h1]
    by_cases h3 : (i : Nat) = q
    · simp only [if_pos h3, if_true, if_neg hqp]
      by_cases h2 : (j : Nat) = p
      · rw [if_pos h2, if_pos h2, if_neg (fun e : i = j => h1 (e ▸ h2))]
        simp only [star_neg]; ring
      · rw [if_neg h2, if_neg h2]
        by_cases h4 : (j : Nat) = q
        · rw [if_pos h4, if_pos h4, if_pos (Fin.ext (h3.trans h4.symm))]
          rw [← hcc]; simp only [star_neg]; ring
        · rw [if_neg h4, if_neg h4, if_neg (fun e : i = j => h4 (e ▸ h3))]
          simp
    · simp only [if_neg h3, if_neg h1]
      by_cases h5 : i = j
      · simp [h5]
      · rw [if_neg (fun e => h5 (Fin.ext e)), if_neg h5]

/-! Sequences of rotations. -/

/-- `P(lo) ⋯ P(hi-1)` applied to a vector. -/
def rotsDn (c s : Nat → T) (lo hi : Nat) (x : Nat → T) : Nat → T :=
  foldDown lo hi x fun i x => pairRot i (i + 1) (c i) (s i) x

/-- `P(hi-1) ⋯ P(lo)` applied to a vector. -/
def rotsUp (c s : Nat → T) (lo hi : Nat) (x : Nat → T) : Nat → T :=
  foldUp lo hi x fun i x => pairRot i (i + 1) (c i) (s i) x

theorem rotProd_self (n : Nat) (c s : Nat → T) (k : Nat) : rotProd n c s k k = 1 := by
  simp [rotProd]

theorem rotProd_bot {n : Nat} (c s : Nat → T) {lo hi : Nat} (h : lo < hi) :
    rotProd n c s lo hi = rotMat n lo (lo + 1) (c lo) (s lo) * rotProd n c s (lo + 1) hi := by
  unfold rotProd
  obtain ⟨d, rfl⟩ : ∃ d, hi = lo + 1 + d := ⟨hi - (lo + 1), by omega⟩
  rw [show lo + 1 + d - lo = d + 1 by omega, show lo + 1 + d - (lo + 1) = d by omega, List.range'_succ]
  simp

theorem rotProdRev_self (n : Nat) (c s : Nat → T) (k : Nat) : rotProdRev n c s k k = 1 := by
  simp [rotProdRev]

theorem rotProdRev_succ {n : Nat} (c s : Nat → T) {lo hi : Nat} (h : lo ≤ hi) :
    rotProdRev n c s lo (hi + 1) = rotMat n hi (hi + 1) (c hi) (s hi) * rotProdRev n c s lo hi := by
  unfold rotProdRev
  obtain ⟨d, rfl⟩ : ∃ d, hi = lo + d := ⟨hi - lo, by omega⟩
  rw [show lo + d + 1 - lo = d + 1 by omega, show lo + d - lo = d by omega, List.range'_concat]
  simp

theorem mat_rotsDn {n m : Nat} (c s : Nat → T) {hi : Nat} (hhi : hi + 1 ≤ n ∨ hi = 0) (F : Nat → Nat → T) :
    ∀ d lo, lo + d = hi → mat n m (colMap (rotsDn c s lo hi) F) = rotProd n c s lo hi * mat n m F := by
  intro d
  induction d with
  | zero =>
    intro lo h
    obtain rfl : lo = hi := by omega
    rw [rotProd_self, Matrix.one_mul]
    refine mat_ext_iff.2 fun i j _ _ => ?_
    simp [colMap, rotsDn, rotsUp]
  | succ d ih =>
    intro lo h
    rw [rotProd_bot c s (by omega : lo < hi), Matrix.mul_assoc, ← ih (lo + 1) (by omega),
      ← mat_colMap_rot (by omega) (by omega) (by omega)]
    refine mat_ext_iff.2 fun i j _ _ => ?_
    show rotsDn c s lo hi (fun r => F r j) i = _
    unfold rotsDn
    rw [foldDown_bot (by omega : lo < hi)]
    rfl

theorem mat_rotsUp {n m : Nat} (c s : Nat → T) {lo : Nat} (F : Nat → Nat → T) :
    ∀ d, (lo + d + 1 ≤ n ∨ d = 0) →
      mat n m (colMap (rotsUp c s lo (lo + d)) F) = rotProdRev n c s lo (lo + d) * mat n m F := by
  intro d
  induction d with
  | zero =>
    intro _
    rw [Nat.add_zero, rotProdRev_self, Matrix.one_mul]
    refine mat_ext_iff.2 fun i j _ _ => ?_
    simp [colMap, rotsDn, rotsUp]
  | succ d ih =>
    intro h
    rw [show lo + (d + 1) = lo + d + 1 by omega, rotProdRev_succ c s (by omega : lo ≤ lo + d), Matrix.mul_assoc,
      ← ih (by omega), ← mat_colMap_rot (by omega) (by omega) (by omega)]
    refine mat_ext_iff.2 fun i j _ _ => ?_
    show rotsUp c s lo (lo + d + 1) (fun r => F r j) i = _
    unfold rotsUp
    rw [foldUp_succ (by omega : lo ≤ lo + d)]
    rfl

end TLA
