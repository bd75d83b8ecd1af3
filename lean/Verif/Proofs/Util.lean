import Verif.Wp
import Mathlib.Tactic.Ring
import Mathlib.Tactic.Linarith

namespace TLA
variable {L T σ : Type}

open Finset

theorem foldUp_add [AddCommMonoid T] {lo hi : Nat} (h : lo ≤ hi) (s : T) (f : Nat → T) :
    foldUp lo hi s (fun i acc => acc + f i) = s + ∑ i ∈ Ico lo hi, f i := by
  induction hi, h using Nat.le_induction with
  | base => simp
  | succ hi hle ih => rw [foldUp_succ hle, ih, Finset.sum_Ico_succ_top hle, add_assoc]

theorem foldUp_sub [AddCommGroup T] {lo hi : Nat} (h : lo ≤ hi) (s : T) (f : Nat → T) :
    foldUp lo hi s (fun i acc => acc - f i) = s - ∑ i ∈ Ico lo hi, f i := by
  induction hi, h using Nat.le_induction with
  | base => simp
  | succ hi hle ih => rw [foldUp_succ hle, ih, Finset.sum_Ico_succ_top hle, sub_sub]

theorem foldUp0_add [AddCommMonoid T] (n : Nat) (s : T) (f : Nat → T) :
    foldUp 0 n s (fun i acc => acc + f i) = s + ∑ i ∈ range n, f i := by
  rw [foldUp_add (Nat.zero_le n), Finset.range_eq_Ico]

theorem foldDown_add [AddCommMonoid T] {lo hi : Nat} (h : lo ≤ hi) (s : T) (f : Nat → T) :
    foldDown lo hi s (fun i acc => acc + f i) = s + ∑ i ∈ Ico lo hi, f i := by
  obtain ⟨c, rfl⟩ := Nat.exists_eq_add_of_le h
  induction c generalizing lo with
  | zero => simp
  | succ c ih =>
    rw [foldDown_bot (by omega), show lo + (c + 1) = lo + 1 + c by omega, ih (by omega),
      Finset.sum_eq_sum_Ico_succ_bot (by omega : lo < lo + 1 + c), add_assoc, add_comm (f lo)]

/-- Sums over `Fin n` of a function of the value. -/
theorem finsum_range [AddCommMonoid T] (n : Nat) (f : Nat → T) :
    ∑ i : Fin n, f i = ∑ i ∈ range n, f i := (Finset.sum_range f).symm

/-- Entrywise form of a matrix equation. -/
theorem mat_ext_iff {m n : Nat} {a b : Nat → Nat → T} :
    mat m n a = mat m n b ↔ ∀ i j, i < m → j < n → a i j = b i j := by
  constructor
  · intro h i j hi hj
    exact congrFun (congrFun h ⟨i, hi⟩) ⟨j, hj⟩
  · intro h
    funext i j
    exact h i j i.2 j.2

/-- Product of the Mathlib matrices is the matrix of range sums. -/
theorem mat_mul [NonUnitalNonAssocSemiring T] (m k n : Nat) (a b : Nat → Nat → T) :
    mat m k a * mat k n b = mat m n (fun i j => ∑ l ∈ range k, a i l * b l j) := by
  funext i j
  rw [Matrix.mul_apply]
  exact finsum_range k (fun l => a i l * b l j)

theorem mat_mulVec [NonUnitalNonAssocSemiring T] (m n : Nat) (a : Nat → Nat → T) (x : Nat → T) :
    (mat m n a).mulVec (vec n x) = vec m (fun i => ∑ l ∈ range n, a i l * x l) := by
  funext i
  simp only [Matrix.mulVec, dotProduct, mat, vec]
  exact finsum_range n (fun l => a i l * x l)

theorem mat_smul [Mul T] (m n : Nat) (c : T) (a : Nat → Nat → T) :
    c • mat m n a = mat m n (fun i j => c * a i j) := rfl

theorem mat_add [Add T] (m n : Nat) (a b : Nat → Nat → T) :
    mat m n a + mat m n b = mat m n (fun i j => a i j + b i j) := rfl

theorem vec_smul [Mul T] (n : Nat) (c : T) (a : Nat → T) :
    c • vec n a = vec n (fun i => c * a i) := rfl

theorem vec_add [Add T] (n : Nat) (a b : Nat → T) :
    vec n a + vec n b = vec n (fun i => a i + b i) := rfl

theorem vec_ext_iff {n : Nat} {a b : Nat → T} :
    vec n a = vec n b ↔ ∀ i, i < n → a i = b i := by
  constructor
  · intro h i hi; exact congrFun h ⟨i, hi⟩
  · intro h; funext i; exact h i i.2

theorem mat_transpose (m n : Nat) (a : Nat → Nat → T) :
    (mat m n a).transpose = mat n m (fun i j => a j i) := rfl

theorem mat_conjTranspose [Star T] (m n : Nat) (a : Nat → Nat → T) :
    (mat m n a).conjTranspose = mat n m (fun i j => star (a j i)) := rfl

end TLA

namespace TLA
/-- Close pointwise update goals: case on the `if`s, then arithmetic or substitution. -/
macro "ifs" : tactic =>
  `(tactic| (split_ifs <;> first
    | rfl
    | (exfalso; omega)
    | ((try casesm* _ ∧ _); subst_vars; first | rfl | (exfalso; omega) | (simp; done))))

/-- `ifs` after deciding an equality. -/
macro "ifs_eq" a:ident b:ident : tactic =>
  `(tactic| (by_cases hh : $a = $b <;> [subst hh; skip] <;> ifs))

macro "upd_cases" : tactic => `(tactic| ifs)
end TLA

namespace TLA
theorem ite_upper {α : Type} (i j : Nat) (a b : α) :
    (if inTri .Upper i j then a else b) = if i ≤ j then a else b := rfl
theorem ite_lower {α : Type} (i j : Nat) (a b : α) :
    (if inTri .Lower i j then a else b) = if j ≤ i then a else b := rfl
theorem ite_general {α : Type} (i j : Nat) (a b : α) :
    (if inTri .General i j then a else b) = a := rfl
end TLA
