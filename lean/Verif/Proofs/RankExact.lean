import Verif.Proofs.RankK

/-! Exact-arithmetic value of the Hermitian/symmetric rank-k and rank-2k updates. -/

namespace TLA
set_option linter.unusedSimpArgs false
variable {L T : Type}

section
variable [Field T] [StarRing T] [ReIm T] [ExactScalar T]
open ExactScalar

theorem re_sum (n : Nat) (f : Nat → T) : re (∑ l ∈ Finset.range n, f l) = ∑ l ∈ Finset.range n, re (f l) := by
  induction n with
  | zero => simpa using re_of_star (0 : T) (by simp)
  | succ n ih => rw [Finset.sum_range_succ, Finset.sum_range_succ, re_add, ih]

theorem mul_star_self_re (a : T) : re a * re a + im a * im a = star a * a := by
  have h := re_mul (star a) a
  rw [re_star, im_star, re_of_star (star a * a) (by simp [mul_comm])] at h
  rw [h]; ring

theorem add_star_eq (z : T) : z + star z = 2 * re z := by rw [add_star]; ring

theorem star_fix_sum {n : Nat} {f : Nat → T} (h : ∀ l, star (f l) = f l) :
    star (∑ l ∈ Finset.range n, f l) = ∑ l ∈ Finset.range n, f l := by
  rw [star_sum]; exact Finset.sum_congr rfl (fun l _ => h l)

theorem herkVal_exact {trans : Op} {alpha : T} (a : Nat → Nat → T) (beta : Coef T)
    (c : Nat → Nat → T) (k i j : Nat) (hop : trans = .NoTrans ∨ trans = .ConjTrans)
    (ha : star alpha = alpha) :
    herkVal trans alpha a beta c k i j =
      alpha * (∑ l ∈ Finset.range k, opF trans a i l * star (opF trans a j l)) +
        beta.toVal * (if i = j then re (c i i) else c i j) := by
  have hb : ∀ v, beta.mulAssign v = beta.toVal * v := by
    intro v; cases beta <;> simp [Coef.mulAssign, Coef.toVal, mul_comm]
  have hb1 : ∀ v, beta.mulVal v = beta.toVal * v := by
    intro v; cases beta <;> simp [Coef.mulVal, Coef.toVal, mul_comm]
  have hb2 : ∀ x v, beta.addMul x v = x + beta.toVal * v := by
    intro x v; cases beta <;> simp [Coef.addMul, Coef.toVal]
  rcases hop with rfl | rfl
  · simp only [herkVal, hb, hb1, foldUp0_add, opF]
    rw [add_comm, Finset.mul_sum]
    by_cases e : i = j
    · subst e
      simp only [if_true]
      congr 1
      refine Finset.sum_congr rfl (fun l _ => ?_)
      rw [← re_mul, re_of_star]
      · ring
      · simp [ha]; ring
    · simp only [e, if_false]
      congr 1
      refine Finset.sum_congr rfl (fun l _ => ?_)
      ring
  · simp only [herkVal, hb, hb2, foldUp0_add, opF, zero_add, star_star]
    by_cases e : i = j
    · subst e
      simp only [if_true, mul_star_self_re]
    · simp only [e, if_false]

omit [ReIm T] [ExactScalar T] [StarRing T] in
theorem foldUp_pair (n : Nat) (f g : Nat → T) :
    foldUp 0 n ((0 : T), (0 : T)) (fun l s => (s.1 + f l, s.2 + g l)) =
      (∑ l ∈ Finset.range n, f l, ∑ l ∈ Finset.range n, g l) := by
  induction n with
  | zero => simp
  | succ n ih => rw [foldUp_succ (Nat.zero_le _), ih, Finset.sum_range_succ, Finset.sum_range_succ]

theorem her2kVal_exact {trans : Op} {alpha : T} (a b : Nat → Nat → T) (beta : Coef T)
    (c : Nat → Nat → T) (k i j : Nat) (hop : trans = .NoTrans ∨ trans = .ConjTrans) :
    her2kVal trans alpha a b beta c k i j =
      alpha * (∑ l ∈ Finset.range k, opF trans a i l * star (opF trans b j l)) +
      star alpha * (∑ l ∈ Finset.range k, opF trans b i l * star (opF trans a j l)) +
        beta.toVal * (if i = j then re (c i i) else c i j) := by
  have hb : ∀ v, beta.mulAssign v = beta.toVal * v := by
    intro v; cases beta <;> simp [Coef.mulAssign, Coef.toVal, mul_comm]
  have hb1 : ∀ v, beta.mulVal v = beta.toVal * v := by
    intro v; cases beta <;> simp [Coef.mulVal, Coef.toVal, mul_comm]
  have hb2 : ∀ x v, beta.addMul x v = x + beta.toVal * v := by
    intro x v; cases beta <;> simp [Coef.addMul, Coef.toVal]
  rcases hop with rfl | rfl
  · simp only [her2kVal, hb, hb1, foldUp0_add, opF]
    rw [add_comm, Finset.mul_sum, Finset.mul_sum, ← Finset.sum_add_distrib]
    by_cases e : i = j
    · subst e
      simp only [if_true]
      congr 1
      refine Finset.sum_congr rfl (fun l _ => ?_)
      rw [← re_mul, ← add_star_eq]
      simp; ring
    · simp only [e, if_false]
      congr 1
      refine Finset.sum_congr rfl (fun l _ => ?_)
      simp; ring
  · simp only [her2kVal, hb, hb2, foldUp_pair, opF, star_star]
    by_cases e : i = j
    · subst e
      simp only [if_true]
      congr 1
      have e2 : ∑ l ∈ Finset.range k, star (b l i) * a l i =
          star (∑ l ∈ Finset.range k, star (a l i) * b l i) := by
        rw [star_sum]; exact Finset.sum_congr rfl (fun l _ => by simp [mul_comm])
      rw [e2]
      generalize ∑ l ∈ Finset.range k, star (a l i) * b l i = s
      have h1 := re_mul alpha s
      rw [re_star, im_star]
      have h2 : alpha * s + star alpha * star s = 2 * re (alpha * s) := by
        rw [← add_star_eq]; simp [mul_comm]
      rw [h2, h1]; ring
    · simp only [e, if_false]

omit [ReIm T] [ExactScalar T] in
theorem syrkVal_exact {trans : Op} {alpha : T} (a : Nat → Nat → T) (beta : Coef T)
    (c : Nat → Nat → T) (k i j : Nat) (hop : trans = .NoTrans ∨ trans = .Trans) :
    syrkVal trans alpha a beta c k i j =
      alpha * (∑ l ∈ Finset.range k, opF trans a i l * opF trans a j l) + beta.toVal * c i j := by
  have hb : ∀ v, beta.mulAssign v = beta.toVal * v := by
    intro v; cases beta <;> simp [Coef.mulAssign, Coef.toVal, mul_comm]
  have hb2 : ∀ x v, beta.addMul x v = x + beta.toVal * v := by
    intro x v; cases beta <;> simp [Coef.addMul, Coef.toVal]
  rcases hop with rfl | rfl
  · simp only [syrkVal, hb, foldUp0_add, opF]
    rw [add_comm, Finset.mul_sum]
    congr 1
    exact Finset.sum_congr rfl (fun l _ => by ring)
  · simp only [syrkVal, hb2, foldUp0_add, opF, zero_add]

omit [ReIm T] [ExactScalar T] in
theorem syr2kVal_exact {trans : Op} {alpha : T} (a b : Nat → Nat → T) (beta : Coef T)
    (c : Nat → Nat → T) (k i j : Nat) (hop : trans = .NoTrans ∨ trans = .Trans) :
    syr2kVal trans alpha a b beta c k i j =
      alpha * (∑ l ∈ Finset.range k, opF trans a i l * opF trans b j l) +
      alpha * (∑ l ∈ Finset.range k, opF trans b i l * opF trans a j l) + beta.toVal * c i j := by
  have hb : ∀ v, beta.mulAssign v = beta.toVal * v := by
    intro v; cases beta <;> simp [Coef.mulAssign, Coef.toVal, mul_comm]
  have hb2 : ∀ x v, beta.addMul x v = x + beta.toVal * v := by
    intro x v; cases beta <;> simp [Coef.addMul, Coef.toVal]
  rcases hop with rfl | rfl
  · simp only [syr2kVal, hb, foldUp0_add, opF]
    rw [add_comm, Finset.mul_sum, Finset.mul_sum, ← Finset.sum_add_distrib]
    congr 1
    exact Finset.sum_congr rfl (fun l _ => by ring)
  · simp only [syr2kVal, hb2, foldUp_pair, opF]

end
end TLA
