import Verif.Proofs.Laed6
import Mathlib.Topology.Order.IntermediateValue
import Mathlib.Topology.Algebra.Order.Field
import Mathlib.Topology.Instances.Real.Lemmas
import Mathlib.Data.Fin.VecNotation
import Mathlib.Tactic.NormNum
import Mathlib.Tactic.FinCases

/-!
# C98: laed6, the root of a secular equation with three poles
-/

set_option linter.unusedVariables false
set_option linter.unusedSimpArgs false

namespace TLA.Kernel
open Finset

/-- **C98** Between two neighbouring poles (with positive weights) the secular equation has exactly one root. -/
theorem C98_secular_root {orgati : Bool} {rho : ℝ} {d z : Fin 3 → ℝ} (h1 : d 0 < d 1) (h2 : d 1 < d 2) (hz : ∀ i, 0 < z i) :
    ∃! r, l6Lo orgati d < r ∧ r < l6Hi orgati d ∧ secular3 rho d z r = 0 := by
  have side : ∀ i, d i ≤ l6Lo orgati d ∨ l6Hi orgati d ≤ d i := by
    intro i
    unfold l6Lo l6Hi
    cases orgati <;> fin_cases i <;> simp <;> first | (left; linarith) | (right; linarith)
  have lh : l6Lo orgati d < l6Hi orgati d := by unfold l6Lo l6Hi; cases orgati <;> simpa
  have term : ∀ {i : Fin 3} {x y : ℝ}, l6Lo orgati d < x → x < y → y < l6Hi orgati d → z i / (d i - x) < z i / (d i - y) := by
    intro i x y a b c
    have hp : 0 < (d i - x) * (d i - y) := by
      rcases side i with e | e
      · exact mul_pos_of_neg_of_neg (by linarith) (by linarith)
      · exact mul_pos (by linarith) (by linarith)
    have n1 : d i - x ≠ 0 := left_ne_zero_of_mul hp.ne'
    have n2 : d i - y ≠ 0 := right_ne_zero_of_mul hp.ne'
    have e : z i / (d i - y) - z i / (d i - x) = z i * (y - x) / ((d i - x) * (d i - y)) := by field_simp; ring
    have := div_pos (mul_pos (hz i) (sub_pos.2 b)) hp
    linarith
  have mono : ∀ {x y : ℝ}, l6Lo orgati d < x → x < y → y < l6Hi orgati d → secular3 rho d z x < secular3 rho d z y := by
    intro x y a b c
    unfold secular3
    have := Finset.sum_lt_sum_of_nonempty (s := (univ : Finset (Fin 3))) ⟨0, mem_univ _⟩ fun i _ => term (i := i) a b c
    linarith
  obtain ⟨m, m1, m2⟩ := exists_between lh
  obtain ⟨p, q, ep, eq⟩ : ∃ p q : Fin 3, d p = l6Lo orgati d ∧ d q = l6Hi orgati d := by
    cases orgati
    · exact ⟨0, 1, rfl, rfl⟩
    · exact ⟨1, 2, rfl, rfl⟩
  have split : ∀ (p : Fin 3) x, secular3 rho d z x = (rho + ∑ i ∈ univ.erase p, z i / (d i - x)) + z p / (d p - x) := by
    intro p x
    unfold secular3
    rw [add_assoc, Finset.sum_erase_add _ _ (mem_univ p)]
  obtain ⟨x, x1, x2, x3⟩ : ∃ x, l6Lo orgati d < x ∧ x < m ∧ secular3 rho d z x ≤ 0 := by
    obtain ⟨K, hK⟩ : ∃ K, K = rho + ∑ i ∈ univ.erase p, z i / (d i - m) := ⟨_, rfl⟩
    have hk : 0 < |K| + 1 := by positivity
    obtain ⟨δ, e1, e2⟩ := exists_between (lt_min (sub_pos.2 m1) (div_pos (hz p) hk))
    obtain ⟨e2, e3⟩ := lt_min_iff.1 e2
    refine ⟨l6Lo orgati d + δ, by linarith, by linarith, ?_⟩
    rw [split p, ep, show l6Lo orgati d - (l6Lo orgati d + δ) = -δ by ring, div_neg]
    have s : ∑ i ∈ univ.erase p, z i / (d i - (l6Lo orgati d + δ)) ≤ ∑ i ∈ univ.erase p, z i / (d i - m) :=
      Finset.sum_le_sum fun i _ => (term (i := i) (by linarith) (by linarith) m2).le
    have t : |K| + 1 ≤ z p / δ := by
      rw [le_div_iff₀ e1]
      have := (lt_div_iff₀ hk).1 e3
      linarith [mul_comm δ (|K| + 1)]
    have := le_abs_self K
    linarith
  obtain ⟨y, y1, y2, y3⟩ : ∃ y, m < y ∧ y < l6Hi orgati d ∧ 0 ≤ secular3 rho d z y := by
    obtain ⟨K, hK⟩ : ∃ K, K = rho + ∑ i ∈ univ.erase q, z i / (d i - m) := ⟨_, rfl⟩
    have hk : 0 < |K| + 1 := by positivity
    obtain ⟨δ, e1, e2⟩ := exists_between (lt_min (sub_pos.2 m2) (div_pos (hz q) hk))
    obtain ⟨e2, e3⟩ := lt_min_iff.1 e2
    refine ⟨l6Hi orgati d - δ, by linarith, by linarith, ?_⟩
    rw [split q, eq, show l6Hi orgati d - (l6Hi orgati d - δ) = δ by ring]
    have s : ∑ i ∈ univ.erase q, z i / (d i - m) ≤ ∑ i ∈ univ.erase q, z i / (d i - (l6Hi orgati d - δ)) :=
      Finset.sum_le_sum fun i _ => (term (i := i) m1 (by linarith) (by linarith)).le
    have t : |K| + 1 ≤ z q / δ := by
      rw [le_div_iff₀ e1]
      have := (lt_div_iff₀ hk).1 e3
      linarith [mul_comm δ (|K| + 1)]
    have := neg_abs_le K
    linarith
  have cont : ContinuousOn (secular3 rho d z) (Set.Icc x y) := by
    unfold secular3
    refine continuousOn_const.add (continuousOn_finset_sum _ fun i _ => ContinuousOn.div continuousOn_const (continuousOn_const.sub continuousOn_id) ?_)
    rintro t ⟨a, b⟩ e
    have e : d i = t := sub_eq_zero.1 e
    rcases side i with h | h <;> linarith
  obtain ⟨r, ⟨r1, r2⟩, r3⟩ := intermediate_value_Icc (by linarith) cont ⟨x3, y3⟩
  refine ⟨r, ⟨by linarith, by linarith, r3⟩, ?_⟩
  rintro t ⟨t1, t2, t3⟩
  rcases lt_trichotomy t r with h | h | h
  · have := mono t1 h (by linarith); rw [t3, r3] at this; exact absurd this (lt_irrefl _)
  · exact h
  · have := mono (by linarith) h t2; rw [t3, r3] at this; exact absurd this (lt_irrefl _)

/-- **C98** For every documented input laed6 divides by nonzero numbers only, returns 0 or 1 and a number that is never outside the interval of the root `r` and never on the
other side of the origin; if it returns 0, the number is accepted in the sense of `L6Accept`. -/
theorem C98_laed6 {orgati : Bool} {rho finit r eps small1 : ℝ} {d z : Fin 3 → ℝ} (h : L6In orgati rho d z finit r) (he : 0 < eps) (hs : 0 < small1) (first : Bool) :
    ∃ info tau, laed6 eps small1 first orgati rho d z finit = some (info, tau) ∧ (info = 0 ∨ info = 1) ∧ l6Lo orgati d ≤ tau ∧ tau ≤ l6Hi orgati d ∧
      0 ≤ tau * r ∧ (info = 0 → L6Accept eps orgati rho d z finit r tau) := laed6_ok h he hs first

/-- The poles -2, -1, 1 with weights 4, 1/2, 1/2. -/
noncomputable def l6d : Fin 3 → ℝ := fun i => if i = 0 then -2 else if i = 1 then -1 else 1
noncomputable def l6z : Fin 3 → ℝ := fun i => if i = 0 then 4 else 1 / 2

theorem l6d_0 : l6d 0 = -2 := if_pos rfl
theorem l6d_1 : l6d 1 = -1 := (if_neg (by decide)).trans (if_pos rfl)
theorem l6d_2 : l6d 2 = 1 := (if_neg (by decide)).trans (if_neg (by decide))
theorem l6z_0 : l6z 0 = 4 := if_pos rfl
theorem l6z_1 : l6z 1 = 1 / 2 := if_neg (by decide)
theorem l6z_2 : l6z 2 = 1 / 2 := if_neg (by decide)
theorem l6d_ne : ∀ i, l6d i ≠ 0 := by
  intro i
  unfold l6d
  split
  · norm_num
  · split <;> norm_num
theorem l6z_pos : ∀ i, 0 < l6z i := by
  intro i
  unfold l6z
  split <;> norm_num

theorem l6_in : ∃ r, L6In true (2 / 3) l6d l6z (-4 / 3) r := by
  obtain ⟨r, ⟨r1, r2, r3⟩, -⟩ := C98_secular_root (orgati := true) (rho := 2 / 3) (d := l6d) (z := l6z) (by norm_num [l6d_0, l6d_1, l6d_2]) (by norm_num [l6d_0, l6d_1, l6d_2])
    l6z_pos
  refine ⟨r, by norm_num [l6d_0, l6d_1, l6d_2], by norm_num [l6d_0, l6d_1, l6d_2], l6d_ne, l6z_pos, by norm_num [l6Lo, l6d_0, l6d_1, l6d_2],
    by norm_num [l6Hi, l6d_0, l6d_1, l6d_2], ?_, r1, r2, r3⟩
  unfold secular3
  rw [Fin.sum_univ_three]
  norm_num [l6d_0, l6d_1, l6d_2, l6z_0, l6z_1, l6z_2]

/-- **C98, violation** The second pole is returned as the root with `info = 0`: line 281 sets `c = b / temp` where `c = c / temp` is meant, so that the next iterate can be a
pole, and an iterate that is a pole counts as converged. -/
theorem C98_laed6_pole_violated {eps small1 : ℝ} (h0 : 0 < small1) (h1 : small1 < 1) :
    laed6 eps small1 false true (2 / 3) l6d l6z (-4 / 3) = some (0, 1) ∧ (∃ i, l6d i = 1) ∧ ∃ r < 1, secular3 (2 / 3) l6d l6z r = 0 ∧ l6d 1 < r := by
  refine ⟨?_, ⟨2, by norm_num [l6d_0, l6d_1, l6d_2]⟩, ?_⟩
  · have es : l6Sums l6d l6z 0 = some (l6z 0 / (4 : ℝ) + l6z 1 + l6z 2, 2, -1 / 2, l6z 0 / (4 : ℝ) + l6z 1 + l6z 2) := by
      unfold l6Sums
      rw [dv_ne (by norm_num [l6d_0, l6d_1, l6d_2]), dv_ne (by norm_num [l6d_0, l6d_1, l6d_2]), dv_ne (by norm_num [l6d_0, l6d_1, l6d_2])]
      simp only [bind_s]
      rw [dv_ne (by norm_num [l6d_0, l6d_1, l6d_2]), dv_ne (by norm_num [l6d_0, l6d_1, l6d_2]), dv_ne (by norm_num [l6d_0, l6d_1, l6d_2])]
      simp only [bind_s]
      show some _ = _
      norm_num [l6d_0, l6d_1, l6d_2, l6z_0, l6z_1, l6z_2]
    have q3 : Real.sqrt (1 / 9) = 1 / 3 := by
      rw [show (1 / 9 : ℝ) = (1 / 3) ^ 2 by norm_num, Real.sqrt_sq (by norm_num)]
    have ep : l6Pass eps (-4 / 3) true l6d l6z ⟨0, 1, 0, -4 / 3, 2, -1 / 2, false⟩ = some ⟨0, 1, 1, -4 / 3, 2, -1 / 2, true⟩ := by
      unfold l6Pass
      have lo : l6Lo true l6d = -1 := by norm_num [l6Lo, l6d_0, l6d_1, l6d_2]
      have hi : l6Hi true l6d = 1 := by norm_num [l6Hi, l6d_0, l6d_1, l6d_2]
      have mx : max (max |(-1 - 0 + (1 - 0)) * (-4 / 3) - (-1 - 0) * (1 - 0) * 2| |(-1 - 0) * (1 - 0) * (-4 / 3)|)
          |(-4 / 3 : ℝ) - (-1 - 0 + (1 - 0)) * 2 + (-1 - 0) * (1 - 0) * (-1 / 2)| = 2 := by
        norm_num [abs_of_pos, abs_of_neg]
      dsimp only
      rw [lo, hi, mx]
      have nz : (2 : ℝ) ≠ 0 := by norm_num
      rw [dv_ne nz]
      simp only [bind_s]
      rw [dv_ne nz]
      simp only [bind_s]
      rw [dv_ne nz]
      simp only [bind_s]
      have eq : l6Quad (((-1 - 0 + (1 - 0)) * (-4 / 3) - (-1 - 0) * (1 - 0) * 2) / 2) ((-1 - 0) * (1 - 0) * (-4 / 3) / 2) ((-1 - 0) * (1 - 0) * (-4 / 3) / 2 / 2) = some 1 := by
        unfold l6Quad
        rw [if_neg (by norm_num)]
        have : |((-1 - 0 + (1 - 0)) * (-4 / 3) - (-1 - 0) * (1 - 0) * 2) / 2 * (((-1 - 0 + (1 - 0)) * (-4 / 3) - (-1 - 0) * (1 - 0) * 2) / 2) -
          4 * ((-1 - 0) * (1 - 0) * (-4 / 3) / 2) * ((-1 - 0) * (1 - 0) * (-4 / 3) / 2 / 2)| = (1 / 9 : ℝ) := by
          norm_num [abs_of_pos]
        rw [sq_nn (abs_nonneg _), this, q3]
        simp only [bind_s]
        rw [if_neg (by norm_num), dv_ne (by norm_num)]
        norm_num
      rw [eq]
      simp only [bind_s]
      rw [if_neg (by norm_num)]
      show (if _ then _ else _) = _
      rw [if_pos]
      · norm_num
      · right; right
        norm_num [l6d_0, l6d_1, l6d_2]
    have ei : l6Init (-4 / 3) l6d l6z 0 1 0 = some ⟨0, 1, 0, -4 / 3, 2, -1 / 2, false⟩ := by
      unfold l6Init
      rw [es]
      simp only [bind_s, zero_mul, add_zero]
      rw [if_neg (by norm_num [abs_of_neg])]
      norm_num
    have lo : l6Lo true l6d = -1 := by norm_num [l6Lo, l6d_0, l6d_1, l6d_2]
    have hi : l6Hi true l6d = 1 := by norm_num [l6Hi, l6d_0, l6d_1, l6d_2]
    unfold laed6
    dsimp only
    rw [if_pos (by norm_num), if_pos (by norm_num), hi, lo]
    show (do
      let g ← some ((0 : ℝ), (1 : ℝ), (0 : ℝ))
      _) = _
    simp only [bind_s]
    rw [dv_ne h0.ne']
    simp only [bind_s]
    have mn : min |(-1 : ℝ) - 0| |(1 : ℝ) - 0| = 1 := by norm_num
    rw [mn, if_neg (not_le.2 h1), if_neg (not_le.2 h1)]
    simp only [mul_one]
    rw [show (fun i => l6d i) = l6d from rfl, show (fun i => l6z i) = l6z from rfl, ei]
    simp only [bind_s]
    have el : l6Loop eps (-4 / 3) true l6d l6z 39 ⟨0, 1, 0, -4 / 3, 2, -1 / 2, false⟩ = some ⟨0, 1, 1, -4 / 3, 2, -1 / 2, true⟩ := by
      unfold l6Loop
      rw [if_neg (by simp), ep]
      rfl
    rw [el]
    rfl
  · obtain ⟨r, hr⟩ := l6_in
    exact ⟨r, by simpa [l6Hi, l6d_0, l6d_1, l6d_2] using hr.hir, hr.root, by simpa [l6Lo] using hr.lor⟩

/-- The hypotheses of `C98_laed6` are met. -/
example : ∃ r info tau, L6In true (2 / 3) l6d l6z (-4 / 3) r ∧ laed6 (1 / 2 ^ 52) (1 / 2 ^ 340) true true (2 / 3) l6d l6z (-4 / 3) = some (info, tau) ∧
    (info = 0 → L6Accept (1 / 2 ^ 52) true (2 / 3) l6d l6z (-4 / 3) r tau) := by
  obtain ⟨r, hr⟩ := l6_in
  obtain ⟨i, t, e, -, -, -, -, h⟩ := C98_laed6 (eps := 1 / 2 ^ 52) (small1 := 1 / 2 ^ 340) hr (by positivity) (by positivity) true
  exact ⟨r, i, t, hr, e, h⟩

end TLA.Kernel
