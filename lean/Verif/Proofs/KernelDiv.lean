import Verif.Model.Kernel
import Mathlib.Tactic.FieldSimp
import Mathlib.Tactic.Linarith
import Mathlib.Tactic.LinearCombination
import Mathlib.Tactic.Positivity

/-! Proofs about complex division (`ladiv`). -/

namespace TLA.Kernel

theorem dv_ne {x y : ℝ} (h : y ≠ 0) : dv x y = some (x / y) := by simp [dv, h]
theorem dv_zero (x : ℝ) : dv x 0 = none := by simp [dv]
theorem dvC_ne {x : ℂ} {y : ℝ} (h : y ≠ 0) : dvC x y = some (x / y) := by simp [dvC, h]
theorem sq_nn {x : ℝ} (h : 0 ≤ x) : sq x = some (Real.sqrt x) := by simp [sq, not_lt.mpr h]

theorem bind_s {α β : Type} (a : α) (f : α → Option β) : (some a >>= f) = f a := rfl

theorem ladiv2_eq (a b c d t : ℝ) (hc : c ≠ 0) :
    ladiv2 a b c d (d / c) t = some ((a + b * (d / c)) * t) := by
  unfold ladiv2
  simp only [dv_ne hc, bind_s, pure]
  by_cases h1 : d / c ≠ 0
  · by_cases h2 : b * (d / c) ≠ 0
    · rw [if_pos h1, if_pos h2]
    · rw [if_pos h1, if_neg h2]
      congr 1; ring
  · rw [if_neg h1]
    congr 1
    field_simp

theorem ladiv1_eq (a b c d : ℝ) (hc : c ≠ 0) :
    ladiv1 a b c d = some ((a * c + b * d) / (c * c + d * d), (b * c - a * d) / (c * c + d * d)) := by
  have h1 : c + d * (d / c) ≠ 0 := by
    have h : 0 < c * c + d * d := by
      have := mul_self_pos.mpr hc; nlinarith [mul_self_nonneg d]
    intro h'
    apply h.ne'
    have : (c + d * (d / c)) * c = c * c + d * d := by field_simp
    rw [← this, h', zero_mul]
  have h2 : c * c + d * d ≠ 0 := by
    have := mul_self_pos.mpr hc; nlinarith [mul_self_nonneg d]
  unfold ladiv1
  simp only [dv_ne hc, dv_ne h1, ladiv2_eq _ _ _ _ _ hc, bind_s, pure]
  have h3 : c + d * (d / c) = (c * c + d * d) / c := by field_simp
  rw [h3]
  congr 2
  · field_simp
  · field_simp; ring

/-- The invariant of the scaling phase: all scalings are compensated by `s`. -/
structure DivInv (a b c d : ℝ) (x : DivSt) : Prop where
  ex : ∃ k l : ℝ, k ≠ 0 ∧ l ≠ 0 ∧ x.aa = k * a ∧ x.bb = k * b ∧ x.cc = l * c ∧ x.dd = l * d ∧ x.s * k = l

theorem ladivScale_ok {p : DivPar} {ab cd be lim a b c d : ℝ} {x : DivSt} (hb : be ≠ 0)
    (hx : DivInv a b c d x) : ∃ y, ladivScale p ab cd be lim x = some y ∧ DivInv a b c d y := by
  unfold ladivScale
  simp only [dv_ne hb, bind_s, pure]
  generalize h1 : (if ab ≥ 1 / 2 * p.ov then
      ({ x with aa := x.aa * (1 / 2), bb := x.bb * (1 / 2), s := x.s * 2 } : DivSt) else x) = x1
  have i1 : DivInv a b c d x1 := by
    obtain ⟨k, l, hk, hl, e1, e2, e3, e4, e5⟩ := hx.ex
    subst h1; split
    · exact ⟨k / 2, l, by positivity, hl, by simp [e1]; ring, by simp [e2]; ring, e3, e4,
        by simp; linear_combination e5⟩
    · exact hx
  generalize h2 : (if cd ≥ 1 / 2 * p.ov then
      ({ x1 with cc := x1.cc * (1 / 2), dd := x1.dd * (1 / 2), s := x1.s * (1 / 2) } : DivSt) else x1) = x2
  have i2 : DivInv a b c d x2 := by
    obtain ⟨k, l, hk, hl, e1, e2, e3, e4, e5⟩ := i1.ex
    subst h2; split
    · exact ⟨k, l / 2, hk, by positivity, e1, e2, by simp [e3]; ring, by simp [e4]; ring,
        by simp; linear_combination e5 / 2⟩
    · exact i1
  have i3 : ∃ x3, (if ab ≤ lim then
      (some { x2 with aa := x2.aa * be, bb := x2.bb * be, s := x2.s / be } : Option DivSt) else some x2) = some x3
      ∧ DivInv a b c d x3 := by
    obtain ⟨k, l, hk, hl, e1, e2, e3, e4, e5⟩ := i2.ex
    split
    · exact ⟨_, rfl, k * be, l, mul_ne_zero hk hb, hl, by simp [e1]; ring, by simp [e2]; ring, e3, e4,
        by simp; field_simp; linear_combination e5⟩
    · exact ⟨_, rfl, i2⟩
  obtain ⟨x3, h3, i3⟩ := i3
  simp only [h3]
  refine ⟨_, rfl, ?_⟩
  obtain ⟨k, l, hk, hl, e1, e2, e3, e4, e5⟩ := i3.ex
  split
  · exact ⟨k, l * be, hk, mul_ne_zero hl hb, e1, e2, by simp [e3]; ring, by simp [e4]; ring,
      by simp; linear_combination be * e5⟩
  · exact i3

theorem ladivFin_ok {a b c d : ℝ} {x : DivSt} (hx : DivInv a b c d x) (hc : c ≠ 0) (hd : d ≠ 0) :
    ladivFin c d x = some ((a * c + b * d) / (c * c + d * d), (b * c - a * d) / (c * c + d * d)) := by
  obtain ⟨k, l, hk, hl, e1, e2, e3, e4, e5⟩ := hx.ex
  have hs : x.s = l / k := by field_simp; linear_combination e5
  have h2 : c * c + d * d ≠ 0 := by
    have := mul_self_pos.mpr hc; nlinarith [mul_self_nonneg d]
  have h3 : d * d + c * c ≠ 0 := by rwa [add_comm]
  have key : (if |d| ≤ |c| then ladiv1 x.aa x.bb x.cc x.dd
      else (ladiv1 x.bb x.aa x.dd x.cc) >>= fun r => some (r.1, -r.2)) =
      some ((a * c + b * d) / (c * c + d * d) / (l / k), (b * c - a * d) / (c * c + d * d) / (l / k)) := by
    have n1 : l * c * (l * c) + l * d * (l * d) ≠ 0 := by
      have : l * c * (l * c) + l * d * (l * d) = l * l * (c * c + d * d) := by ring
      rw [this]; positivity
    have n2 : l * d * (l * d) + l * c * (l * c) ≠ 0 := by rwa [add_comm]
    split
    · rw [e1, e2, e3, e4, ladiv1_eq _ _ _ _ (mul_ne_zero hl hc)]
      congr 2
      · rw [div_eq_div_iff n1 (by positivity)]; field_simp
      · rw [div_eq_div_iff n1 (by positivity)]; field_simp
    · rw [e1, e2, e3, e4, ladiv1_eq _ _ _ _ (mul_ne_zero hl hd)]
      simp only [bind_s]
      congr 2
      · rw [div_eq_div_iff n2 (by positivity)]; field_simp; ring
      · rw [← neg_div, div_eq_div_iff n2 (by positivity)]; field_simp; ring
  have hsn : l / k ≠ 0 := by positivity
  unfold ladivFin
  simp only [pure, key, hs, bind_s]
  split
  · congr 2
    · field_simp
    · field_simp
  · rename_i h1
    have h1 : l / k = 1 := by simpa using h1
    rw [h1]; simp

theorem ladiv_eq {pr : DivPar} (hu : pr.u ≠ 0) {a b c d : ℝ} (h : c ≠ 0 ∨ d ≠ 0) :
    ladiv pr a b c d = some ((a * c + b * d) / (c * c + d * d), (b * c - a * d) / (c * c + d * d)) := by
  unfold ladiv
  simp only [dv_ne (mul_ne_zero hu hu), dv_ne hu, bind_s]
  by_cases hd : d = 0
  · subst hd
    have hc : c ≠ 0 := by simpa using h
    simp only [dv_ne hc, ite_true, pure]
    refine congrArg some (Prod.ext ?_ ?_) <;> simp only [] <;> (try field_simp) <;> (try ring)
  · by_cases hc : c = 0
    · subst hc
      simp only [hd, dv_ne hd, ite_true, ite_false, pure]
      refine congrArg some (Prod.ext ?_ ?_) <;> simp only [] <;> (try field_simp) <;> (try ring)
    · simp only [hd, hc, ite_false]
      obtain ⟨y, hy, iy⟩ := ladivScale_ok (p := pr) (ab := max |a| |b|) (cd := max |c| |d|)
        (be := 2 / (pr.u * pr.u)) (lim := pr.safeMin * 2 / pr.u) (a := a) (b := b) (c := c) (d := d)
        (x := ⟨a, b, c, d, 1⟩) (by positivity)
        ⟨1, 1, one_ne_zero, one_ne_zero, by simp, by simp, by simp, by simp, by simp⟩
      rw [hy]
      exact ladivFin_ok iy hc hd

theorem ladiv_none {pr : DivPar} (a b : ℝ) : ladiv pr a b 0 0 = none := by
  unfold ladiv
  cases h : dv 2 (pr.u * pr.u) <;> simp [h, dv_zero]

end TLA.Kernel
