import Verif.SpecLaed6
import Verif.Proofs.KernelDiv
import Mathlib.Algebra.BigOperators.Field
import Mathlib.Tactic.FieldSimp
import Mathlib.Tactic.Linarith
import Mathlib.Tactic.Ring
import Mathlib.Tactic.LinearCombination

set_option linter.unusedTactic false
set_option linter.unusedSectionVars false
set_option linter.unusedVariables false
set_option linter.unreachableTactic false
set_option linter.unusedSimpArgs false

/-! laed6: bracketing of the root. -/

namespace TLA.Kernel
open Finset

variable {orgati : Bool} {rho finit r eps : ℝ} {d z : Fin 3 → ℝ}

theorem L6In.side (h : L6In orgati rho d z finit r) (i : Fin 3) : d i ≤ l6Lo orgati d ∨ l6Hi orgati d ≤ d i := by
  have := h.d01
  have := h.d12
  unfold l6Lo l6Hi
  cases orgati <;> fin_cases i <;> simp <;> first | (left; linarith) | (right; linarith)

theorem L6In.mono (h : L6In orgati rho d z finit r) {x y : ℝ} (h1 : l6Lo orgati d < x) (h2 : x < y) (h3 : y < l6Hi orgati d) :
    secular3 rho d z x < secular3 rho d z y := by
  unfold secular3
  have : ∀ i, z i / (d i - x) < z i / (d i - y) := by
    intro i
    have hp : 0 < (d i - x) * (d i - y) := by
      rcases h.side i with e | e
      · exact mul_pos_of_neg_of_neg (by linarith) (by linarith)
      · exact mul_pos (by linarith) (by linarith)
    have n1 : d i - x ≠ 0 := left_ne_zero_of_mul hp.ne'
    have n2 : d i - y ≠ 0 := right_ne_zero_of_mul hp.ne'
    have e : z i / (d i - y) - z i / (d i - x) = z i * (y - x) / ((d i - x) * (d i - y)) := by field_simp; ring
    have := div_pos (mul_pos (h.zp i) (sub_pos.2 h2)) hp
    linarith
  have := Finset.sum_lt_sum_of_nonempty (s := (univ : Finset (Fin 3))) ⟨0, mem_univ _⟩ fun i _ => this i
  linarith

theorem L6In.le_root (h : L6In orgati rho d z finit r) {x : ℝ} (h1 : l6Lo orgati d < x) (h2 : x < l6Hi orgati d) (hf : secular3 rho d z x ≤ 0) : x ≤ r := by
  by_contra hc
  have := h.mono h.lor (not_le.1 hc) h2
  rw [h.root] at this
  linarith

theorem L6In.root_le (h : L6In orgati rho d z finit r) {x : ℝ} (h1 : l6Lo orgati d < x) (h2 : x < l6Hi orgati d) (hf : 0 ≤ secular3 rho d z x) : r ≤ x := by
  by_contra hc
  have := h.mono h1 (not_le.1 hc) h.hir
  rw [h.root] at this
  linarith

theorem L6In.ne (h : L6In orgati rho d z finit r) {x : ℝ} (h1 : l6Lo orgati d < x) (h2 : x < l6Hi orgati d) (i : Fin 3) : d i ≠ x := by
  rcases h.side i with e | e
  · exact (lt_of_le_of_lt e h1).ne
  · exact (lt_of_lt_of_le h2 e).ne'

theorem L6In.strict (h : L6In orgati rho d z finit r) {x : ℝ} (h1 : l6Lo orgati d ≤ x) (h2 : x ≤ l6Hi orgati d) (hx : ∀ i, d i ≠ x) :
    l6Lo orgati d < x ∧ x < l6Hi orgati d := by
  refine ⟨lt_of_le_of_ne h1 ?_, lt_of_le_of_ne h2 ?_⟩
  · unfold l6Lo
    split
    · exact hx 1
    · exact hx 0
  · unfold l6Hi
    split
    · exact (hx 2).symm
    · exact (hx 1).symm

theorem L6In.sums (h : L6In orgati rho d z finit r) {x : ℝ} (hx : ∀ i, d i ≠ x) :
    ∃ fc df ddf er, l6Sums d z x = some (fc, df, ddf, er) ∧ finit + x * fc = secular3 rho d z x ∧ df = ∑ i, z i / (d i - x) ^ 2 ∧ 0 < df ∧
      er = ∑ i, |z i / (d i * (d i - x))| := by
  have n : ∀ i, d i - x ≠ 0 := fun i => sub_ne_zero.2 (hx i)
  have m := h.dz
  unfold l6Sums
  rw [dv_ne (n 0), dv_ne (n 1), dv_ne (n 2)]
  simp only [bind_s]
  rw [dv_ne (m 0), dv_ne (m 1), dv_ne (m 2)]
  simp only [bind_s]
  have ed : ∀ i, z i * (1 / (d i - x)) * (1 / (d i - x)) = z i / (d i - x) ^ 2 := fun i => by
    have := n i
    field_simp
  have ef : ∀ i, z i * (1 / (d i - x)) / d i = z i / (d i * (d i - x)) := fun i => by
    have := n i
    have := m i
    field_simp
  refine ⟨_, _, _, _, rfl, ?_, ?_, ?_, ?_⟩
  · rw [h.fin]
    unfold secular3
    rw [Fin.sum_univ_three, Fin.sum_univ_three, ef, ef, ef]
    have key : ∀ i, z i / (d i - x) = z i / (d i - 0) + x * (z i / (d i * (d i - x))) := fun i => by
      have := n i
      have := m i
      rw [sub_zero]
      field_simp
      ring
    rw [key 0, key 1, key 2]
    ring
  · rw [Fin.sum_univ_three, ed, ed, ed, zero_add]
  · rw [ed, ed, ed, zero_add]
    have : ∀ i, 0 < z i / (d i - x) ^ 2 := fun i => div_pos (h.zp i) (by have := n i; positivity)
    exact add_pos (add_pos (this 0) (this 1)) (this 2)
  · rw [Fin.sum_univ_three, ef, ef, ef, zero_add]

/-- The numbers `c x² - a x + b` with `b ≠ 0` or `c ≠ 0` or `a ≠ 0` appropriate: no division by zero. -/
theorem l6Quad_some {a b c : ℝ} (h : c = 0 → a ≠ 0) : ∃ x, l6Quad a b c = some x := by
  unfold l6Quad
  split
  · next e => exact ⟨_, dv_ne (h e)⟩
  · next e =>
    rw [sq_nn (abs_nonneg _)]
    simp only [bind_s]
    split
    · exact ⟨_, dv_ne (by simpa using e)⟩
    · next ha =>
      exact ⟨_, dv_ne (by have := Real.sqrt_nonneg |a * a - 4 * b * c|; intro h; linarith [not_le.1 ha])⟩

/-- The invariant of the iteration. -/
structure L6Inv (eps : ℝ) (orgati : Bool) (rho : ℝ) (d z : Fin 3 → ℝ) (finit r lb ub : ℝ) (s : L6) : Prop where
  l1 : lb ≤ s.lbd
  l2 : s.lbd ≤ r
  u1 : s.ubd ≤ ub
  u2 : r ≤ s.ubd
  t1 : s.lbd ≤ s.tau
  t2 : s.tau ≤ s.ubd
  go : s.conv = false → (∀ i, d i ≠ s.tau) ∧ s.f ≠ 0 ∧ 0 < s.df
  acc : s.conv = true → L6Accept eps orgati rho d z finit r s.tau

theorem L6In.init (h : L6In orgati rho d z finit r) {lb ub l u t : ℝ} (hl : l6Lo orgati d ≤ lb) (hu : ub ≤ l6Hi orgati d) (a1 : lb ≤ l) (a2 : l ≤ r) (a3 : u ≤ ub)
    (a4 : r ≤ u) (b1 : l ≤ t) (b2 : t ≤ u) (hx : ∀ i, d i ≠ t) : ∃ s, l6Init finit d z l u t = some s ∧ L6Inv eps orgati rho d z finit r lb ub s := by
  obtain ⟨fc, df, ddf, er, e, ef, -, hd, -⟩ := h.sums hx
  have hs := h.strict (by linarith) (by linarith) hx
  unfold l6Init
  rw [e]
  simp only [bind_s, ef]
  split
  · next h0 =>
    have h0 : secular3 rho d z t = 0 := abs_nonpos_iff.1 h0
    refine ⟨_, rfl, a1, a2, a3, a4, b1, b2, by simp, fun _ => .inl ?_⟩
    exact le_antisymm (h.le_root hs.1 hs.2 h0.le) (h.root_le hs.1 hs.2 h0.ge)
  · next h0 =>
    have h0 : secular3 rho d z t ≠ 0 := fun e => h0 (by rw [e, abs_zero])
    refine ⟨_, rfl, ?_⟩
    by_cases hf : secular3 rho d z t ≤ 0
    · simp only [if_pos hf]
      exact ⟨a1.trans b1, h.le_root hs.1 hs.2 hf, a3, a4, le_refl _, b2, fun _ => ⟨hx, h0, hd⟩, by simp⟩
    · simp only [if_neg hf]
      exact ⟨a1, a2, b2.trans a3, h.root_le hs.1 hs.2 (not_le.1 hf).le, b1, le_refl _, fun _ => ⟨hx, h0, hd⟩, by simp⟩

theorem L6In.pass (h : L6In orgati rho d z finit r) (he : 0 < eps) {lb ub : ℝ} (hl : l6Lo orgati d ≤ lb) (hu : ub ≤ l6Hi orgati d) {s : L6}
    (i : L6Inv eps orgati rho d z finit r lb ub s) (hc : s.conv = false) :
    ∃ s', l6Pass eps finit orgati d z s = some s' ∧ L6Inv eps orgati rho d z finit r lb ub s' := by
  obtain ⟨l1, l2, u1, u2, t1, t2, go, -⟩ := i
  obtain ⟨hx, hf, hd⟩ := go hc
  have hs := h.strict (by linarith) (by linarith) hx
  have k1 : l6Lo orgati d - s.tau ≠ 0 := by linarith [hs.1] |> fun h : l6Lo orgati d - s.tau < 0 => h.ne
  have k2 : l6Hi orgati d - s.tau ≠ 0 := by linarith [hs.2] |> fun h : 0 < l6Hi orgati d - s.tau => h.ne'
  unfold l6Pass
  dsimp only
  have hb : (l6Lo orgati d - s.tau) * (l6Hi orgati d - s.tau) * s.f ≠ 0 := mul_ne_zero (mul_ne_zero k1 k2) hf
  generalize (l6Lo orgati d - s.tau + (l6Hi orgati d - s.tau)) * s.f - (l6Lo orgati d - s.tau) * (l6Hi orgati d - s.tau) * s.df = a
  generalize s.f - (l6Lo orgati d - s.tau + (l6Hi orgati d - s.tau)) * s.df + (l6Lo orgati d - s.tau) * (l6Hi orgati d - s.tau) * s.ddf = c
  generalize (l6Lo orgati d - s.tau) * (l6Hi orgati d - s.tau) * s.f = b at hb ⊢
  have ht : max (max |a| |b|) |c| ≠ 0 := (lt_of_lt_of_le (abs_pos.2 hb) (le_max_of_le_left (le_max_right _ _))).ne'
  generalize max (max |a| |b|) |c| = t at ht ⊢
  rw [dv_ne ht]
  simp only [bind_s]
  rw [dv_ne ht]
  simp only [bind_s]
  rw [dv_ne ht]
  simp only [bind_s]
  obtain ⟨eta, e⟩ := l6Quad_some (a := a / t) (b := b / t) (c := b / t / t) (fun h => absurd h (div_ne_zero (div_ne_zero hb ht) ht))
  rw [e]
  simp only [bind_s]
  obtain ⟨eta', e⟩ : ∃ y, (if s.f * eta ≥ 0 then dv (-s.f) s.df else pure eta : Option ℝ) = some y := by
    split
    · exact ⟨_, dv_ne hd.ne'⟩
    · exact ⟨_, rfl⟩
  rw [e]
  simp only [bind_s]
  have b1 : s.lbd ≤ (if s.tau + eta' < s.lbd ∨ s.tau + eta' > s.ubd then (s.lbd + s.ubd) / 2 else s.tau + eta') ∧
      (if s.tau + eta' < s.lbd ∨ s.tau + eta' > s.ubd then (s.lbd + s.ubd) / 2 else s.tau + eta') ≤ s.ubd := by
    split
    · constructor <;> linarith
    · next h => rw [not_or, not_lt, not_lt] at h; exact h
  generalize (if s.tau + eta' < s.lbd ∨ s.tau + eta' > s.ubd then (s.lbd + s.ubd) / 2 else s.tau + eta') = x at *
  obtain ⟨b1, b2⟩ := b1
  split
  · next hp =>
    refine ⟨_, rfl, l1, l2, u1, u2, b1, b2, by simp, fun _ => ?_⟩
    by_contra hn
    unfold L6Accept at hn
    push Not at hn
    obtain ⟨-, -, -, n1, n2⟩ := hn
    have hs' : l6Lo orgati d < x ∧ x < l6Hi orgati d := ⟨lt_of_le_of_ne (by linarith) n1.symm, lt_of_le_of_ne (by linarith) n2⟩
    rcases hp with e | e | e
    · exact h.ne hs'.1 hs'.2 _ (sub_eq_zero.1 e)
    · exact h.ne hs'.1 hs'.2 _ (sub_eq_zero.1 e)
    · exact h.ne hs'.1 hs'.2 _ (sub_eq_zero.1 e)
  · next hp =>
    push Not at hp
    have hx' : ∀ i, d i ≠ x := by
      intro i
      fin_cases i
      · exact sub_ne_zero.1 hp.1
      · exact sub_ne_zero.1 hp.2.1
      · exact sub_ne_zero.1 hp.2.2
    have hs' := h.strict (by linarith) (by linarith) hx'
    obtain ⟨fc, df, ddf, er, e, ef, edf, hdf, eer⟩ := h.sums hx'
    rw [e]
    simp only [bind_s, ef]
    split
    · next hcv =>
      refine ⟨_, rfl, l1, l2, u1, u2, b1, b2, by simp, fun _ => ?_⟩
      rcases hcv with hcv | hcv
      · right; left
        exact ⟨hx', by rw [← eer, ← edf]; exact hcv⟩
      · right; right; left
        refine le_trans ?_ hcv
        rw [abs_le]
        constructor <;> dsimp only <;> linarith
    · next hcv =>
      rw [not_or] at hcv
      have h0 : secular3 rho d z x ≠ 0 := fun e => hcv.1 (by
        rw [e, abs_zero]
        have : 0 ≤ er := by rw [eer]; exact Finset.sum_nonneg fun i _ => abs_nonneg _
        positivity)
      refine ⟨_, rfl, ?_⟩
      by_cases hf : secular3 rho d z x ≤ 0
      · simp only [if_pos hf]
        exact ⟨l1.trans b1, h.le_root hs'.1 hs'.2 hf, u1, u2, le_refl _, b2, fun _ => ⟨hx', h0, hdf⟩, by simp⟩
      · simp only [if_neg hf]
        exact ⟨l1, l2, b2.trans u1, h.root_le hs'.1 hs'.2 (not_le.1 hf).le, b1, le_refl _, fun _ => ⟨hx', h0, hdf⟩, by simp⟩

theorem L6In.loop (h : L6In orgati rho d z finit r) (he : 0 < eps) {lb ub : ℝ} (hl : l6Lo orgati d ≤ lb) (hu : ub ≤ l6Hi orgati d) : ∀ k (s : L6),
    L6Inv eps orgati rho d z finit r lb ub s → ∃ s', l6Loop eps finit orgati d z k s = some s' ∧ L6Inv eps orgati rho d z finit r lb ub s' := by
  intro k
  induction k with
  | zero => intro s i; exact ⟨s, rfl, i⟩
  | succ k ih =>
    intro s i
    unfold l6Loop
    cases hc : s.conv with
    | true => exact ⟨s, rfl, i⟩
    | false =>
      obtain ⟨s', e, i'⟩ := h.pass he hl hu i hc
      rw [e]
      simpa [bind_s] using ih s' i'

/-- Scaling the poles, the weights and the argument. -/
theorem secular_scale {q : ℝ} (hq : q ≠ 0) (x : ℝ) : secular3 rho (fun i => d i * q) (fun i => z i * q) (x * q) = secular3 rho d z x := by
  unfold secular3
  congr 1
  refine Finset.sum_congr rfl fun i _ => ?_
  rw [← sub_mul, mul_div_mul_right _ _ hq]

theorem l6Lo_scale {q : ℝ} : l6Lo orgati (fun i => d i * q) = l6Lo orgati d * q := by unfold l6Lo; split <;> rfl
theorem l6Hi_scale {q : ℝ} : l6Hi orgati (fun i => d i * q) = l6Hi orgati d * q := by unfold l6Hi; split <;> rfl

theorem L6In.scale (h : L6In orgati rho d z finit r) {q : ℝ} (hq : 0 < q) : L6In orgati rho (fun i => d i * q) (fun i => z i * q) finit (r * q) := by
  obtain ⟨a, b, c, e, f, g, i, j, k, l⟩ := h
  refine ⟨mul_lt_mul_of_pos_right a hq, mul_lt_mul_of_pos_right b hq, fun i => mul_ne_zero (c i) hq.ne', fun i => mul_pos (e i) hq, ?_, ?_, ?_, ?_, ?_, ?_⟩
  · rw [l6Lo_scale]; exact mul_neg_of_neg_of_pos f hq
  · rw [l6Hi_scale]; exact mul_pos g hq
  · rw [i, ← secular_scale hq.ne' 0, zero_mul]
  · rw [l6Lo_scale]; exact mul_lt_mul_of_pos_right j hq
  · rw [l6Hi_scale]; exact mul_lt_mul_of_pos_right k hq
  · rw [secular_scale hq.ne', l]

theorem L6Accept.unscale {q x : ℝ} (hq : 0 < q) (h : L6Accept eps orgati rho (fun i => d i * q) (fun i => z i * q) finit (r * q) (x * q)) :
    L6Accept eps orgati rho d z finit r x := by
  rcases h with h | ⟨hn, h⟩ | h | h | h
  · exact .inl (mul_right_cancel₀ hq.ne' h)
  · refine .inr (.inl ⟨fun i e => hn i (show d i * q = x * q by rw [e]), ?_⟩)
    rw [secular_scale hq.ne'] at h
    have e1 : ∀ i, z i * q / (d i * q * (d i * q - x * q)) = z i / (d i * (d i - x)) / q := fun i => by
      rw [← sub_mul, show d i * q * ((d i - x) * q) = d i * (d i - x) * q * q by ring, mul_div_mul_right _ _ hq.ne', div_div]
    have e2 : ∀ i, z i * q / (d i * q - x * q) ^ 2 = z i / (d i - x) ^ 2 / q := fun i => by
      rw [← sub_mul, show ((d i - x) * q) ^ 2 = (d i - x) ^ 2 * q * q by ring, mul_div_mul_right _ _ hq.ne', div_div]
    have e3 : ∀ i, |z i / (d i * (d i - x)) / q| = |z i / (d i * (d i - x))| / q := fun i => by rw [abs_div, abs_of_pos hq]
    simp only [e1, e2, e3] at h
    rw [← Finset.sum_div, ← Finset.sum_div, abs_mul, abs_of_pos hq] at h
    have e4 : ∀ y : ℝ, |x| * q * (y / q) = |x| * y := fun y => by field_simp
    rw [e4, e4] at h
    exact h
  · right; right; left
    rw [← sub_mul, abs_mul, abs_mul, abs_of_pos hq] at h
    exact le_of_mul_le_mul_right (by linarith) hq
  · right; right; right; left
    rw [l6Lo_scale] at h
    exact mul_right_cancel₀ hq.ne' h
  · right; right; right; right
    rw [l6Hi_scale] at h
    exact mul_right_cancel₀ hq.ne' h

theorem l6_norm {a b c : ℝ} (h : c = 0 → a ≠ 0) : ∃ t ≠ 0, t = max (max |a| |b|) |c| ∧ ∃ x, l6Quad (a / t) (b / t) (c / t) = some x := by
  have ht : max (max |a| |b|) |c| ≠ 0 := by
    by_cases hc : c = 0
    · exact (lt_of_lt_of_le (abs_pos.2 (h hc)) (le_max_of_le_left (le_max_left _ _))).ne'
    · exact (lt_of_lt_of_le (abs_pos.2 hc) (le_max_right _ _)).ne'
  refine ⟨_, ht, rfl, l6Quad_some fun e => ?_⟩
  rw [div_eq_zero_iff] at e
  exact div_ne_zero (h (e.resolve_right ht)) ht

theorem L6In.guess (h : L6In orgati rho d z finit r) {first : Bool} {l u : ℝ} (hl : l6Lo orgati d ≤ l) (hu : u ≤ l6Hi orgati d) (l0 : l ≤ 0) (u0 : 0 ≤ u)
    (lr : l ≤ r) (ru : r ≤ u) : ∃ l' u' t, l6Guess first orgati rho finit d z l u = some (l', u', t) ∧ l ≤ l' ∧ l' ≤ r ∧ u' ≤ u ∧ r ≤ u' ∧ l' ≤ t ∧ t ≤ u' ∧
      ∀ i, d i ≠ t := by
  unfold l6Guess
  cases first with
  | false => exact ⟨l, u, 0, rfl, le_refl _, lr, le_refl _, ru, l0, u0, h.dz⟩
  | true =>
    rw [if_pos rfl]
    obtain ⟨abc, e, hn⟩ : ∃ abc : ℝ × ℝ × ℝ, (if orgati then do
        let temp := (d 2 - d 1) / 2
        let c := rho + (← dv (z 0) ((d 0 - d 1) - temp))
        pure (c * (d 1 + d 2) + z 1 + z 2, c * d 1 * d 2 + z 1 * d 2 + z 2 * d 1, c)
      else do
        let temp := (d 0 - d 1) / 2
        let c := rho + (← dv (z 2) ((d 2 - d 1) - temp))
        pure (c * (d 0 + d 1) + z 0 + z 1, c * d 0 * d 1 + z 0 * d 1 + z 1 * d 0, c) : Option (ℝ × ℝ × ℝ)) = some abc ∧ (abc.2.2 = 0 → abc.1 ≠ 0) := by
      have z0 := h.zp 0
      have z1 := h.zp 1
      have z2 := h.zp 2
      have o1 := h.d01
      have o2 := h.d12
      split
      · dsimp only
        rw [dv_ne (by intro e; linarith)]
        refine ⟨_, rfl, fun e => ?_⟩
        dsimp only at e ⊢
        rw [e]; intro e'; linarith
      · dsimp only
        rw [dv_ne (by intro e; linarith)]
        refine ⟨_, rfl, fun e => ?_⟩
        dsimp only at e ⊢
        rw [e]; intro e'; linarith
    rw [e]
    simp only [bind_s]
    obtain ⟨t, ht, et, x, ex⟩ := l6_norm (b := abc.2.1) hn
    rw [← et, dv_ne ht]
    simp only [bind_s]
    rw [dv_ne ht]
    simp only [bind_s]
    rw [dv_ne ht]
    simp only [bind_s]
    rw [ex]
    simp only [bind_s]
    have b1 : l ≤ (if x < l ∨ x > u then (l + u) / 2 else x) ∧ (if x < l ∨ x > u then (l + u) / 2 else x) ≤ u := by
      split
      · constructor <;> linarith
      · next h => rw [not_or, not_lt, not_lt] at h; exact h
    generalize (if x < l ∨ x > u then (l + u) / 2 else x) = y at *
    obtain ⟨b1, b2⟩ := b1
    split
    · exact ⟨l, u, 0, rfl, le_refl _, lr, le_refl _, ru, l0, u0, h.dz⟩
    · next hp =>
      push Not at hp
      have hy : ∀ i, d i ≠ y := by
        intro i
        fin_cases i
        · exact hp.1
        · exact hp.2.1
        · exact hp.2.2
      have n : ∀ i, d i * (d i - y) ≠ 0 := fun i => mul_ne_zero (h.dz i) (sub_ne_zero.2 (hy i))
      have hs := h.strict (by linarith) (by linarith) hy
      rw [dv_ne (n 0)]
      simp only [bind_s]
      rw [dv_ne (n 1)]
      simp only [bind_s]
      rw [dv_ne (n 2)]
      simp only [bind_s]
      have ef : finit + y * z 0 / (d 0 * (d 0 - y)) + y * z 1 / (d 1 * (d 1 - y)) + y * z 2 / (d 2 * (d 2 - y)) = secular3 rho d z y := by
        rw [h.fin]
        unfold secular3
        rw [Fin.sum_univ_three, Fin.sum_univ_three]
        have key : ∀ i, z i / (d i - y) = z i / (d i - 0) + y * z i / (d i * (d i - y)) := fun i => by
          have := sub_ne_zero.2 (hy i)
          have := h.dz i
          rw [sub_zero]
          field_simp
          ring
        rw [key 0, key 1, key 2]
        ring
      rw [ef]
      refine ⟨_, _, _, rfl, ?_⟩
      have m1 : 0 < y → finit < secular3 rho d z y := fun e => by rw [h.fin]; exact h.mono h.lo0 e hs.2
      have m2 : y < 0 → secular3 rho d z y < finit := fun e => by rw [h.fin]; exact h.mono hs.1 e h.hi0
      by_cases hf : secular3 rho d z y ≤ 0
      · simp only [if_pos hf]
        refine ⟨b1, h.le_root hs.1 hs.2 hf, le_refl _, ru, ?_⟩
        split
        · next ha =>
          refine ⟨?_, u0, h.dz⟩
          by_contra hc
          have := m1 (not_le.1 hc)
          rw [abs_of_nonpos hf, abs_of_neg (by linarith)] at ha
          linarith
        · exact ⟨le_refl _, b2, hy⟩
      · simp only [if_neg hf]
        rw [not_le] at hf
        refine ⟨le_refl _, lr, b2, h.root_le hs.1 hs.2 hf.le, ?_⟩
        split
        · next ha =>
          refine ⟨l0, ?_, h.dz⟩
          by_contra hc
          have := m2 (not_le.1 hc)
          rw [abs_of_pos hf, abs_of_pos (by linarith)] at ha
          linarith
        · exact ⟨b1, le_refl _, hy⟩

theorem laed6_ok (h : L6In orgati rho d z finit r) (he : 0 < eps) {small1 : ℝ} (hs : 0 < small1) (first : Bool) :
    ∃ info tau, laed6 eps small1 first orgati rho d z finit = some (info, tau) ∧ (info = 0 ∨ info = 1) ∧ l6Lo orgati d ≤ tau ∧ tau ≤ l6Hi orgati d ∧
      0 ≤ tau * r ∧ (info = 0 → L6Accept eps orgati rho d z finit r tau) := by
  have r0 : (finit < 0 → 0 < r) ∧ (¬ finit < 0 → r ≤ 0) := by
    constructor
    · intro hf
      by_contra hc
      have := h.root_le h.lo0 h.hi0 (x := 0)
      have h2 := h.le_root h.lo0 h.hi0 (by rw [← h.fin]; exact hf.le)
      have : r = 0 := le_antisymm (not_lt.1 hc) h2
      have := h.root
      rw [‹r = 0›, ← h.fin] at this
      linarith
    · intro hf
      exact h.root_le h.lo0 h.hi0 (by rw [← h.fin]; exact not_lt.1 hf)
  have bl : l6Lo orgati d ≤ (if finit < 0 then 0 else l6Lo orgati d) ∧ (if finit < 0 then 0 else l6Lo orgati d) ≤ 0 ∧ (if finit < 0 then 0 else l6Lo orgati d) ≤ r := by
    have := h.lo0; have := h.lor
    split
    · next hf => exact ⟨h.lo0.le, le_refl _, (r0.1 hf).le⟩
    · exact ⟨le_refl _, h.lo0.le, h.lor.le⟩
  have bu : (if finit < 0 then l6Hi orgati d else 0) ≤ l6Hi orgati d ∧ 0 ≤ (if finit < 0 then l6Hi orgati d else 0) ∧ r ≤ (if finit < 0 then l6Hi orgati d else 0) := by
    split
    · exact ⟨le_refl _, h.hi0.le, h.hir.le⟩
    · next hf => exact ⟨h.hi0.le, le_refl _, r0.2 hf⟩
  have sg : ∀ t, (if finit < 0 then 0 else l6Lo orgati d) ≤ t → t ≤ (if finit < 0 then l6Hi orgati d else 0) → 0 ≤ t * r := by
    intro t h1 h2
    by_cases hf : finit < 0
    · rw [if_pos hf] at h1
      exact mul_nonneg h1 (r0.1 hf).le
    · rw [if_neg hf] at h2
      exact mul_nonneg_of_nonpos_of_nonpos h2 (r0.2 hf)
  unfold laed6
  dsimp only
  generalize (if finit < 0 then (0 : ℝ) else l6Lo orgati d) = l at *
  generalize (if finit < 0 then l6Hi orgati d else (0 : ℝ)) = u at *
  obtain ⟨l', u', t, eg, g1, g2, g3, g4, g5, g6, g7⟩ := h.guess (first := first) bl.1 bu.1 bl.2.1 bu.2.1 bl.2.2 bu.2.2
  rw [eg]
  simp only [bind_s]
  rw [dv_ne hs.ne']
  simp only [bind_s]
  obtain ⟨q, p, hq, hqp, e1, e2⟩ : ∃ q p : ℝ, 0 < q ∧ q * p = 1 ∧
      (if min |l6Lo orgati d - t| |l6Hi orgati d - t| ≤ small1 then (if min |l6Lo orgati d - t| |l6Hi orgati d - t| ≤ small1 * small1 then 1 / small1 * (1 / small1) else 1 / small1) else 1) = q ∧
      (if min |l6Lo orgati d - t| |l6Hi orgati d - t| ≤ small1 then (if min |l6Lo orgati d - t| |l6Hi orgati d - t| ≤ small1 * small1 then small1 * small1 else small1) else 1) = p := by
    split_ifs
    · exact ⟨_, _, by positivity, by field_simp, rfl, rfl⟩
    · exact ⟨_, _, by positivity, by field_simp, rfl, rfl⟩
    · exact ⟨1, 1, by norm_num, by norm_num, rfl, rfl⟩
  rw [e1, e2]
  have hS := h.scale hq
  obtain ⟨s0, e0, i0⟩ := hS.init (eps := eps) (lb := l * q) (ub := u * q) (by rw [l6Lo_scale]; exact mul_le_mul_of_nonneg_right bl.1 hq.le)
    (by rw [l6Hi_scale]; exact mul_le_mul_of_nonneg_right bu.1 hq.le) (mul_le_mul_of_nonneg_right g1 hq.le) (mul_le_mul_of_nonneg_right g2 hq.le)
    (mul_le_mul_of_nonneg_right g3 hq.le) (mul_le_mul_of_nonneg_right g4 hq.le) (mul_le_mul_of_nonneg_right g5 hq.le) (mul_le_mul_of_nonneg_right g6 hq.le)
    (fun i e => g7 i (mul_right_cancel₀ hq.ne' e))
  rw [e0]
  simp only [bind_s]
  obtain ⟨s, es, i⟩ := hS.loop he (by rw [l6Lo_scale]; exact mul_le_mul_of_nonneg_right bl.1 hq.le)
    (by rw [l6Hi_scale]; exact mul_le_mul_of_nonneg_right bu.1 hq.le) 39 s0 i0
  rw [es]
  simp only [bind_s]
  have hp : 0 < p := by
    by_contra hc
    have := mul_nonpos_of_nonneg_of_nonpos hq.le (not_lt.1 hc)
    linarith
  have back : ∀ y : ℝ, y * q * p = y := fun y => by rw [mul_assoc, hqp, mul_one]
  have et : s.tau * p * q = s.tau := by rw [mul_assoc, mul_comm p q, hqp, mul_one]
  have c1 : l ≤ s.tau * p := by
    have := mul_le_mul_of_nonneg_right (i.l1.trans i.t1) hp.le
    rwa [back] at this
  have c2 : s.tau * p ≤ u := by
    have := mul_le_mul_of_nonneg_right (i.t2.trans i.u1) hp.le
    rwa [back] at this
  refine ⟨_, _, rfl, ?_, bl.1.trans c1, c2.trans bu.1, sg _ c1 c2, fun h0 => ?_⟩
  · split
    · exact .inl rfl
    · exact .inr rfl
  · have hc : s.conv = true := by
      by_contra hc
      rw [if_neg hc] at h0
      exact absurd h0 (by norm_num)
    exact L6Accept.unscale hq (by rw [et]; exact i.acc hc)

end TLA.Kernel
