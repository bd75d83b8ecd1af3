import Verif.Model.Lasy2
import Mathlib.LinearAlgebra.Matrix.ToLinearEquiv
import Mathlib.LinearAlgebra.Matrix.Determinant.Basic
import Mathlib.Tactic.Linarith
import Mathlib.Tactic.FieldSimp
import Mathlib.Tactic.FinCases
import Mathlib.Algebra.BigOperators.Fin
import Mathlib.Tactic.LinearCombination
import Mathlib.Tactic.Positivity

set_option linter.unusedVariables false
set_option linter.unusedSimpArgs false

/-! Gaussian elimination with complete pivoting, as in lasy2. -/

namespace TLA.Kernel
open Finset

theorem la2_foldl {T : Fin 4 → Fin 4 → ℝ} (i : Fin 4) (l : List (Fin 4 × Fin 4)) (hl : ∀ x ∈ l, i ≤ x.1 ∧ i ≤ x.2) :
    ∀ acc : ℝ × Fin 4 × Fin 4, acc.1 ≤ |T acc.2.1 acc.2.2| → i ≤ acc.2.1 → i ≤ acc.2.2 →
      ∀ r, r = l.foldl (fun acc x => if |T x.1 x.2| ≥ acc.1 then (|T x.1 x.2|, x.1, x.2) else acc) acc →
        acc.1 ≤ r.1 ∧ (∀ x ∈ l, |T x.1 x.2| ≤ r.1) ∧ r.1 ≤ |T r.2.1 r.2.2| ∧ i ≤ r.2.1 ∧ i ≤ r.2.2 := by
  induction l with
  | nil =>
    rintro acc h1 h2 h3 r rfl
    exact ⟨le_refl _, by simp, h1, h2, h3⟩
  | cons x l ih =>
    rintro acc h1 h2 h3 r hr
    rw [List.foldl_cons] at hr
    have hx := hl x (by simp)
    by_cases h : |T x.1 x.2| ≥ acc.1
    · rw [if_pos h] at hr
      obtain ⟨a, b, c⟩ := ih (fun y hy => hl y (by simp [hy])) _ (le_refl _) hx.1 hx.2 r hr
      refine ⟨h.le.trans a, fun y hy => ?_, c⟩
      rcases List.mem_cons.1 hy with rfl | hy
      · exact a
      · exact b y hy
    · rw [if_neg h] at hr
      obtain ⟨a, b, c⟩ := ih (fun y hy => hl y (by simp [hy])) _ h1 h2 h3 r hr
      refine ⟨a, fun y hy => ?_, c⟩
      rcases List.mem_cons.1 hy with rfl | hy
      · exact (not_le.1 h).le.trans a
      · exact b y hy

theorem la2Pivot_spec (T : Fin 4 → Fin 4 → ℝ) (i : Fin 4) :
    i ≤ (la2Pivot T i).2.1 ∧ i ≤ (la2Pivot T i).2.2 ∧
      ∀ r k, i ≤ r → i ≤ k → |T r k| ≤ |T (la2Pivot T i).2.1 (la2Pivot T i).2.2| := by
  obtain ⟨_, a, b, c, d⟩ := la2_foldl (T := T) i ((List.finRange 4 ×ˢ List.finRange 4).filter fun x => i ≤ x.1 ∧ i ≤ x.2)
    (fun x hx => by simpa using (List.mem_filter.1 hx).2) (0, i, i) (abs_nonneg _) (le_refl _) (le_refl _) _ rfl
  exact ⟨c, d, fun r k hr hk => (a (r, k) (by simp [hr, hk])).trans b⟩

/-- The matrix of the system that remains at stage `i`. -/
def la2Eff (i : Nat) (T : Fin 4 → Fin 4 → ℝ) (r k : Fin 4) : ℝ := if k < r ∧ k.val < i then 0 else T r k

/-- The state at stage `i` represents the system `K z = b0`. -/
structure La2Inv (smin : ℝ) (K : Fin 4 → Fin 4 → ℝ) (b0 : Fin 4 → ℝ) (i : Nat) (st : La2State) (κ : Equiv.Perm (Fin 4)) : Prop where
  rep : ∃ (ρ : Equiv.Perm (Fin 4)) (D : Fin 4 → Fin 4 → ℝ),
    (∀ r k, D r k ≠ 0 → |D r k| ≤ 2 * smin ∧ (ρ r).val < i) ∧ (st.info = 0 → ∀ r k, D r k = 0) ∧
    ∀ (y : Fin 4 → ℝ) (E : Fin 4 → Fin 4 → ℝ) (s : ℝ), (∀ r k, E r k ≠ 0 → i ≤ r.val ∧ i ≤ k.val) →
      (∀ r, ∑ k, (la2Eff i st.T r k + E r k) * y k = s * st.b r) →
      ∀ r, ∑ k, (K r k + D r k + E (ρ r) (κ k)) * y (κ k) = s * b0 r
  piv : ∀ r : Fin 4, r.val < i → smin ≤ |st.T r r|
  info : st.info = 0 ∨ st.info = 1
  sing : st.info ≠ 0 → ∃ (E : Fin 4 → Fin 4 → ℝ) (z : Fin 4 → ℝ), (∀ r k, |E r k| < smin) ∧ z ≠ 0 ∧ ∀ r, ∑ k, (K r k + E r k) * z k = 0

/-- If everything that remains is small, the original matrix is close to a singular one. -/
theorem La2Inv.near {smin : ℝ} (hs : 0 < smin) {K : Fin 4 → Fin 4 → ℝ} {b0 : Fin 4 → ℝ} {i : Nat} (hi : i < 4) {st : La2State}
    {κ : Equiv.Perm (Fin 4)} (h : La2Inv smin K b0 i st κ) (h0 : st.info = 0)
    (hT : ∀ r k : Fin 4, i ≤ r.val → i ≤ k.val → |st.T r k| < smin) :
    ∃ (E : Fin 4 → Fin 4 → ℝ) (z : Fin 4 → ℝ), (∀ r k, |E r k| < smin) ∧ z ≠ 0 ∧ ∀ r, ∑ k, (K r k + E r k) * z k = 0 := by
  obtain ⟨ρ, D, _, h2, h3⟩ := h.rep
  set E : Fin 4 → Fin 4 → ℝ := fun r k => if i ≤ r.val ∧ i ≤ k.val then - st.T r k else 0 with hE
  have hEs : ∀ r k, |E r k| < smin := by
    intro r k
    rw [hE]; dsimp only
    by_cases h : i ≤ r.val ∧ i ≤ k.val
    · rw [if_pos h, abs_neg]; exact hT r k h.1 h.2
    · rw [if_neg h, abs_zero]; exact hs
  have hdet : (Matrix.of fun r k => la2Eff i st.T r k + E r k).det = 0 := by
    refine Matrix.det_eq_zero_of_row_eq_zero ⟨i, hi⟩ fun k => ?_
    rw [Matrix.of_apply, hE]
    unfold la2Eff
    dsimp only
    by_cases hk : i ≤ k.val
    · rw [if_neg (by simp; omega), if_pos ⟨le_refl _, hk⟩]; ring
    · rw [if_pos ⟨by rw [Fin.lt_def]; dsimp only; omega, by omega⟩, if_neg (by omega), add_zero]
  obtain ⟨y, hy, hy2⟩ := Matrix.exists_mulVec_eq_zero_iff.2 hdet
  have hk := h3 y E 0 (fun r k hne => by
    by_contra hc
    exact hne (if_neg hc)) (fun r => by
      rw [zero_mul]
      have := congrFun hy2 r
      simpa [Matrix.mulVec, dotProduct] using this)
  refine ⟨fun r k => E (ρ r) (κ k), fun k => y (κ k), fun r k => hEs _ _, fun hz => hy ?_, fun r => ?_⟩
  · funext k
    have := congrFun hz (κ.symm k)
    simpa using this
  · have := hk r
    rw [zero_mul] at this
    rw [← this]
    refine Finset.sum_congr rfl fun k _ => ?_
    rw [h2 h0, add_zero]

theorem swap_ge {i p : Fin 4} (hp : i ≤ p) (r : Fin 4) : (r < i → Equiv.swap i p r = r) ∧ (i ≤ r → i ≤ Equiv.swap i p r) := by
  refine ⟨fun h => Equiv.swap_apply_of_ne_of_ne (ne_of_lt h) (ne_of_lt (lt_of_lt_of_le h hp)), fun h => ?_⟩
  by_cases h1 : r = i
  · subst h1; rw [Equiv.swap_apply_left]; exact hp
  · by_cases h2 : r = p
    · subst h2; rw [Equiv.swap_apply_right]
    · rw [Equiv.swap_apply_of_ne_of_ne h1 h2]; exact h

theorem la2Eff_swap {i p q : Fin 4} (hp : i ≤ p) (hq : i ≤ q) (T : Fin 4 → Fin 4 → ℝ) (r k : Fin 4) :
    la2Eff i T (Equiv.swap i p r) (Equiv.swap i q k) = la2Eff i (fun r k => T (Equiv.swap i p r) (Equiv.swap i q k)) r k := by
  unfold la2Eff
  dsimp only
  refine if_congr ?_ rfl rfl
  obtain ⟨a1, a2⟩ := swap_ge hp r
  obtain ⟨b1, b2⟩ := swap_ge hq k
  simp only [Fin.lt_def, Fin.le_def] at *
  by_cases hk : k.val < i.val
  · rw [b1 hk]
    by_cases hr : r.val < i.val
    · rw [a1 hr]
    · have := a2 (by omega); omega
  · have := b2 (by omega); omega

set_option maxHeartbeats 1000000 in
theorem la2Step_spec {smin : ℝ} (hs : 0 < smin) {K : Fin 4 → Fin 4 → ℝ} {b0 : Fin 4 → ℝ} {i : Fin 4} {st : La2State}
    {κ : Equiv.Perm (Fin 4)} (h : La2Inv smin K b0 i st κ) :
    ∃ q st', la2Step smin i st = some st' ∧ La2Inv smin K b0 (i.val + 1) st' (κ.trans (Equiv.swap i q)) ∧
      st'.piv i = q ∧ ∀ k, k ≠ i → st'.piv k = st.piv k := by
  obtain ⟨hp, hq, hmax⟩ := la2Pivot_spec st.T i
  unfold la2Step
  obtain ⟨p, hpe⟩ : ∃ p, p = (la2Pivot st.T i).2.1 := ⟨_, rfl⟩
  obtain ⟨q, hqe⟩ : ∃ q, q = (la2Pivot st.T i).2.2 := ⟨_, rfl⟩
  simp only [← hpe, ← hqe] at hp hq hmax ⊢
  obtain ⟨T1, hT1⟩ : ∃ T1 : Fin 4 → Fin 4 → ℝ, T1 = fun r k => st.T (Equiv.swap i p r) (Equiv.swap i q k) := ⟨_, rfl⟩
  obtain ⟨T2, hT2⟩ : ∃ T2 : Fin 4 → Fin 4 → ℝ, T2 = fun r k => if |T1 i i| < smin ∧ r = i ∧ k = i then smin else T1 r k := ⟨_, rfl⟩
  obtain ⟨b1, hb1⟩ : ∃ b1 : Fin 4 → ℝ, b1 = fun r => st.b (Equiv.swap i p r) := ⟨_, rfl⟩
  have e11 : st.T (Equiv.swap i p i) (Equiv.swap i q i) = T1 i i := by rw [hT1]
  have hG : la2Guard smin i T1 = T2 := by rw [hT2]; rfl
  rw [e11, ← hT1, ← hb1, hG]
  unfold la2Elim
  have hbig : smin ≤ |T2 i i| := by
    rw [hT2]; dsimp only
    by_cases hc : |T1 i i| < smin
    · rw [if_pos ⟨hc, rfl, rfl⟩, abs_of_pos hs]
    · rw [if_neg (fun h => hc h.1)]; exact not_lt.1 hc
  have hne : T2 i i ≠ 0 := fun h0 => by rw [h0, abs_zero] at hbig; linarith
  rw [if_neg hne]
  refine ⟨q, _, rfl, ⟨?_, ?_, ?_, ?_⟩, if_pos rfl, fun k hk => if_neg hk⟩
  · obtain ⟨ρ, D, h1, h2, h3⟩ := h.rep
    have hδ : |T2 i i - T1 i i| ≤ 2 * smin ∧ (¬ |T1 i i| < smin → T2 i i - T1 i i = 0) := by
      rw [hT2]; dsimp only
      by_cases hc : |T1 i i| < smin
      · rw [if_pos ⟨hc, rfl, rfl⟩]
        refine ⟨?_, fun h => absurd hc h⟩
        rw [abs_le]
        have := abs_lt.1 hc
        constructor <;> linarith
      · rw [if_neg (fun h => hc h.1), sub_self, abs_zero]
        exact ⟨by linarith, fun _ => rfl⟩
    obtain ⟨δ, hδe⟩ : ∃ δ, δ = T2 i i - T1 i i := ⟨_, rfl⟩
    rw [← hδe] at hδ
    refine ⟨ρ.trans (Equiv.swap i p), fun r k => D r k + (if Equiv.swap i p (ρ r) = i ∧ Equiv.swap i q (κ k) = i then δ else 0), ?_, ?_, ?_⟩
    · intro r k hD
      simp only [Equiv.trans_apply]
      dsimp only at hD
      by_cases hc : Equiv.swap i p (ρ r) = i ∧ Equiv.swap i q (κ k) = i
      · rw [if_pos hc] at hD ⊢
        have hD0 : D r k = 0 := by
          by_contra hne
          have hlt := (h1 r k hne).2
          have := (swap_ge hp (ρ r)).1 hlt
          rw [hc.1] at this
          rw [← this] at hlt
          exact lt_irrefl _ hlt
        rw [hD0, zero_add]
        exact ⟨hδ.1, by rw [hc.1]; omega⟩
      · rw [if_neg hc, add_zero] at hD ⊢
        have hlt := (h1 r k hD).2
        refine ⟨(h1 r k hD).1, ?_⟩
        rw [(swap_ge hp (ρ r)).1 hlt]; omega
    · intro hinfo r k
      by_cases hc : |T1 i i| < smin
      · simp [hc] at hinfo
      · simp only [if_neg hc] at hinfo
        dsimp only
        rw [h2 hinfo, hδ.2 hc, zero_add]
        exact ite_self _
    · intro y E s hE hy r0
      dsimp only at hy
      have key : ∀ r, ∑ k, (la2Eff i T2 r k + E r k) * y k = s * b1 r := by
        intro r
        have hi' : ∀ r k : Fin 4, ¬ i < r → la2Eff (i.val + 1) (fun r k => if i < r then if k = i then T2 r i / T2 i i else if i < k then T2 r k - T2 r i / T2 i i * T2 i k
            else T2 r k else T2 r k) r k = la2Eff i T2 r k := by
          intro r k hr
          unfold la2Eff
          dsimp only
          rw [if_neg hr]
          refine if_congr ?_ rfl rfl
          simp only [Fin.lt_def] at *
          omega
        by_cases hr : i < r
        · have e1 := hy r
          have e2 := hy i
          rw [if_pos hr] at e1
          rw [if_neg (lt_irrefl i)] at e2
          have t1 : ∀ k, la2Eff i T2 r k = la2Eff (i.val + 1) (fun r k => if i < r then if k = i then T2 r i / T2 i i else if i < k then
              T2 r k - T2 r i / T2 i i * T2 i k else T2 r k else T2 r k) r k + T2 r i / T2 i i * la2Eff i T2 i k := by
            intro k
            unfold la2Eff
            dsimp only
            rw [if_pos hr]
            rcases lt_trichotomy k i with hk | hk | hk
            · rw [if_pos ⟨hk.trans hr, hk⟩, if_pos ⟨hk.trans hr, by simp only [Fin.lt_def] at *; omega⟩, if_pos ⟨hk, hk⟩]; ring
            · subst hk
              rw [if_neg (by simp), if_pos ⟨hr, by omega⟩, if_neg (by simp)]
              field_simp
              ring
            · have h1 : ¬ (k < r ∧ k.val < i.val) := fun h => by simp only [Fin.lt_def] at *; omega
              have h2 : ¬ (k < r ∧ k.val < i.val + 1) := fun h => by simp only [Fin.lt_def] at *; omega
              have h3 : ¬ (k < i ∧ k.val < i.val) := fun h => by simp only [Fin.lt_def] at *; omega
              rw [if_neg h1, if_neg h2, if_neg h3, if_neg (ne_of_gt hk), if_pos hk]; ring
          have t2 : ∑ k, la2Eff i T2 i k * y k = s * b1 i := by
            rw [← e2]
            refine Finset.sum_congr rfl fun k _ => ?_
            have : E i k = 0 := by
              by_contra hne
              have := (hE i k hne).1
              omega
            rw [hi' i k (lt_irrefl i), this, add_zero]
          calc ∑ k, (la2Eff i T2 r k + E r k) * y k
              = ∑ k, ((la2Eff (i.val + 1) (fun r k => if i < r then if k = i then T2 r i / T2 i i else if i < k then
              T2 r k - T2 r i / T2 i i * T2 i k else T2 r k else T2 r k) r k + E r k) * y k + T2 r i / T2 i i * (la2Eff i T2 i k * y k)) := by
                refine Finset.sum_congr rfl fun k _ => ?_
                rw [t1 k]; ring
            _ = s * b1 r := by
                rw [Finset.sum_add_distrib, ← Finset.mul_sum, e1, t2]; ring
        · have e1 := hy r
          rw [if_neg hr] at e1
          rw [← e1]
          refine Finset.sum_congr rfl fun k _ => ?_
          rw [hi' r k hr]
      -- undo the interchanges
      have hstage : ∀ r, ∑ k, (la2Eff i st.T r k + (E (Equiv.swap i p r) (Equiv.swap i q k) +
          if Equiv.swap i p r = i ∧ Equiv.swap i q k = i then δ else 0)) * y (Equiv.swap i q k) = s * st.b r := by
        intro r
        have := key (Equiv.swap i p r)
        rw [← Equiv.sum_comp (Equiv.swap i q)] at this
        rw [hb1] at this
        simp only [Equiv.swap_apply_self] at this
        rw [← this]
        refine Finset.sum_congr rfl fun k _ => ?_
        congr 1
        rw [add_comm (E _ _), ← add_assoc]
        congr 1
        have h5 : la2Eff i st.T r k = la2Eff i T1 (Equiv.swap i p r) (Equiv.swap i q k) := by
          rw [hT1]
          rw [← la2Eff_swap hp hq]
          simp only [Equiv.swap_apply_self]
        rw [h5]
        by_cases hc : Equiv.swap i p r = i ∧ Equiv.swap i q k = i
        · rw [if_pos hc, hc.1, hc.2, hδe]
          unfold la2Eff
          rw [if_neg (by simp), if_neg (by simp)]; ring
        · rw [if_neg hc, add_zero]
          unfold la2Eff
          refine if_congr Iff.rfl rfl ?_
          rw [hT2]
          dsimp only
          rw [if_neg (fun h => hc h.2)]
      have := h3 (fun k => y (Equiv.swap i q k)) (fun r k => E (Equiv.swap i p r) (Equiv.swap i q k) +
          if Equiv.swap i p r = i ∧ Equiv.swap i q k = i then δ else 0) s ?_ hstage r0
      · rw [← this]
        refine Finset.sum_congr rfl fun k _ => ?_
        simp only [Equiv.trans_apply]
        ring
      · intro r k hne
        have hh : i ≤ Equiv.swap i p r ∧ i ≤ Equiv.swap i q k := by
          by_cases hc : Equiv.swap i p r = i ∧ Equiv.swap i q k = i
          · rw [hc.1, hc.2]; exact ⟨le_refl _, le_refl _⟩
          · rw [if_neg hc, add_zero] at hne
            have := hE _ _ hne
            simp only [Fin.le_def]
            omega
        constructor
        · by_contra hlt
          have h6 : r < i := by simp only [Fin.lt_def]; omega
          rw [(swap_ge hp r).1 h6] at hh
          exact absurd h6 (not_lt.2 hh.1)
        · by_contra hlt
          have h6 : k < i := by simp only [Fin.lt_def]; omega
          rw [(swap_ge hq k).1 h6] at hh
          exact absurd h6 (not_lt.2 hh.2)
  · intro r hr
    dsimp only
    rw [if_neg (by simp only [Fin.lt_def]; omega)]
    by_cases hri : r = i
    · rw [hri]; exact hbig
    · have hlt : r < i := by
        simp only [Fin.lt_def]
        have := fun h => hri (Fin.ext h)
        omega
      rw [hT2, hT1]
      dsimp only
      rw [if_neg (fun h => hri h.2.1), (swap_ge hp r).1 hlt, (swap_ge hq r).1 hlt]
      exact h.piv r hlt
  · by_cases hc : |T1 i i| < smin
    · exact Or.inr (if_pos hc)
    · dsimp only; rw [if_neg hc]; exact h.info
  · intro hinfo
    by_cases h0 : st.info = 0
    · have hc : |T1 i i| < smin := by
        by_contra hc
        dsimp only at hinfo
        rw [if_neg hc] at hinfo
        exact hinfo h0
      refine h.near hs i.2 h0 fun r k hr hk => lt_of_le_of_lt (hmax r k hr hk) ?_
      rw [hT1] at hc
      simpa [Equiv.swap_apply_left] using hc
    · exact h.sing h0

theorem la2Inv_init {smin : ℝ} {K : Fin 4 → Fin 4 → ℝ} {b0 : Fin 4 → ℝ} (piv : Fin 4 → Fin 4) :
    La2Inv smin K b0 0 ⟨K, b0, piv, 0⟩ (Equiv.refl _) := by
  refine ⟨⟨Equiv.refl _, fun _ _ => 0, fun _ _ h => absurd rfl h, fun _ _ _ => rfl, fun y E s _ hy r => ?_⟩, fun r hr => by omega, Or.inl rfl,
    fun h => absurd rfl h⟩
  rw [← hy r]
  refine Finset.sum_congr rfl fun k _ => ?_
  unfold la2Eff
  rw [if_neg (by simp)]
  simp

theorem la2Back_spec {T : Fin 4 → Fin 4 → ℝ} {b : Fin 4 → ℝ} (h : ∀ r, T r r ≠ 0) :
    ∃ t, la2Back T b = some t ∧ ∀ r, ∑ k, la2Eff 4 T r k * t k = b r := by
  have h0 := h 0
  have h1 := h 1
  have h2 := h 2
  have h3 := h 3
  refine ⟨_, by simp [la2Back, dv, h0, h1, h2, h3]; rfl, fun r => ?_⟩
  have hz : ∀ r k : Fin 4, k < r → la2Eff 4 T r k = 0 := fun r k h => if_pos ⟨h, k.2⟩
  have hn : ∀ r k : Fin 4, ¬ k < r → la2Eff 4 T r k = T r k := fun r k h => if_neg fun h' => h h'.1
  rw [Fin.sum_univ_four]
  fin_cases r
  · simp [hn]; field_simp; ring
  · simp [hn, hz 1 0]; field_simp; ring
  · simp [hn, hz 2 0, hz 2 1]; field_simp; ring
  · simp [hn, hz 3 0, hz 3 1, hz 3 2]; field_simp

theorem la2Finish_spec {smin small : ℝ} (hsm : 0 < small) (hle : small ≤ smin) {K : Fin 4 → Fin 4 → ℝ} {b0 : Fin 4 → ℝ} {st : La2State}
    {κ : Equiv.Perm (Fin 4)} (h : La2Inv smin K b0 3 st κ)
    (hκ : ∀ k, κ k = Equiv.swap 2 (st.piv 2) (Equiv.swap 1 (st.piv 1) (Equiv.swap 0 (st.piv 0) k))) :
    ∃ (o : La2Out) (z : Fin 4 → ℝ) (E : Fin 4 → Fin 4 → ℝ), la2Finish smin small st = some o ∧ (o.info = 0 ∨ o.info = 1) ∧
      0 < o.scale ∧ o.scale ≤ 1 ∧ o.xnorm = max (|z 0| + |z 2|) (|z 1| + |z 3|) ∧
      o.X = (fun i j => if j = 0 then (if i = 0 then z 0 else z 1) else (if i = 0 then z 2 else z 3)) ∧
      (∀ r k, |E r k| ≤ 2 * smin) ∧ (o.info = 0 → ∀ r k, E r k = 0) ∧
      (∀ r, ∑ k, (K r k + E r k) * z k = o.scale * b0 r) ∧
      (o.info ≠ 0 → ∃ (E : Fin 4 → Fin 4 → ℝ) (z : Fin 4 → ℝ), (∀ r k, |E r k| < smin) ∧ z ≠ 0 ∧ ∀ r, ∑ k, (K r k + E r k) * z k = 0) := by
  have hs : 0 < smin := lt_of_lt_of_le hsm hle
  unfold la2Finish
  obtain ⟨T, hT⟩ : ∃ T : Fin 4 → Fin 4 → ℝ, T = fun r k => if |st.T 3 3| < smin ∧ r = 3 ∧ k = 3 then smin else st.T r k := ⟨_, rfl⟩
  have hG : la2Guard smin 3 st.T = T := by rw [hT]; rfl
  simp only [hG]
  have hd : ∀ r, smin ≤ |T r r| := by
    intro r
    rw [hT]; dsimp only
    by_cases hr : r = 3
    · by_cases hc : |st.T 3 3| < smin
      · rw [if_pos ⟨hc, hr, hr⟩, abs_of_pos hs]
      · rw [if_neg (fun h => hc h.1), hr]; exact not_lt.1 hc
    · rw [if_neg (fun h => hr h.2.1)]
      refine h.piv r ?_
      have := fun h => hr (Fin.ext h)
      have := r.2
      simp at *
      omega
  have hne : ∀ r, T r r ≠ 0 := fun r h0 => by have := hd r; rw [h0, abs_zero] at this; linarith
  obtain ⟨big, hbig⟩ : ∃ big : Bool, big = la2Big small T st.b := ⟨_, rfl⟩
  obtain ⟨M, hM⟩ : ∃ M, M = max (max |st.b 0| |st.b 1|) (max |st.b 2| |st.b 3|) := ⟨_, rfl⟩
  have hMbig : big = true → 1 / 8 < M := by
    intro hb
    rw [hbig, la2Big, decide_eq_true_eq] at hb
    have key : ∀ r : Fin 4, (8 * small) * |st.b r| > |T r r| → 1 / 8 < |st.b r| := by
      intro r hr
      have h1 : smin < 8 * small * |st.b r| := lt_of_le_of_lt (hd r) hr
      have h2 : small * 1 < small * (8 * |st.b r|) := by linarith
      have := lt_of_mul_lt_mul_left h2 hsm.le
      linarith
    rw [hM]
    rcases hb with hb | hb | hb | hb
    · exact lt_of_lt_of_le (key 0 hb) ((le_max_left _ _).trans (le_max_left _ _))
    · exact lt_of_lt_of_le (key 1 hb) ((le_max_right _ _).trans (le_max_left _ _))
    · exact lt_of_lt_of_le (key 2 hb) ((le_max_left _ _).trans (le_max_right _ _))
    · exact lt_of_lt_of_le (key 3 hb) ((le_max_right _ _).trans (le_max_right _ _))
  obtain ⟨scale, hsc, hsc0, hsc1, hb⟩ : ∃ scale, (if big then dv (1 / 8) M else some 1 : Option ℝ) = some scale ∧ 0 < scale ∧ scale ≤ 1 ∧
      ∀ r, (if big then st.b r * scale else st.b r) = scale * st.b r := by
    by_cases hb : big = true
    · have := hMbig hb
      refine ⟨(1 / 8) / M, ?_, by positivity, ?_, fun r => ?_⟩
      · rw [if_pos hb]; unfold dv; rw [if_neg (by linarith)]
      · rw [div_le_one (by linarith)]; exact this.le
      · rw [if_pos hb, mul_comm]
    · exact ⟨1, by rw [if_neg hb], one_pos, le_refl _, fun r => by rw [if_neg hb, one_mul]⟩
  simp only [← hbig, ← hM, hsc]
  obtain ⟨t, ht, hsol⟩ := la2Back_spec (b := fun r => if big then st.b r * scale else st.b r) hne
  simp only [Option.bind_some, ht]
  obtain ⟨ρ, D, h1, h2, h3⟩ := h.rep
  obtain ⟨δ, hδ⟩ : ∃ δ, δ = T 3 3 - st.T 3 3 := ⟨_, rfl⟩
  have hδb : |δ| ≤ 2 * smin ∧ (¬ |st.T 3 3| < smin → δ = 0) := by
    rw [hδ, hT]; dsimp only
    by_cases hc : |st.T 3 3| < smin
    · rw [if_pos ⟨hc, rfl, rfl⟩]
      refine ⟨?_, fun h => absurd hc h⟩
      rw [abs_le]
      have := abs_lt.1 hc
      constructor <;> linarith
    · rw [if_neg (fun h => hc h.1), sub_self, abs_zero]
      exact ⟨by linarith, fun _ => rfl⟩
  have hstage := h3 t (fun r k => if r = 3 ∧ k = 3 then δ else 0) scale (fun r k hne => by
      by_cases hc : r = 3 ∧ k = 3
      · rw [hc.1, hc.2]; exact ⟨le_refl _, le_refl _⟩
      · exact absurd (if_neg hc) hne) (fun r => by
    rw [← hb r, ← hsol r]
    refine Finset.sum_congr rfl fun k _ => ?_
    congr 1
    by_cases hc : r = 3 ∧ k = 3
    · rw [if_pos hc, hc.1, hc.2, hδ]
      unfold la2Eff
      rw [if_neg (by simp), if_neg (by simp)]; ring
    · rw [if_neg hc, add_zero]
      unfold la2Eff
      refine if_congr ?_ rfl ?_
      · simp only [Fin.lt_def]
        have := r.2
        omega
      · rw [hT]; dsimp only; rw [if_neg (fun h => hc h.2)])
  refine ⟨_, fun k => t (κ k), fun r k => D r k + (if ρ r = 3 ∧ κ k = 3 then δ else 0), rfl, ?_, hsc0, hsc1, ?_, ?_, ?_, ?_, ?_, ?_⟩
  · by_cases hc : |st.T 3 3| < smin
    · exact Or.inr (if_pos hc)
    · dsimp only; rw [if_neg hc]; exact h.info
  · simp only [hκ]
  · simp only [hκ]
  · intro r k
    dsimp only
    by_cases hc : ρ r = 3 ∧ κ k = 3
    · have hD0 : D r k = 0 := by
        by_contra hne
        have hlt := (h1 r k hne).2
        rw [hc.1] at hlt
        exact absurd hlt (by decide)
      rw [if_pos hc, hD0, zero_add]; exact hδb.1
    · rw [if_neg hc, add_zero]
      by_cases hD : D r k = 0
      · rw [hD, abs_zero]; linarith
      · exact (h1 r k hD).1
  · intro hinfo r k
    by_cases hc : |st.T 3 3| < smin
    · simp [hc] at hinfo
    · simp only [if_neg hc] at hinfo
      dsimp only
      rw [h2 hinfo, hδb.2 hc, zero_add]
      exact ite_self _
  · intro r
    rw [← hstage r]
    refine Finset.sum_congr rfl fun k _ => ?_
    ring
  · intro hinfo
    by_cases h0 : st.info = 0
    · have hc : |st.T 3 3| < smin := by
        by_contra hc
        dsimp only at hinfo
        rw [if_neg hc] at hinfo
        exact hinfo h0
      refine h.near hs (by decide) h0 fun r k hr hk => ?_
      have e1 : r = 3 := Fin.ext (by have := r.2; simp; omega)
      have e2 : k = 3 := Fin.ext (by have := k.2; simp; omega)
      rw [e1, e2]; exact hc
    · exact h.sing h0

end TLA.Kernel
