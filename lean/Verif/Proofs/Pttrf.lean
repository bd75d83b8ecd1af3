import Verif.Proofs.CholAlg
import Verif.Proofs.Potf2
import Verif.Proofs.Raise

set_option linter.unusedTactic false
set_option linter.unreachableTactic false

/-! pttrf. -/

namespace TLA
variable {L 𝕜 : Type} [DecidableEq L] [RCLike 𝕜]
open Finset

/-- Entries of the Hermitian tridiagonal matrix with diagonal `d` and subdiagonal `e`. -/
def tridF (d e : Nat → 𝕜) (i j : Nat) : 𝕜 :=
  if i = j then d i else if i = j + 1 then e j else if j = i + 1 then star (e i) else 0

/-- Entries of the unit lower bidiagonal matrix with subdiagonal `e`. -/
def bidF (e : Nat → 𝕜) (i j : Nat) : 𝕜 :=
  if i = j then 1 else if i = j + 1 then e j else 0

/-- The pivots. -/
def pivF (d e : Nat → 𝕜) : Nat → 𝕜
  | 0 => d 0
  | i + 1 => d (i + 1) - e i * star (e i) / pivF d e i

theorem tridF_star {d e : Nat → 𝕜} {n : Nat} (hd : ∀ i, i < n → star (d i) = d i) :
    ∀ i j, i < n → j < n → star (tridF d e i j) = tridF d e j i := by
  intro i j hi hj
  unfold tridF
  by_cases h1 : i = j
  · subst h1; simp [hd i hi]
  · by_cases h2 : i = j + 1
    · subst h2; simp; omega
    · by_cases h3 : j = i + 1
      · subst h3; simp [h2]
      · simp [h1, h2, h3, Ne.symm h1]

theorem pivF_star {d e : Nat → 𝕜} {n : Nat} (hd : ∀ i, i < n → star (d i) = d i) :
    ∀ i, i < n → star (pivF d e i) = pivF d e i := by
  intro i
  induction i with
  | zero => exact fun h => hd 0 h
  | succ i ih =>
    intro h
    rw [pivF, star_sub, hd _ h, star_div₀, star_mul', star_star, ih (by omega), mul_comm]

/-- Square-root rows of the factor. -/
noncomputable def ptRow (d e : Nat → 𝕜) (l j : Nat) : 𝕜 :=
  if j = l then ((Real.sqrt (RCLike.re (pivF d e l)) : ℝ) : 𝕜)
  else if j = l + 1 then star (e l) / ((Real.sqrt (RCLike.re (pivF d e l)) : ℝ) : 𝕜) else 0

theorem sqrt_piv {x : 𝕜} (hx : star x = x) (hp : 0 < RCLike.re x) :
    ((Real.sqrt (RCLike.re x) : ℝ) : 𝕜) * ((Real.sqrt (RCLike.re x) : ℝ) : 𝕜) = x := by
  rw [← RCLike.ofReal_mul, Real.mul_self_sqrt hp.le]
  exact RCLike.conj_eq_iff_re.1 (by simpa using hx)

theorem sqrt_ne {x : ℝ} (hp : 0 < x) : ((Real.sqrt x : ℝ) : 𝕜) ≠ 0 := by
  rw [Ne, RCLike.ofReal_eq_zero]
  exact (Real.sqrt_pos.2 hp).ne'

/-- Sum with the two possibly nonzero terms. -/
theorem ptRow_sum {d e : Nat → 𝕜} {n : Nat} (hd : ∀ i, i < n → star (d i) = d i) {k : Nat}
    (hk : k ≤ n) (hp : ∀ l, l < k → 0 < RCLike.re (pivF d e l)) {i : Nat} (hi : i < n) (hik : i ≤ k) :
    ∑ l ∈ range i, star (ptRow d e l i) * ptRow d e l i = d i - pivF d e i := by
  cases i with
  | zero => rw [pivF]; simp
  | succ i =>
    rw [sum_range_succ, Finset.sum_eq_zero, zero_add]
    · unfold ptRow
      rw [if_neg (by omega), if_pos rfl, pivF]
      have hpi := hp i (by omega)
      have h2 := sqrt_piv (pivF_star hd i (by omega)) hpi
      have h3 : ((Real.sqrt (RCLike.re (pivF d e i)) : ℝ) : 𝕜) ≠ 0 := sqrt_ne hpi
      rw [star_div₀, star_star]
      have h4 : star ((Real.sqrt (RCLike.re (pivF d e i)) : ℝ) : 𝕜) =
        ((Real.sqrt (RCLike.re (pivF d e i)) : ℝ) : 𝕜) := by simp
      rw [h4, div_mul_div_comm, h2]
      ring
    · intro l hl
      rw [mem_range] at hl
      unfold ptRow
      rw [if_neg (by omega), if_neg (by omega), mul_zero]

theorem ptRows {d e : Nat → 𝕜} {n : Nat} (hd : ∀ i, i < n → star (d i) = d i) {k : Nat}
    (hk : k ≤ n) (hp : ∀ l, l < k → 0 < RCLike.re (pivF d e l)) :
    CholRows (tridF d e) (ptRow d e) k n := by
  refine ⟨fun i j hi hij hj => ?_, fun i hi => ?_⟩
  · have hpi := hp i hi
    have h2 := sqrt_piv (pivF_star hd i (by omega)) hpi
    have h3 : ((Real.sqrt (RCLike.re (pivF d e i)) : ℝ) : 𝕜) ≠ 0 := sqrt_ne hpi
    have h4 : star ((Real.sqrt (RCLike.re (pivF d e i)) : ℝ) : 𝕜) =
        ((Real.sqrt (RCLike.re (pivF d e i)) : ℝ) : 𝕜) := by simp
    rw [sum_range_succ]
    by_cases e1 : i = j
    · subst e1
      rw [ptRow_sum hd hk hp (by omega) (by omega)]
      unfold ptRow tridF
      rw [if_pos rfl, if_pos rfl, h4, h2]
      ring
    · rw [Finset.sum_eq_zero, zero_add]
      · unfold tridF
        rw [if_neg e1, if_neg (by omega)]
        unfold ptRow
        rw [if_pos rfl, if_neg (by omega), h4]
        by_cases e2 : j = i + 1
        · rw [if_pos e2, if_pos e2, mul_div_cancel₀ _ h3]
        · rw [if_neg e2, if_neg e2, mul_zero]
      · intro l hl
        rw [mem_range] at hl
        have : ptRow d e l j = 0 := by
          unfold ptRow
          rw [if_neg (by omega), if_neg (by omega)]
        rw [this, mul_zero]
  · unfold ptRow
    rw [if_pos rfl]
    have hpi := hp i hi
    exact ⟨by simpa using Real.sqrt_pos.2 hpi, by simp⟩

theorem ptFail {d e : Nat → 𝕜} {n : Nat} (hd : ∀ i, i < n → star (d i) = d i) {k : Nat}
    (hk : k < n) (hp : ∀ l, l < k → 0 < RCLike.re (pivF d e l)) (hf : RCLike.re (pivF d e k) ≤ 0) :
    CholFail (tridF d e) k := by
  refine ⟨ptRow d e, (ptRows hd (le_of_lt hk) hp).mono (le_refl _) hk, ?_⟩
  rw [ptRow_sum hd (le_of_lt hk) hp hk (le_refl _), map_sub]
  unfold tridF
  rw [if_pos rfl]
  linarith

/-- `L D Lᴴ`. -/
theorem ptFactor {d e : Nat → 𝕜} {n : Nat} (hd : ∀ i, i < n → star (d i) = d i)
    (hp : ∀ l, l < n → 0 < RCLike.re (pivF d e l)) :
    mat n n (tridF d e) = mat n n (bidF (fun i => e i / pivF d e i)) *
      mat n n (fun i j => if i = j then pivF d e i else 0) *
      (mat n n (bidF (fun i => e i / pivF d e i))).conjTranspose := by
  have H := ptRows (k := n) hd (le_refl n) hp
  have hs : ∀ i j, i < n → j < n → tridF d e i j = ∑ l ∈ range n,
      star (ptRow d e l i) * ptRow d e l j := by
    intro i j hi hj
    have key : ∀ i j, i ≤ j → j < n → tridF d e i j = ∑ l ∈ range n, star (ptRow d e l i) * ptRow d e l j := by
      intro i j hij hj
      rw [← H.eq i j (by omega) hij hj]
      refine Finset.sum_subset (fun l hl => ?_) (fun l _ hl => ?_)
      · rw [mem_range] at hl ⊢; omega
      · rw [mem_range] at hl
        have : ptRow d e l i = 0 := by
          unfold ptRow; rw [if_neg (by omega), if_neg (by omega)]
        rw [this, star_zero, zero_mul]
    rcases Nat.le_total i j with h | h
    · exact key i j h hj
    · rw [← tridF_star hd j i hj hi, key j i h hi, star_sum]
      refine Finset.sum_congr rfl (fun l _ => ?_)
      rw [star_mul', star_star, mul_comm]
  rw [mat_conjTranspose, mat_mul, mat_mul, mat_ext_iff]
  intro i j hi hj
  rw [hs i j hi hj]
  refine Finset.sum_congr rfl (fun l hl => ?_)
  rw [mem_range] at hl
  have hpl := hp l hl
  have h1 := pivF_star hd (e := e) l hl
  have h2 := sqrt_piv h1 hpl
  have h3 : ((Real.sqrt (RCLike.re (pivF d e l)) : ℝ) : 𝕜) ≠ 0 := sqrt_ne hpl
  have h4 : star ((Real.sqrt (RCLike.re (pivF d e l)) : ℝ) : 𝕜) =
        ((Real.sqrt (RCLike.re (pivF d e l)) : ℝ) : 𝕜) := by simp
  have hr : ∀ x, ptRow d e l x = ((Real.sqrt (RCLike.re (pivF d e l)) : ℝ) : 𝕜) *
      star (bidF (fun i => e i / pivF d e i) x l) := by
    intro x
    unfold ptRow bidF
    by_cases e1 : x = l
    · rw [if_pos e1, if_pos e1, star_one, mul_one]
    · rw [if_neg e1, if_neg e1]
      by_cases e2 : x = l + 1
      · rw [if_pos e2, if_pos e2, star_div₀, h1]
        have hne : pivF d e l ≠ 0 := by rw [← h2]; exact mul_ne_zero h3 h3
        field_simp
        rw [pow_two, h2]
      · rw [if_neg e2, if_neg e2, star_zero, mul_zero]
  rw [Finset.sum_eq_single l (fun b _ hb => by rw [if_neg hb, mul_zero])
    (fun h => absurd (mem_range.2 hl) h), if_pos rfl, hr i, hr j, star_mul', star_star, h4]
  calc _ = bidF (fun i => e i / pivF d e i) i l * (((Real.sqrt (RCLike.re (pivF d e l)) : ℝ) : 𝕜) *
        ((Real.sqrt (RCLike.re (pivF d e l)) : ℝ) : 𝕜)) * star (bidF (fun i => e i / pivF d e i) j l) := by ring
    _ = _ := by rw [h2]

/-- Memory after `i` steps. -/
structure PtState (D E : VecV L) (n : Nat) (μ : Store L 𝕜) (i : Nat) (ν : Store L 𝕜) : Prop where
  pos : ∀ l, l < i → 0 < RCLike.re (pivF (ventry μ D) (ventry μ E) l)
  d : ∀ l, l < n → ventry ν D l = if l ≤ i then pivF (ventry μ D) (ventry μ E) l else ventry μ D l
  e : ∀ l, l + 1 < n → ventry ν E l = if l < i then ventry μ E l / pivF (ventry μ D) (ventry μ E) l
    else ventry μ E l
  frame : ∀ l, ¬ D.Owns l → ¬ E.Owns l → ν l = μ l

/-- Outcome of pttrf. -/
def PtRes (D E : VecV L) (n : Nat) (μ : Store L 𝕜) (r : Option Nat) (ν : Store L 𝕜) : Prop :=
  (∀ l, ¬ D.Owns l → ¬ E.Owns l → ν l = μ l) ∧
  match r with
  | none => PtState D E n μ (n - 1) ν ∧
      ∀ l, l < n → 0 < RCLike.re (pivF (ventry μ D) (ventry μ E) l)
  | some k => k < n ∧ (∀ l, l < k → 0 < RCLike.re (pivF (ventry μ D) (ventry μ E) l)) ∧
      RCLike.re (pivF (ventry μ D) (ventry μ E) k) ≤ 0

theorem wp_pttrf {thr : Bool} {D E : VecV L} {n : Nat} (hD : D.Inj) (hE : E.Inj) (hDE : D.Disj E)
    (hn : D.n = n) (hen : D.n = E.n + 1) (μ : Store L 𝕜)
    (hd : ∀ i, i < n → star (ventry μ D i) = ventry μ D i) :
    wp (pttrf thr D E) μ
      (fun r ν => (r = 0 ∧ PtRes D E n μ none ν) ∨
        (thr = false ∧ ∃ k, r = k + 1 ∧ PtRes D E n μ (some k) ν))
      (fun x ν => thr = true ∧ ∃ k, x = .runtime (k + 1) ∧ PtRes D E n μ (some k) ν) := by
  have hps := pivF_star (e := ventry μ E) hd
  unfold pttrf
  simp only [wp_bind, wp_check]
  rw [if_pos (by simpa using hen), if_neg (by omega)]
  simp only [wp_bind]
  refine wp_forStep (fun i ν => i < n ∧ PtState D E n μ i ν) (by omega) ?_ ?_ 0 μ ?_
  · rintro i ν hi ⟨hin, h⟩
    simp only [wp_bind]
    have hdi : ν (D.cell i) = pivF (ventry μ D) (ventry μ E) i := (h.d i (by omega)).trans (if_pos (le_refl i))
    have hei : ν (E.cell i) = ventry μ E i := (h.e i (by omega)).trans (if_neg (by omega))
    have hre : re (pivF (ventry μ D) (ventry μ E) i) = pivF (ventry μ D) (ventry μ E) i :=
      ExactScalar.re_of_star _ (hps i (by omega))
    refine wp_vgetE (by omega) ?_
    rw [hdi, hre]
    by_cases hc : RealOps.le (pivF (ventry μ D) (ventry μ E) i) (0 : 𝕜) = true
    · rw [if_pos hc]
      have hc' : RCLike.re (pivF (ventry μ D) (ventry μ E) i) ≤ 0 := by
        simpa [RealOps.le] using hc
      simp only [wp_bind, wp_raise]
      have hr : PtRes D E n μ (some i) ν := ⟨h.frame, by omega, h.pos, hc'⟩
      cases thr
      · exact Or.inr ⟨rfl, i, rfl, hr⟩
      · exact ⟨rfl, i, rfl, hr⟩
    · rw [if_neg hc]
      have hc' : 0 < RCLike.re (pivF (ventry μ D) (ventry μ E) i) := by
        simpa [RealOps.le] using hc
      have hne : E.cell i ≠ D.cell (i + 1) := fun hx => hDE (i + 1) (by omega) ⟨i, by omega, hx⟩
      have hne' : D.cell (i + 1) ≠ E.cell i := fun hx => hne hx.symm
      simp only [wp_bind]
      refine wp_vgetE (by omega) ?_
      refine wp_vsetE (by omega) ?_
      refine wp_vgetE (by omega) ?_
      refine wp_vmodifyE (by omega) ?_
      rw [wp_pure]
      refine ⟨by omega, ?_⟩
      have hval : upd ν (E.cell i) (ν (E.cell i) / pivF (ventry μ D) (ventry μ E) i) (D.cell (i + 1)) =
          ventry μ D (i + 1) := by
        unfold upd
        rw [if_neg hne']
        exact (h.d (i + 1) (by omega)).trans (if_neg (by omega))
      have hself : upd ν (E.cell i) (ν (E.cell i) / pivF (ventry μ D) (ventry μ E) i) (E.cell i) =
          ventry μ E i / pivF (ventry μ D) (ventry μ E) i := by
        unfold upd; rw [if_pos rfl, hei]
      have hnew : ventry μ D (i + 1) - re (ventry μ E i / pivF (ventry μ D) (ventry μ E) i *
          star (ventry μ E i)) = pivF (ventry μ D) (ventry μ E) (i + 1) := by
        rw [pivF]
        congr 1
        have : ventry μ E i / pivF (ventry μ D) (ventry μ E) i * star (ventry μ E i) =
          ventry μ E i * star (ventry μ E i) / pivF (ventry μ D) (ventry μ E) i := by ring
        rw [this]
        refine ExactScalar.re_of_star _ ?_
        rw [star_div₀, star_mul', star_star, hps i (by omega), mul_comm]
      rw [hval, hself, hei, hnew]
      refine ⟨fun l hl => ?_, fun l hl => ?_, fun l hl => ?_, fun l h1 h2 => ?_⟩
      · by_cases hli : l < i
        · exact h.pos l hli
        · obtain rfl : l = i := by omega
          exact hc'
      · unfold ventry upd
        by_cases hli : l = i + 1
        · subst hli; rw [if_pos rfl, if_pos (le_refl _)]
        · rw [if_neg (fun hx => hli (hD _ _ (by omega) (by omega) hx)),
            if_neg (fun hx => hDE l (by omega) ⟨i, by omega, hx.symm⟩)]
          refine (h.d l hl).trans (if_congr ?_ rfl rfl)
          omega
      · unfold ventry upd
        rw [if_neg (fun hx => hDE (i + 1) (by omega) ⟨l, by omega, hx⟩)]
        by_cases hli : l = i
        · subst hli; rw [if_pos rfl, if_pos (by omega)]
        · rw [if_neg (fun hx => hli (hE _ _ (by omega) (by omega) hx))]
          refine (h.e l hl).trans (if_congr ?_ rfl rfl)
          omega
      · unfold upd
        rw [if_neg (fun hx => h1 ⟨i + 1, by omega, hx.symm⟩),
          if_neg (fun hx => h2 ⟨i, by omega, hx.symm⟩)]
        exact h.frame l h1 h2
  · rintro i ν hi ⟨hin, h⟩
    obtain rfl : i = n - 1 := by omega
    simp only [wp_bind]
    have hdi : ν (D.cell (n - 1)) = pivF (ventry μ D) (ventry μ E) (n - 1) :=
      (h.d (n - 1) (by omega)).trans (if_pos (le_refl _))
    have hre : re (pivF (ventry μ D) (ventry μ E) (n - 1)) = pivF (ventry μ D) (ventry μ E) (n - 1) :=
      ExactScalar.re_of_star _ (hps (n - 1) (by omega))
    rw [hn]
    refine wp_vgetE (by omega) ?_
    rw [hdi, hre]
    by_cases hc : RealOps.le (pivF (ventry μ D) (ventry μ E) (n - 1)) (0 : 𝕜) = true
    · rw [if_pos hc]
      have hc' : RCLike.re (pivF (ventry μ D) (ventry μ E) (n - 1)) ≤ 0 := by
        simpa [RealOps.le] using hc
      simp only [wp_bind, wp_raise]
      have hr : PtRes D E n μ (some (n - 1)) ν := ⟨h.frame, by omega, h.pos, hc'⟩
      cases thr
      · exact Or.inr ⟨rfl, n - 1, by omega, hr⟩
      · exact ⟨rfl, n - 1, by rw [show n - 1 + 1 = n by omega], hr⟩
    · rw [if_neg hc]
      have hc' : 0 < RCLike.re (pivF (ventry μ D) (ventry μ E) (n - 1)) := by
        simpa [RealOps.le] using hc
      refine Or.inl ⟨rfl, h.frame, h, fun l hl => ?_⟩
      by_cases hli : l < n - 1
      · exact h.pos l hli
      · obtain rfl : l = n - 1 := by omega
        exact hc'
  · refine ⟨by omega, fun l hl => by omega, fun l hl => ?_, fun l hl => by rw [if_neg (by omega)], fun l _ _ => rfl⟩
    by_cases h : l ≤ 0
    · obtain rfl : l = 0 := by omega
      rw [if_pos h]; rfl
    · rw [if_neg h]

end TLA
