import Verif.Proofs.SteqrLoop
import Verif.Props.Sort
set_option linter.unusedTactic false
set_option linter.unusedVariables false
set_option linter.unusedSimpArgs false
set_option linter.unreachableTactic false

/-! # steqr: sorting -/

namespace TLA
open Finset Matrix Kernel
variable {L 𝕜 : Type} [DecidableEq L] [RCLike 𝕜] [DecidableEq 𝕜] {n : Nat}

/-- Permuting the columns of `Q` together with the diagonal. -/
theorem perm_diag {Q : Matrix (Fin n) (Fin n) ℝ} (h : Qᵀ * Q = 1) (σ : Equiv.Perm (Fin n)) (D : Fin n → ℝ) :
    (Q.submatrix id σ)ᵀ * Q.submatrix id σ = 1 ∧
      Q.submatrix id σ * diagonal (fun i => D (σ i)) * (Q.submatrix id σ)ᵀ = Q * diagonal D * Qᵀ := by
  constructor
  · rw [transpose_submatrix, ← submatrix_mul Qᵀ Q σ id σ Function.bijective_id, h, submatrix_one_equiv]
  · have e : diagonal (fun i => D (σ i)) = (diagonal D).submatrix σ σ := by
      rw [submatrix_diagonal_equiv]; rfl
    rw [e, submatrix_mul_equiv Q (diagonal D) id σ σ, transpose_submatrix, submatrix_mul_equiv _ Qᵀ id σ id, submatrix_id_id]

theorem wp_stqMin {L T : Type} {d : RArr} {i : Nat} (hi : i < d.n) {ν : Store L T} :
    wp (stqMin d i d.n : M L T (Nat × ℝ)) ν (fun x ν' => ν' = ν ∧ i ≤ x.1 ∧ x.1 < d.n ∧ x.2 = d.f x.1 ∧ ∀ j, i ≤ j → j < d.n → d.f x.1 ≤ d.f j) := by
  unfold stqMin
  simp only [wp_bind]
  refine wp_rget hi ?_
  refine wp_forUp (fun k x ν' => ν' = ν ∧ i ≤ x.1 ∧ x.1 < d.n ∧ x.2 = d.f x.1 ∧ ∀ j, i ≤ j → j < k → d.f x.1 ≤ d.f j) (by omega) ?_ ?_ ?_
  · refine ⟨rfl, le_rfl, hi, rfl, fun j h1 h2 => ?_⟩
    rw [show j = i by omega]
  · rintro k x ν' hk1 hk2 ⟨rfl, a1, a2, a3, a4⟩
    simp only [wp_bind]
    refine wp_rget hk2 ?_
    by_cases q : d.f k < x.2
    · rw [if_pos q]
      refine ⟨rfl, by simp; omega, hk2, rfl, fun j h1 h2 => ?_⟩
      simp only
      by_cases e : j = k
      · rw [e]
      · have := a4 j h1 (by omega); rw [a3] at q; linarith
    · rw [if_neg q]
      refine ⟨rfl, a1, a2, a3, fun j h1 h2 => ?_⟩
      by_cases e : j = k
      · rw [e]; rw [a3] at q; linarith
      · exact a4 j h1 (by omega)
  · rintro x ν' h; exact h

/-- `d` and the columns of `Z` are rearranged by `σ`. -/
structure SortSt (n : Nat) (Z : MatV L) (μ : Store L 𝕜) (d0 : Nat → ℝ) (σ : Equiv.Perm (Fin n)) (d : RArr) (ν : Store L 𝕜) : Prop where
  dn : d.n = n
  dv : ∀ j : Fin n, d.f j = d0 (σ j)
  zv : ∀ r (j : Fin n), r < Z.m → entry ν Z r j = entry μ Z r (σ j)
  frame : ∀ l, ¬ Z.Owns l → ν l = μ l

theorem wp_stqSort {Z : MatV L} (hZ : Z.Inj) (hn : Z.n = n) (d : RArr) (hd : d.n = n) (μ : Store L 𝕜) :
    wp (stqSort Z d) μ (fun d' ν => (∃ σ : Equiv.Perm (Fin n), SortSt n Z μ d.f σ d' ν) ∧ ∀ i j, i < j → j < n → d'.f i ≤ d'.f j) := by
  unfold stqSort
  refine wp_forUp (fun i d' ν => (∃ σ : Equiv.Perm (Fin n), SortSt n Z μ d.f σ d' ν) ∧ ∀ a b, a < b → a < i → b < n → d'.f a ≤ d'.f b) (by omega) ?_ ?_ ?_
  · exact ⟨⟨1, hd, fun _ => rfl, fun _ _ _ => rfl, fun _ _ => rfl⟩, fun a b _ h _ => absurd h (by omega)⟩
  · rintro i d' ν _ hi ⟨⟨σ, hs⟩, hsort⟩
    have dn := hs.dn
    simp only [wp_bind]
    refine wp_mono (wp_stqMin (by omega)) ?_ (fun _ _ h => h)
    rintro ⟨k, pv⟩ ν' ⟨rfl, k1, k2, k3, k4⟩
    simp only at k1 k2 k3 k4 ⊢
    by_cases hk : k = i
    · rw [if_neg (by simpa using hk)]
      refine ⟨⟨σ, hs⟩, fun a b h1 h2 h3 => ?_⟩
      by_cases ha : a = i
      · rw [ha]; rw [← hk]; exact k4 b (by omega) (by omega)
      · exact hsort a b h1 (by omega) h3
    · rw [if_pos hk]
      simp only [wp_bind]
      refine wp_rget (by omega) (wp_rset (by omega) (wp_rset (by simp; omega) ?_))
      refine wp_sliceCol (by omega) le_rfl (by omega) (wp_sliceCol (by omega) le_rfl (by omega) ?_)
      refine wp_conseq (wp_swap (hZ.colv le_rfl (by omega)) (hZ.colv le_rfl (by omega)) rfl ?_) ?_
      · rintro a ha ⟨b, hb, e⟩
        simp only [MatV.colv, Nat.zero_add, Nat.sub_zero] at ha hb e
        have := (hZ _ _ _ _ (by omega) (by omega) (by omega) (by omega) e).2
        omega
      rintro _ ν'' ⟨h1, h2, h3⟩
      simp only [ventry, MatV.colv, Nat.zero_add, Nat.sub_zero] at h1 h2
      have hin : i < n := by omega
      have hkn : k < n := by omega
      refine ⟨⟨σ * Equiv.swap ⟨i, hin⟩ ⟨k, hkn⟩, dn, fun j => ?_, fun r j hr => ?_, fun l hl => ?_⟩, fun a b g1 g2 g3 => ?_⟩
      · show (if (j : Nat) = i then pv else if (j : Nat) = k then d'.f i else d'.f j) = _
        rw [Equiv.Perm.mul_apply]
        by_cases q1 : (j : Nat) = i
        · rw [if_pos q1, show j = ⟨i, hin⟩ from Fin.ext q1, Equiv.swap_apply_left, ← hs.dv, k3]
        · rw [if_neg q1]
          by_cases q2 : (j : Nat) = k
          · rw [if_pos q2, show j = ⟨k, hkn⟩ from Fin.ext q2, Equiv.swap_apply_right, ← hs.dv]
          · rw [if_neg q2, Equiv.swap_apply_of_ne_of_ne (fun h => q1 (by rw [h])) (fun h => q2 (by rw [h])), ← hs.dv]
      · rw [Equiv.Perm.mul_apply]
        by_cases q1 : (j : Nat) = i
        · rw [show j = ⟨i, hin⟩ from Fin.ext q1, Equiv.swap_apply_left, ← hs.zv r _ hr]
          exact h1 r hr
        · by_cases q2 : (j : Nat) = k
          · rw [show j = ⟨k, hkn⟩ from Fin.ext q2, Equiv.swap_apply_right, ← hs.zv r _ hr]
            exact h2 r hr
          · rw [Equiv.swap_apply_of_ne_of_ne (fun h => q1 (by rw [h])) (fun h => q2 (by rw [h])), ← hs.zv r _ hr]
            refine h3 _ ?_ ?_
            · rintro ⟨b, hb, e⟩
              simp only [MatV.colv, Nat.zero_add, Nat.sub_zero] at hb e
              exact q1 (hZ _ _ _ _ (by omega) (by omega) hr (by omega) e).2.symm
            · rintro ⟨b, hb, e⟩
              simp only [MatV.colv, Nat.zero_add, Nat.sub_zero] at hb e
              exact q2 (hZ _ _ _ _ (by omega) (by omega) hr (by omega) e).2.symm
      · rw [h3 l ?_ ?_, hs.frame l hl]
        · rintro ⟨b, hb, e⟩
          simp only [MatV.colv, Nat.zero_add, Nat.sub_zero] at hb e
          exact hl ⟨b, i, hb, by omega, e⟩
        · rintro ⟨b, hb, e⟩
          simp only [MatV.colv, Nat.zero_add, Nat.sub_zero] at hb e
          exact hl ⟨b, k, hb, by omega, e⟩
      · show (if a = i then pv else if a = k then d'.f i else d'.f a) ≤ (if b = i then pv else if b = k then d'.f i else d'.f b)
        by_cases hb : b = i
        · rw [if_neg (show ¬ a = i by omega), if_neg (show ¬ a = k by omega), if_pos hb, k3]
          exact hsort a k (by omega) (by omega) (by omega)
        rw [if_neg hb]
        by_cases ha : a = i
        · rw [if_pos ha, k3]
          split_ifs
          · exact k4 i le_rfl (by omega)
          · exact k4 b (by omega) (by omega)
        · rw [if_neg ha, if_neg (show ¬ a = k by omega)]
          split_ifs
          · exact hsort a i (by omega) (by omega) (by omega)
          · exact hsort a b g1 (by omega) g3
  · rintro d' ν ⟨hs, hsort⟩
    exact ⟨hs, fun i j h1 h2 => hsort i j h1 (by omega) h2⟩

theorem wp_sortInc {L T : Type} (d : RArr) (μ : Store L T) :
    wp (d.sortInc : M L T RArr) μ (fun d' ν => ν = μ ∧ d'.n = d.n ∧ (∃ σ : Equiv.Perm (Fin d.n), ∀ j : Fin d.n, d'.f j = d.f (σ j)) ∧
      ∀ i j, i < j → j < d.n → d'.f i ≤ d'.f j) := by
  obtain ⟨ν, e, ⟨σ, g1, g2⟩, hs, -, -⟩ := C21_lasrt_sorted (T := ℝ) 'I' (.inr (.inl rfl)) d.n (⟨d.n, id⟩ : VecV Nat) rfl
    (fun a b _ _ h => h) d.f (2 * d.n) le_rfl
  unfold wp RArr.sortInc
  rw [e]
  refine ⟨rfl, rfl, ?_, fun i j h1 h2 => hs (.inr rfl) i j h1 h2⟩
  have hlt : ∀ j, j < d.n ↔ σ j < d.n := by
    intro j
    constructor
    · intro h
      by_contra hc
      have := g1 (σ j) (by omega)
      have := σ.injective this
      omega
    · intro h
      by_contra hc
      have := g1 j (by omega)
      omega
  refine ⟨σ.subtypePerm (p := fun j => j < d.n) (fun j => (hlt j).symm) |> fun τ => Fin.equivSubtype.trans (τ.trans Fin.equivSubtype.symm), fun j => ?_⟩
  exact g2 j j.2

end TLA
