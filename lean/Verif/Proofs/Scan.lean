import Verif.Proofs.Region

/-! Loops that search the selected part of a matrix. -/

namespace TLA
variable {L T σ : Type}

theorem wp_get_full {A : MatV L} {i j : Nat} {μ : Store L T} {Q E} :
    wp (A.get i j) μ Q E ↔ if i < A.m ∧ j < A.n then Q (μ (A.cell i j)) μ else E .ub μ := by
  unfold wp MatV.get; by_cases h : i < A.m ∧ j < A.n <;> simp [h]

theorem wp_forRet' {ρ : Type} {body : Nat → σ → M L T (σ ⊕ ρ)} {E} {lo hi : Nat} {s : σ}
    {μ : Store L T} {Q : σ ⊕ ρ → Store L T → Prop}
    (I : Nat → σ → Store L T → Prop)
    (h0 : I lo s μ)
    (hs : ∀ i s μ, lo ≤ i → i < hi → I i s μ →
      wp (body i s) μ (fun r ν => match r with | .inl s' => I (i + 1) s' ν | .inr r => Q (.inr r) ν) E)
    (hQ : ∀ s μ, I (max lo hi) s μ → Q (.inl s) μ) :
    wp (forRet lo hi s body) μ Q E := by
  by_cases h : lo ≤ hi
  · rw [Nat.max_eq_right h] at hQ
    exact wp_forRet I h h0 hs hQ
  · rw [Nat.max_eq_left (by omega)] at hQ
    unfold forRet
    rw [show hi - lo = 0 by omega]
    exact hQ s μ h0

theorem wp_scanRegion (p : T → Bool) (A : MatV L) (lo hi : Nat → Nat) (μ : Store L T)
    (hhi : ∀ j, j < A.n → lo j < hi j → hi j ≤ A.m) :
    wp (scanRegion p A lo hi) μ (fun r ν => ν = μ ∧
      (r = true ↔ ∃ i j, j < A.n ∧ lo j ≤ i ∧ i < hi j ∧ p (entry μ A i j) = true)) := by
  unfold scanRegion
  simp only [wp_bind]
  refine wp_forRet' (fun j _ ν => ν = μ ∧
    ∀ i j', j' < j → lo j' ≤ i → i < hi j' → p (entry μ A i j') = false)
    ⟨rfl, fun _ _ h => absurd h (Nat.not_lt_zero _)⟩ ?_ ?_
  · rintro j _ ν _ hj ⟨rfl, hno⟩
    simp only [wp_bind]
    refine wp_forRet' (fun k _ ν' => ν' = ν ∧
      ∀ i, lo j ≤ i → i < k → p (entry ν A i j) = false)
      ⟨rfl, fun i h1 h2 => by omega⟩ ?_ ?_
    · rintro i _ ν' h1 h2 ⟨rfl, hk⟩
      have := hhi j hj (by omega)
      simp only [wp_bind, wp_get]
      refine ⟨⟨by omega, hj⟩, ?_⟩
      split
      · rename_i hp
        simp only [wp_pure]
        exact ⟨trivial, by simpa using ⟨i, j, hj, h1, h2, hp⟩⟩
      · rename_i hp
        simp only [wp_pure]
        refine ⟨trivial, fun i' h3 h4 => ?_⟩
        rcases Nat.lt_succ_iff_lt_or_eq.1 h4 with h' | rfl
        · exact hk i' h3 h'
        · exact (Bool.not_eq_true _).mp hp
    · rintro _ ν' ⟨rfl, hk⟩
      simp only [wp_pure]
      refine ⟨trivial, fun i j' h1 h2 h3 => ?_⟩
      rcases Nat.lt_succ_iff_lt_or_eq.1 h1 with h' | rfl
      · exact hno i j' h' h2 h3
      · exact hk i h2 (by omega)
  · rintro _ ν ⟨rfl, hno⟩
    simp only [wp_pure]
    refine ⟨trivial, ⟨fun h => (Bool.noConfusion h), ?_⟩⟩
    rintro ⟨i, j, h1, h2, h3, h4⟩
    rw [hno i j (by omega) h2 h3] at h4
    cases h4

theorem error_of_wp {α : Type} {x : M L T α} {μ : Store L T} {e : Err}
    (h : wp x μ (fun _ _ => False) (fun e' ν => e' = e ∧ ν = μ)) : x μ = (.error e, μ) := by
  unfold wp at h
  rcases hx : x μ with ⟨r, ν⟩
  rw [hx] at h
  cases r with
  | ok a => exact h.elim
  | error e' => obtain ⟨rfl, rfl⟩ := h; rfl

end TLA
