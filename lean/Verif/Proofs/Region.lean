import Verif.Model.Auxil
import Verif.Proofs.Blas1

/-! Loops over the selected part of a matrix. -/

set_option linter.unusedTactic false
set_option linter.unreachableTactic false

namespace TLA
variable {L T σ : Type}

theorem forUp_empty {lo hi : Nat} (h : hi ≤ lo) (s : σ) (body : Nat → σ → M L T σ) :
    forUp lo hi s body = pure s := by
  unfold forUp; rw [show hi - lo = 0 by omega]; rfl

theorem forUp__empty {lo hi : Nat} (h : hi ≤ lo) (body : Nat → M L T Unit) :
    forUp_ lo hi body = pure () := forUp_empty h _ _

/-- Invariant rule for ascending loops whose bounds may be crossed. -/
theorem wp_forUp_' {body : Nat → M L T Unit} {E} {lo hi : Nat} {μ : Store L T}
    {Q : Unit → Store L T → Prop}
    (I : Nat → Store L T → Prop)
    (h0 : I lo μ)
    (hs : ∀ i μ, lo ≤ i → i < hi → I i μ → wp (body i) μ (fun _ => I (i + 1)) E)
    (hQ : ∀ μ, I (max lo hi) μ → Q () μ) :
    wp (forUp_ lo hi body) μ Q E := by
  by_cases h : lo ≤ hi
  · rw [Nat.max_eq_right h] at hQ
    exact wp_forUp_ I h h0 hs hQ
  · rw [Nat.max_eq_left (by omega)] at hQ
    rw [forUp__empty (by omega)]
    exact hQ μ h0

variable [DecidableEq L]

/-- A double loop that writes `V i j` to `C(i,j)` for `j0 ≤ j < n`, `lo j ≤ i < hi j`. -/
theorem wp_region {C : MatV L} {lo hi : Nat → Nat} {body : Nat → Nat → M L T Unit} {j0 n : Nat}
    {μ0 μ : Store L T} {G : Nat → Nat → T} (V : Nat → Nat → T)
    (h : MState C μ0 G μ) (hC : C.Inj) (hn : n ≤ C.n)
    (hhi : ∀ j, j0 ≤ j → j < n → lo j < hi j → hi j ≤ C.m)
    (hb : ∀ j i ν, j0 ≤ j → j < n → lo j ≤ i → i < hi j →
      MState C μ0 (fun i' j' =>
        if (j0 ≤ j' ∧ j' < j ∧ lo j' ≤ i' ∧ i' < hi j') ∨ (j' = j ∧ lo j ≤ i' ∧ i' < i)
        then V i' j' else G i' j') ν →
      wp (body j i) ν (fun _ ν' => ν' = upd ν (C.cell i j) (V i j))) :
    wp (forUp_ j0 n fun j => forUp_ (lo j) (hi j) fun i => body j i) μ (fun _ ν =>
      MState C μ0 (fun i j => if j0 ≤ j ∧ j < n ∧ lo j ≤ i ∧ i < hi j then V i j else G i j) ν) := by
  refine wp_forUp_' (fun k ν => MState C μ0
    (fun i j => if j0 ≤ j ∧ j < k ∧ lo j ≤ i ∧ i < hi j then V i j else G i j) ν)
    (h.congr (fun i j _ _ => by rw [if_neg (by omega)])) ?_
    (fun ν hν => hν.congr (fun i j _ _ => ?_))
  · intro j ν hj1 hj2 hν
    refine wp_forUp_' (fun k ν => MState C μ0 (fun i' j' =>
        if (j0 ≤ j' ∧ j' < j ∧ lo j' ≤ i' ∧ i' < hi j') ∨ (j' = j ∧ lo j ≤ i' ∧ i' < k)
        then V i' j' else G i' j') ν) (hν.congr (fun i' j' _ _ => ?_)) ?_
      (fun ν hν => hν.congr (fun i' j' _ _ => ?_))
    · refine if_congr ⟨?_, ?_⟩ rfl rfl
      · rintro (h | h)
        · exact h
        · omega
      · exact Or.inl
    · intro i ν hi1 hi2 hν
      refine wp_conseq (hb j i ν hj1 hj2 hi1 hi2 hν) ?_
      rintro _ _ rfl
      have := hhi j hj1 hj2 (by omega)
      refine hν.upd hC (by omega) (by omega) (fun i' j' _ _ => ?_)
      by_cases e : i' = i ∧ j' = j
      · obtain ⟨rfl, rfl⟩ := e
        rw [if_pos (Or.inr ⟨rfl, hi1, by omega⟩), if_pos ⟨rfl, rfl⟩]
      · rw [if_neg e]
        refine if_congr ⟨?_, ?_⟩ rfl rfl
        · rintro (h | h)
          · exact Or.inl h
          · exact Or.inr ⟨h.1, h.2.1, by omega⟩
        · rintro (h | h)
          · exact Or.inl h
          · exact Or.inr ⟨h.1, h.2.1, by omega⟩
    · by_cases e : j' = j
      · subst e
        refine if_congr ⟨?_, ?_⟩ rfl rfl
        · intro h; exact Or.inr ⟨rfl, h.2.2.1, by omega⟩
        · rintro (h | h)
          · omega
          · exact ⟨hj1, by omega, h.2.1, by omega⟩
      · refine if_congr ⟨?_, ?_⟩ rfl rfl
        · intro h; exact Or.inl ⟨h.1, by omega, h.2.2⟩
        · rintro (h | h)
          · exact ⟨h.1, by omega, h.2.2⟩
          · exact absurd h.1 e
  · by_cases h : j0 ≤ n
    · rw [Nat.max_eq_right h]
    · rw [Nat.max_eq_left (by omega), if_neg (by omega), if_neg (by omega)]

end TLA
