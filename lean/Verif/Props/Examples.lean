import Verif.Wp
import Verif.RealScalar

/-!
Concrete views and scalars used beside the theorems to show that their hypotheses are met by
non-trivial cases, plus two frame lemmas.
-/

namespace TLA

/-- A matrix stored in its own array number `t`. -/
def mkM (t m n : Nat) : MatV (Nat × Nat × Nat) := ⟨m, n, fun i j => (t, i, j)⟩

/-- A vector stored in its own array number `t`. -/
def mkV (t n : Nat) : VecV (Nat × Nat × Nat) := ⟨n, fun i => (t, i, 0)⟩

theorem mkM_inj (t m n : Nat) : (mkM t m n).Inj := by
  intro i j i' j' _ _ _ _ h
  simp only [mkM, Prod.mk.injEq] at h
  exact ⟨h.2.1, h.2.2⟩

theorem mkV_inj (t n : Nat) : (mkV t n).Inj := by
  intro i i' _ _ h
  simp only [mkV, Prod.mk.injEq] at h
  exact h.2.1

theorem mkM_disj {s t m n m' n' : Nat} (h : s ≠ t) : (mkM s m n).Disj (mkM t m' n') := by
  rintro i j _ _ ⟨i', j', _, _, e⟩
  simp only [mkM, Prod.mk.injEq] at e
  exact h e.1.symm

theorem mkM_disjV {s t m n n' : Nat} (h : s ≠ t) : (mkM s m n).DisjV (mkV t n') := by
  rintro i j _ _ ⟨i', _, e⟩
  simp only [mkM, mkV, Prod.mk.injEq] at e
  exact h e.1.symm

theorem mkV_disjM {s t n m' n' : Nat} (h : s ≠ t) : (mkV s n).DisjM (mkM t m' n') := by
  rintro i _ ⟨i', j', _, _, e⟩
  simp only [mkM, mkV, Prod.mk.injEq] at e
  exact h e.1.symm

theorem mkV_disj {s t n n' : Nat} (h : s ≠ t) : (mkV s n).Disj (mkV t n') := by
  rintro i _ ⟨i', _, e⟩
  simp only [mkV, Prod.mk.injEq] at e
  exact h e.1.symm

/-- Discharge the admissibility conditions of a concrete call. -/
macro "adm" : tactic => `(tactic| first
  | rfl
  | exact mkM_inj _ _ _
  | exact mkV_inj _ _
  | exact mkM_disj (by decide)
  | exact mkM_disjV (by decide)
  | exact mkV_disjM (by decide)
  | exact mkV_disj (by decide)
  | decide
  | simp [mkM, mkV])

variable {L T : Type}

/-- A described state changes no cell outside the selected triangle if its description does not. -/
theorem MState.sameOff {A : MatV L} {uplo : Uplo} {μ ν : Store L T} {G : Nat → Nat → T}
    (h : MState A μ G ν)
    (hG : ∀ i j, i < A.m → j < A.n → ¬ inTri uplo i j → G i j = μ (A.cell i j)) :
    SameOff A uplo μ ν := by
  intro l hl
  by_cases ho : A.Owns l
  · obtain ⟨i, j, hi, hj, rfl⟩ := ho
    rw [h.val i j hi hj]
    exact hG i j hi hj (fun ht => hl i j hi hj ht rfl)
  · exact h.frame l ho

/-- Two described states with the same description, started from stores that agree outside the
described view, are equal. -/
theorem MState.ext {A : MatV L} {μ μ' ν ν' : Store L T} {G G' : Nat → Nat → T}
    (h : MState A μ G ν) (h' : MState A μ' G' ν')
    (hG : ∀ i j, i < A.m → j < A.n → G i j = G' i j)
    (hμ : ∀ l, ¬ A.Owns l → μ l = μ' l) : ν = ν' := by
  funext l
  by_cases ho : A.Owns l
  · obtain ⟨i, j, hi, hj, rfl⟩ := ho
    rw [h.val i j hi hj, h'.val i j hi hj, hG i j hi hj]
  · rw [h.frame l ho, h'.frame l ho, hμ l ho]

theorem VState.ext {x : VecV L} {μ μ' ν ν' : Store L T} {G G' : Nat → T}
    (h : VState x μ G ν) (h' : VState x μ' G' ν')
    (hG : ∀ i, i < x.n → G i = G' i)
    (hμ : ∀ l, ¬ x.Owns l → μ l = μ' l) : ν = ν' := by
  funext l
  by_cases ho : x.Owns l
  · obtain ⟨i, hi, rfl⟩ := ho
    rw [h.val i hi, h'.val i hi, hG i hi]
  · rw [h.frame l ho, h'.frame l ho, hμ l ho]

end TLA
