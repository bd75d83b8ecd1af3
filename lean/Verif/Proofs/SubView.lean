import Verif.Proofs.Loops

/-! Sub-views: ownership, disjointness, lifting of described states. -/

namespace TLA
variable {L T : Type}

theorem MatV.Inj.sub {A : MatV L} (h : A.Inj) {r0 r1 c0 c1 : Nat} (hr : r1 ≤ A.m) (hc : c1 ≤ A.n) :
    (A.sub r0 r1 c0 c1).Inj := by
  intro i j i' j' hi hj hi' hj' e
  simp only [MatV.sub] at hi hj hi' hj' e
  have := h _ _ _ _ (by omega) (by omega) (by omega) (by omega) e
  omega

theorem MatV.Inj.rowv {A : MatV L} (h : A.Inj) {i c0 c1 : Nat} (hr : i < A.m) (hc : c1 ≤ A.n) :
    (A.rowv i c0 c1).Inj := by
  intro j j' hj hj' e
  simp only [MatV.rowv] at hj hj' e
  have := h _ _ _ _ hr (by omega) hr (by omega) e
  omega

theorem MatV.Inj.colv {A : MatV L} (h : A.Inj) {r0 r1 j : Nat} (hr : r1 ≤ A.m) (hc : j < A.n) :
    (A.colv r0 r1 j).Inj := by
  intro i i' hi hi' e
  simp only [MatV.colv] at hi hi' e
  have := h _ _ _ _ (by omega) hc (by omega) hc e
  omega

theorem VecV.Inj.sub {x : VecV L} (h : x.Inj) {a b : Nat} (hb : b ≤ x.n) : (x.sub a b).Inj := by
  intro i i' hi hi' e
  simp only [VecV.sub] at hi hi' e
  have := h _ _ (by omega) (by omega) e
  omega

theorem MatV.Owns.sub {A : MatV L} {r0 r1 c0 c1 : Nat} (hr : r1 ≤ A.m) (hc : c1 ≤ A.n) {l : L}
    (h : (A.sub r0 r1 c0 c1).Owns l) : A.Owns l := by
  obtain ⟨i, j, hi, hj, e⟩ := h
  simp only [MatV.sub] at hi hj e
  exact ⟨r0 + i, c0 + j, by omega, by omega, e⟩

theorem VecV.Owns.rowv {A : MatV L} {i c0 c1 : Nat} (hr : i < A.m) (hc : c1 ≤ A.n) {l : L}
    (h : (A.rowv i c0 c1).Owns l) : A.Owns l := by
  obtain ⟨j, hj, e⟩ := h
  simp only [MatV.rowv] at hj e
  exact ⟨i, c0 + j, hr, by omega, e⟩

theorem VecV.Owns.colv {A : MatV L} {r0 r1 j : Nat} (hr : r1 ≤ A.m) (hc : j < A.n) {l : L}
    (h : (A.colv r0 r1 j).Owns l) : A.Owns l := by
  obtain ⟨i, hi, e⟩ := h
  simp only [MatV.colv] at hi e
  exact ⟨r0 + i, j, by omega, hc, e⟩

theorem VecV.Owns.sub {x : VecV L} {a b : Nat} (hb : b ≤ x.n) {l : L}
    (h : (x.sub a b).Owns l) : x.Owns l := by
  obtain ⟨i, hi, e⟩ := h
  simp only [VecV.sub] at hi e
  exact ⟨a + i, by omega, e⟩

theorem MatV.Disj.sub_left {A B : MatV L} (h : A.Disj B) {r0 r1 c0 c1 : Nat}
    (hr : r1 ≤ A.m) (hc : c1 ≤ A.n) : (A.sub r0 r1 c0 c1).Disj B := by
  intro i j hi hj
  simp only [MatV.sub] at hi hj ⊢
  exact h _ _ (by omega) (by omega)

theorem MatV.Disj.sub_right {A B : MatV L} (h : A.Disj B) {r0 r1 c0 c1 : Nat}
    (hr : r1 ≤ B.m) (hc : c1 ≤ B.n) : A.Disj (B.sub r0 r1 c0 c1) :=
  fun i j hi hj ho => h i j hi hj (ho.sub hr hc)

/-- Two blocks of the same matrix with no common index are disjoint. -/
theorem MatV.Inj.disj_sub {A : MatV L} (h : A.Inj) {r0 r1 c0 c1 r0' r1' c0' c1' : Nat}
    (hr : r1 ≤ A.m) (hc : c1 ≤ A.n) (hr' : r1' ≤ A.m) (hc' : c1' ≤ A.n)
    (hd : r1 ≤ r0' ∨ r1' ≤ r0 ∨ c1 ≤ c0' ∨ c1' ≤ c0) :
    (A.sub r0 r1 c0 c1).Disj (A.sub r0' r1' c0' c1') := by
  rintro i j hi hj ⟨i', j', hi', hj', e⟩
  simp only [MatV.sub] at hi hj hi' hj' e
  have := h _ _ _ _ (by omega) (by omega) (by omega) (by omega) e
  omega

/-- The state after a block of `C` has been changed. -/
theorem MState.lift {C : MatV L} {μ0 ν ν' : Store L T} {G H : Nat → Nat → T}
    {r0 r1 c0 c1 : Nat} (h : MState C μ0 G ν) (hC : C.Inj) (hr1 : r1 ≤ C.m) (hc1 : c1 ≤ C.n)
    (h' : MState (C.sub r0 r1 c0 c1) ν H ν') :
    MState C μ0 (fun i j => if (r0 ≤ i ∧ i < r1) ∧ (c0 ≤ j ∧ j < c1) then H (i - r0) (j - c0)
      else G i j) ν' := by
  refine ⟨fun i j hi hj => ?_, fun l hl => ?_⟩
  · by_cases hin : (r0 ≤ i ∧ i < r1) ∧ (c0 ≤ j ∧ j < c1)
    · rw [if_pos hin]
      have := h'.val (i - r0) (j - c0) (by simp only [MatV.sub]; omega) (by simp only [MatV.sub]; omega)
      simp only [MatV.sub] at this
      rwa [show r0 + (i - r0) = i by omega, show c0 + (j - c0) = j by omega] at this
    · rw [if_neg hin, h'.frame, h.val i j hi hj]
      rintro ⟨i', j', hi', hj', e⟩
      simp only [MatV.sub] at hi' hj' e
      have := hC _ _ _ _ (by omega) (by omega) hi hj e
      omega
  · rw [h'.frame l (fun ho => hl (ho.sub hr1 hc1)), h.frame l hl]

/-- The state after part of a row of `C` has been changed. -/
theorem MState.liftRow {C : MatV L} {μ0 ν ν' : Store L T} {G : Nat → Nat → T} {g : Nat → T}
    {r c0 c1 : Nat} (h : MState C μ0 G ν) (hC : C.Inj) (hr : r < C.m) (hc1 : c1 ≤ C.n)
    (h' : VState (C.rowv r c0 c1) ν g ν') :
    MState C μ0 (fun i j => if i = r ∧ (c0 ≤ j ∧ j < c1) then g (j - c0) else G i j) ν' := by
  refine ⟨fun i j hi hj => ?_, fun l hl => ?_⟩
  · by_cases hin : i = r ∧ (c0 ≤ j ∧ j < c1)
    · rw [if_pos hin]
      have := h'.val (j - c0) (by simp only [MatV.rowv]; omega)
      simp only [MatV.rowv] at this
      rwa [show c0 + (j - c0) = j by omega, ← hin.1] at this
    · rw [if_neg hin, h'.frame, h.val i j hi hj]
      rintro ⟨j', hj', e⟩
      simp only [MatV.rowv] at hj' e
      have := hC _ _ _ _ hr (by omega) hi hj e
      omega
  · rw [h'.frame l (fun ho => hl (ho.rowv hr hc1)), h.frame l hl]

/-- The state after part of a column of `C` has been changed. -/
theorem MState.liftCol {C : MatV L} {μ0 ν ν' : Store L T} {G : Nat → Nat → T} {g : Nat → T}
    {r0 r1 c : Nat} (h : MState C μ0 G ν) (hC : C.Inj) (hr1 : r1 ≤ C.m) (hc : c < C.n)
    (h' : VState (C.colv r0 r1 c) ν g ν') :
    MState C μ0 (fun i j => if j = c ∧ (r0 ≤ i ∧ i < r1) then g (i - r0) else G i j) ν' := by
  refine ⟨fun i j hi hj => ?_, fun l hl => ?_⟩
  · by_cases hin : j = c ∧ (r0 ≤ i ∧ i < r1)
    · rw [if_pos hin]
      have := h'.val (i - r0) (by simp only [MatV.colv]; omega)
      simp only [MatV.colv] at this
      rwa [show r0 + (i - r0) = i by omega, ← hin.1] at this
    · rw [if_neg hin, h'.frame, h.val i j hi hj]
      rintro ⟨i', hi', e⟩
      simp only [MatV.colv] at hi' e
      have := hC _ _ _ _ (by omega) hc hi hj e
      omega
  · rw [h'.frame l (fun ho => hl (ho.colv hr1 hc)), h.frame l hl]

/-- The state after part of a vector has been changed. -/
theorem VState.lift {x : VecV L} {μ0 ν ν' : Store L T} {g h : Nat → T}
    {a b : Nat} (hx : VState x μ0 g ν) (hi : x.Inj) (hb : b ≤ x.n)
    (h' : VState (x.sub a b) ν h ν') :
    VState x μ0 (fun i => if a ≤ i ∧ i < b then h (i - a) else g i) ν' := by
  refine ⟨fun i hin => ?_, fun l hl => ?_⟩
  · by_cases hc : a ≤ i ∧ i < b
    · rw [if_pos hc]
      have := h'.val (i - a) (by simp only [VecV.sub]; omega)
      simp only [VecV.sub] at this
      rwa [show a + (i - a) = i by omega] at this
    · rw [if_neg hc, h'.frame, hx.val i hin]
      rintro ⟨i', hi', e⟩
      simp only [VecV.sub] at hi' e
      have := hi _ _ (by omega) hin e
      omega
  · rw [h'.frame l (fun ho => hl (ho.sub hb)), hx.frame l hl]

/-- Transitivity: a change of `C` after a change of `C`. -/
theorem MState.trans {C : MatV L} {μ0 ν ν' : Store L T} {G H : Nat → Nat → T}
    (h : MState C μ0 G ν) (h' : MState C ν H ν') : MState C μ0 H ν' :=
  ⟨h'.val, fun l hl => (h'.frame l hl).trans (h.frame l hl)⟩

end TLA
