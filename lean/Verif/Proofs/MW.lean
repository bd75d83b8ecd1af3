import Verif.Proofs.Block

/-! States of algorithms working on a matrix with a workspace vector. -/

set_option linter.unusedSectionVars false

namespace TLA
variable {L T : Type} [DecidableEq L]

/-- `A` holds `G`; outside `A` and the workspace `W` memory is as in `μ0`. -/
structure MW (A : MatV L) (W : VecV L) (μ0 : Store L T) (G : Nat → Nat → T) (ν : Store L T) : Prop where
  val : ∀ i j, i < A.m → j < A.n → entry ν A i j = G i j
  frame : ∀ l, ¬ A.Owns l → ¬ W.Owns l → ν l = μ0 l

theorem MW.init (A : MatV L) (W : VecV L) (μ : Store L T) : MW A W μ (entry μ A) μ :=
  ⟨fun _ _ _ _ => rfl, fun _ _ _ => rfl⟩

theorem MW.congr {A : MatV L} {W : VecV L} {μ0 ν : Store L T} {G G' : Nat → Nat → T}
    (h : MW A W μ0 G ν) (e : ∀ i j, i < A.m → j < A.n → G' i j = G i j) : MW A W μ0 G' ν :=
  ⟨fun i j hi hj => (h.val i j hi hj).trans (e i j hi hj).symm, h.frame⟩

theorem MW.work {A : MatV L} {W w : VecV L} {μ0 ν ν' : Store L T} {G : Nat → Nat → T}
    (h : MW A W μ0 G ν) (hd : A.DisjV W) (hw : ∀ l, w.Owns l → W.Owns l) (o : OnlyV w ν ν') :
    MW A W μ0 G ν' :=
  ⟨fun i j hi hj => (o _ (fun ho => hd i j hi hj (hw _ ho))).trans (h.val i j hi hj),
   fun l hA hW => (o l (fun ho => hW (hw _ ho))).trans (h.frame l hA hW)⟩

theorem MW.set {A : MatV L} {W : VecV L} {μ0 ν : Store L T} {G : Nat → Nat → T} {i j : Nat} {v : T}
    (h : MW A W μ0 G ν) (hA : A.Inj) (hi : i < A.m) (hj : j < A.n) :
    MW A W μ0 (fun i' j' => if i' = i ∧ j' = j then v else G i' j') (upd ν (A.cell i j) v) := by
  refine ⟨fun i' j' hi' hj' => ?_, fun l hl hW => ?_⟩
  · unfold entry upd
    by_cases e : i' = i ∧ j' = j
    · obtain ⟨rfl, rfl⟩ := e
      rw [if_pos rfl, if_pos ⟨rfl, rfl⟩]
    · rw [if_neg e, if_neg (fun he => e (hA _ _ _ _ hi' hj' hi hj he))]
      exact h.val i' j' hi' hj'
  · unfold upd
    rw [if_neg (fun he => hl ⟨i, j, hi, hj, he.symm⟩)]
    exact h.frame l hl hW

theorem MW.row {A : MatV L} {W : VecV L} {μ0 ν ν' : Store L T} {G : Nat → Nat → T} {r c0 c1 : Nat}
    {g : Nat → T} (h : MW A W μ0 G ν) (hA : A.Inj) (hr : r < A.m) (hc : c1 ≤ A.n)
    (h' : VState (A.rowv r c0 c1) ν g ν') :
    MW A W μ0 (fun i j => if i = r ∧ c0 ≤ j ∧ j < c1 then g (j - c0) else G i j) ν' := by
  have o : OnlyV (A.rowv r c0 c1) ν ν' := h'.frame
  refine ⟨fun i j hi hj => ?_, fun l hl hW => ?_⟩
  · by_cases e : i = r ∧ c0 ≤ j ∧ j < c1
    · rw [if_pos e]
      obtain ⟨rfl, h1, h2⟩ := e
      have := h'.val (j - c0) (by simp only [MatV.rowv]; omega)
      simpa only [entry, MatV.rowv, show c0 + (j - c0) = j by omega] using this
    · rw [if_neg e, o.outRow hA hr hc hi hj (by omega)]
      exact h.val i j hi hj
  · exact (o l (fun ho => hl (ho.rowv hr hc))).trans (h.frame l hl hW)

theorem MW.col {A : MatV L} {W : VecV L} {μ0 ν ν' : Store L T} {G : Nat → Nat → T} {r0 r1 c : Nat}
    {g : Nat → T} (h : MW A W μ0 G ν) (hA : A.Inj) (hr : r1 ≤ A.m) (hc : c < A.n)
    (h' : VState (A.colv r0 r1 c) ν g ν') :
    MW A W μ0 (fun i j => if (r0 ≤ i ∧ i < r1) ∧ j = c then g (i - r0) else G i j) ν' := by
  have o : OnlyV (A.colv r0 r1 c) ν ν' := h'.frame
  refine ⟨fun i j hi hj => ?_, fun l hl hW => ?_⟩
  · by_cases e : (r0 ≤ i ∧ i < r1) ∧ j = c
    · rw [if_pos e]
      obtain ⟨⟨h1, h2⟩, rfl⟩ := e
      have := h'.val (i - r0) (by simp only [MatV.colv]; omega)
      simpa only [entry, MatV.colv, show r0 + (i - r0) = i by omega] using this
    · rw [if_neg e, o.outCol hA hr hc hi hj (by omega)]
      exact h.val i j hi hj
  · exact (o l (fun ho => hl (ho.colv hr hc))).trans (h.frame l hl hW)

theorem MW.at {A : MatV L} {W : VecV L} {μ0 ν : Store L T} {G : Nat → Nat → T} (h : MW A W μ0 G ν)
    (i j : Nat) (hi : i < A.m) (hj : j < A.n) {v : T} (e : G i j = v) : ν (A.cell i j) = v :=
  (h.val i j hi hj).trans e

theorem MatV.DisjV.sub {A : MatV L} {W : VecV L} (h : A.DisjV W) {r0 r1 c0 c1 a b : Nat} (hr : r1 ≤ A.m)
    (hc : c1 ≤ A.n) (hb : b ≤ W.n) : (A.sub r0 r1 c0 c1).DisjV (W.sub a b) := by
  intro i j hi hj ho
  simp only [MatV.sub] at hi hj ho
  exact h _ _ (by omega) (by omega) (ho.sub hb)

theorem MatV.DisjV.rowv {A : MatV L} {W : VecV L} (h : A.DisjV W) {r c0 c1 a b : Nat} (hr : r < A.m)
    (hc : c1 ≤ A.n) (hb : b ≤ W.n) : (A.rowv r c0 c1).Disj (W.sub a b) := by
  intro j hj ho
  simp only [MatV.rowv] at hj ho
  exact h _ _ (by omega) (by omega) (ho.sub hb)

theorem MatV.DisjV.colv {A : MatV L} {W : VecV L} (h : A.DisjV W) {r0 r1 c a b : Nat} (hr : r1 ≤ A.m)
    (hc : c < A.n) (hb : b ≤ W.n) : (A.colv r0 r1 c).Disj (W.sub a b) := by
  intro j hj ho
  simp only [MatV.colv] at hj ho
  exact h _ _ (by omega) (by omega) (ho.sub hb)

theorem VecV.Disj.symm {x y : VecV L} (h : x.Disj y) : y.Disj x := by
  rintro i hi ⟨j, hj, e⟩
  exact h j hj ⟨i, hi, e.symm⟩

end TLA
