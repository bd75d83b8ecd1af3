import Verif.Proofs.RotSeq

/-! Rotations of rows and columns of a view, generation of rotations. -/

set_option linter.unusedTactic false
set_option linter.unusedSectionVars false
set_option linter.unusedVariables false
set_option linter.unreachableTactic false
set_option linter.unusedSimpArgs false

namespace TLA
open Matrix Finset
variable {L T : Type} [DecidableEq L] [Field T] [StarRing T] [DecidableEq T]

/-- rotg generates a rotation that annihilates the second argument. -/
def RotLaws (o : RotOps T) : Prop :=
  ∀ a b, ∃ r z c s, o.gen a b = some (r, z, c, s) ∧ IsRot c s ∧ c * a + s * b = r ∧ c * b = star s * a

variable {A : MatV L} {μ0 ν : Store L T} {G : Nat → Nat → T}

theorem wp_rotCols (h : MState A μ0 G ν) (hA : A.Inj) {p q r1 : Nat} (hp : p < A.n) (hq : q < A.n) (hpq : p ≠ q)
    (hr : r1 ≤ A.m) (c s : T) :
    wp (rot (A.colv 0 r1 p) (A.colv 0 r1 q) c s) ν (fun _ ν' =>
      MState A μ0 (fun r j => if r < r1 then rowMap (pairRot p q c s) G r j else G r j) ν') := by
  refine wp_conseq (wp_rot (hA.colv hr hp) (hA.colv hr hq) rfl ?_) ?_
  · rintro i hi ⟨i', hi', e⟩
    simp only [MatV.colv, Nat.zero_add, Nat.sub_zero] at hi hi' e
    exact hpq (hA _ _ _ _ (by omega) hq (by omega) hp e).2.symm
  · rintro _ ν' ⟨h1, h2, h3⟩
    simp only [ventry, MatV.colv, Nat.zero_add, Nat.sub_zero] at h1 h2
    refine ⟨fun i j hi hj => ?_, fun l hl => ?_⟩
    · by_cases hr' : i < r1
      · rw [if_pos hr']
        unfold rowMap pairRot
        by_cases e1 : j = p
        · rw [if_pos e1, e1, h1 i hr', h.val i p hi hp, h.val i q hi hq]
        · rw [if_neg e1]
          by_cases e2 : j = q
          · rw [if_pos e2, e2, h2 i hr', h.val i p hi hp, h.val i q hi hq]; ring
          · rw [if_neg e2, h3 _ ?_ ?_, h.val i j hi hj]
            · rintro ⟨i', hi', e⟩
              simp only [MatV.colv, Nat.zero_add, Nat.sub_zero] at hi' e
              exact e1 (hA _ _ _ _ (by omega) hp hi hj e).2.symm
            · rintro ⟨i', hi', e⟩
              simp only [MatV.colv, Nat.zero_add, Nat.sub_zero] at hi' e
              exact e2 (hA _ _ _ _ (by omega) hq hi hj e).2.symm
      · rw [if_neg hr', h3 _ ?_ ?_, h.val i j hi hj]
        · rintro ⟨i', hi', e⟩
          simp only [MatV.colv, Nat.zero_add, Nat.sub_zero] at hi' e
          have := (hA _ _ _ _ (by omega) hp hi hj e).1
          omega
        · rintro ⟨i', hi', e⟩
          simp only [MatV.colv, Nat.zero_add, Nat.sub_zero] at hi' e
          have := (hA _ _ _ _ (by omega) hq hi hj e).1
          omega
    · rw [h3 l (fun ho => hl (ho.colv hr hp)) (fun ho => hl (ho.colv hr hq)), h.frame l hl]

theorem wp_rotRows (h : MState A μ0 G ν) (hA : A.Inj) {p q c0 c1 : Nat} (hp : p < A.m) (hq : q < A.m) (hpq : p ≠ q)
    (hc : c1 ≤ A.n) (c s : T) :
    wp (rot (A.rowv p c0 c1) (A.rowv q c0 c1) c s) ν (fun _ ν' =>
      MState A μ0 (fun r j => if c0 ≤ j ∧ j < c1 then colMap (pairRot p q c s) G r j else G r j) ν') := by
  refine wp_conseq (wp_rot (hA.rowv hp hc) (hA.rowv hq hc) rfl ?_) ?_
  · rintro i hi ⟨i', hi', e⟩
    simp only [MatV.rowv] at hi hi' e
    exact hpq (hA _ _ _ _ hq (by omega) hp (by omega) e).1.symm
  · rintro _ ν' ⟨h1, h2, h3⟩
    simp only [ventry, MatV.rowv] at h1 h2
    refine ⟨fun i j hi hj => ?_, fun l hl => ?_⟩
    · by_cases hr' : c0 ≤ j ∧ j < c1
      · rw [if_pos hr']
        have g1 := h1 (j - c0) (by omega)
        have g2 := h2 (j - c0) (by omega)
        rw [show c0 + (j - c0) = j by omega] at g1 g2
        unfold colMap pairRot
        by_cases e1 : i = p
        · rw [if_pos e1, e1, g1, h.val p j hp hj, h.val q j hq hj]
        · rw [if_neg e1]
          by_cases e2 : i = q
          · rw [if_pos e2, e2, g2, h.val p j hp hj, h.val q j hq hj]; ring
          · rw [if_neg e2, h3 _ ?_ ?_, h.val i j hi hj]
            · rintro ⟨i', hi', e⟩
              simp only [MatV.rowv] at hi' e
              exact e1 (hA _ _ _ _ hp (by omega) hi hj e).1.symm
            · rintro ⟨i', hi', e⟩
              simp only [MatV.rowv] at hi' e
              exact e2 (hA _ _ _ _ hq (by omega) hi hj e).1.symm
      · rw [if_neg hr', h3 _ ?_ ?_, h.val i j hi hj]
        · rintro ⟨i', hi', e⟩
          simp only [MatV.rowv] at hi' e
          have := (hA _ _ _ _ hp (by omega) hi hj e).2
          omega
        · rintro ⟨i', hi', e⟩
          simp only [MatV.rowv] at hi' e
          have := (hA _ _ _ _ hq (by omega) hi hj e).2
          omega
    · rw [h3 l (fun ho => hl (ho.rowv hp hc)) (fun ho => hl (ho.rowv hq hc)), h.frame l hl]

theorem wp_rotgAt {o : RotOps T} (ho : RotLaws o) (h : MState A μ0 G ν) (hA : A.Inj) {i j k l : Nat}
    (hi : i < A.m) (hj : j < A.n) (hk : k < A.m) (hl : l < A.n) :
    wp (rotgAt o A i j k l) ν (fun p ν' => ∃ z, IsRot p.1 p.2 ∧ p.1 * G k l = star p.2 * G i j ∧
      MState A μ0 (fun r' c' => if r' = k ∧ c' = l then z else
        if r' = i ∧ c' = j then p.1 * G i j + p.2 * G k l else G r' c') ν') := by
  unfold rotgAt
  obtain ⟨r, z, c, s, e, h1, h2, h3⟩ := ho (G i j) (G k l)
  simp only [wp_bind, wp_get, h.val i j hi hj, h.val k l hk hl, e, wp_set, wp_pure]
  refine ⟨⟨hi, hj⟩, ⟨hk, hl⟩, ⟨hi, hj⟩, ⟨hk, hl⟩, z, h1, h3, ?_⟩
  have g := h.upd (G' := fun r' c' => if r' = i ∧ c' = j then c * G i j + s * G k l else G r' c') (v := r) hA hi hj
    (fun _ _ _ _ => by rw [h2])
  exact g.upd hA hk hl (fun _ _ _ _ => rfl)

/-- A `set` in a state. -/
theorem wp_setM (h : MState A μ0 G ν) (hA : A.Inj) {i j : Nat} (hi : i < A.m) (hj : j < A.n) (v : T) :
    wp (A.set i j v) ν (fun _ ν' => MState A μ0 (fun r' c' => if r' = i ∧ c' = j then v else G r' c') ν') := by
  simp only [wp_set]
  exact ⟨⟨hi, hj⟩, h.upd hA hi hj (fun _ _ _ _ => rfl)⟩

end TLA
