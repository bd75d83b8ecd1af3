import Verif.Proofs.Rot3

/-! rot_sequence3: the loop bodies, the layouts and the routine. -/

set_option linter.unusedTactic false
set_option linter.unusedSectionVars false
set_option linter.unusedVariables false
set_option linter.unreachableTactic false
set_option linter.unusedSimpArgs false

namespace TLA
open Matrix Finset
variable {L T : Type} [DecidableEq L] [Field T] [StarRing T] [DecidableEq T]

theorem upd_ne3 {μ : Store L T} {a l : L} {v : T} (h : l ≠ a) : upd μ a v l = μ l := by
  unfold upd
  rw [if_neg (by first | exact h | exact fun e => h e.symm)]

section body
variable {X C S : MatV L} {μ0 μ : Store L T} {G : Nat → Nat → T} (f : T → T) {dir : Direction}
  (hX : X.Inj) (hC : C.Disj X) (hS : S.Disj X)
include hX hC hS

theorem wp_r3Pair (h : MState X μ0 G μ) {g i j : Nat} (hg : g + 1 < X.m) (hj : j < X.n) (hgc : g < C.m) (hgs : g < S.m)
    (hic : i < C.n) (his : i < S.n) :
    wp (r3Pair f X C S g i j) μ (fun _ ν =>
      MState X μ0 (colAt j (pairRot g (g + 1) (entry μ0 C g i) (f (entry μ0 S g i))) G) ν) := by
  unfold r3Pair
  have e1 := h.val g j (by omega) hj
  have e2 := h.val (g + 1) j hg hj
  have e3 : μ (C.cell g i) = entry μ0 C g i := h.read hC hgc hic
  have e4 : μ (S.cell g i) = entry μ0 S g i := h.read hS hgs his
  simp only [wp_bind, wp_get, wp_set, wp_pure, e1, e2, e3, e4]
  refine ⟨⟨hgc, hic⟩, ⟨hgs, his⟩, ⟨by omega, hj⟩, ⟨hg, hj⟩, ⟨hg, hj⟩, ⟨by omega, hj⟩, ?_⟩
  have h1 := h.upd (G' := fun r j' => if r = g + 1 ∧ j' = j then
      (-star (f (entry μ0 S g i)) * G g j + entry μ0 C g i * G (g + 1) j) else G r j') hX hg hj
    (fun _ _ _ _ => rfl)
  refine h1.upd hX (by omega) hj ?_
  intro r j' _ _
  unfold colAt pairRot
  by_cases e : j' = j
  · subst e
    by_cases e1 : r = g
    · subst e1; simp
    · by_cases e2 : r = g + 1
      · subst e2; simp
      · simp [e1, e2]
  · simp [e]

theorem wp_r3KernF (h : MState X μ0 G μ) {g i j : Nat} (hg0 : 0 < g) (hg : g + 2 < X.m) (hj : j < X.n)
    (hgc : g + 1 < C.m) (hgs : g + 1 < S.m) (hic : i + 1 < C.n) (his : i + 1 < S.n) :
    wp (r3KernF f X C S g i j) μ (fun _ ν =>
      MState X μ0 (colAt j (fun x => pairRot g (g + 1) (entry μ0 C g (i + 1)) (f (entry μ0 S g (i + 1)))
        (pairRot (g + 1) (g + 2) (entry μ0 C (g + 1) (i + 1)) (f (entry μ0 S (g + 1) (i + 1)))
          (pairRot (g - 1) g (entry μ0 C (g - 1) i) (f (entry μ0 S (g - 1) i))
            (pairRot g (g + 1) (entry μ0 C g i) (f (entry μ0 S g i)) x)))) G) ν) := by
  obtain ⟨g, rfl⟩ : ∃ d, g = d + 1 := ⟨g - 1, by omega⟩
  unfold r3KernF
  simp only [Nat.add_sub_cancel]
  have e0 := h.val g j (by omega) hj
  have e1 := h.val (g + 1) j (by omega) hj
  have e2 := h.val (g + 2) j (by omega) hj
  have e3 := h.val (g + 3) j (by omega) hj
  have ec : ∀ a b, a < C.m → b < C.n → μ (C.cell a b) = entry μ0 C a b := fun a b ha hb => h.read hC ha hb
  have es : ∀ a b, a < S.m → b < S.n → μ (S.cell a b) = entry μ0 S a b := fun a b ha hb => h.read hS ha hb
  have n1 : X.cell (g + 3) j ≠ X.cell g j := fun e => by
    have := (hX _ _ _ _ (by omega) hj (by omega) hj e).1; omega
  simp only [wp_bind, wp_get, wp_set, wp_pure, upd_ne3 n1, ec _ i (show g < C.m by omega) (by omega),
    ec _ i (show g + 1 < C.m by omega) (by omega), ec _ (i + 1) (show g + 1 < C.m by omega) (by omega),
    ec _ (i + 1) (show g + 1 + 1 < C.m by omega) (by omega),
    es _ i (show g < S.m by omega) (by omega),
    es _ i (show g + 1 < S.m by omega) (by omega), es _ (i + 1) (show g + 1 < S.m by omega) (by omega),
    es _ (i + 1) (show g + 1 + 1 < S.m by omega) (by omega), e0, e1, show g + 1 + 1 = g + 2 from rfl, show g + 1 + 2 = g + 3 from rfl, e2, e3]
  refine ⟨⟨by omega, by omega⟩, ⟨by omega, by omega⟩, ⟨by omega, by omega⟩, ⟨by omega, by omega⟩, ⟨by omega, by omega⟩, ⟨by omega, by omega⟩,
    ⟨by omega, by omega⟩, ⟨by omega, by omega⟩, ⟨by omega, hj⟩, ⟨by omega, hj⟩, ⟨by omega, hj⟩, ⟨by omega, hj⟩, ⟨by omega, hj⟩,
    ⟨by omega, hj⟩, ⟨by omega, hj⟩, ⟨by omega, hj⟩, ?_⟩
  refine (((h.upd (G' := fun r j' => if r = g ∧ j' = j then _ else G r j') hX (by omega) hj (fun _ _ _ _ => rfl)).upd
    (G' := fun r j' => if r = g + 3 ∧ j' = j then _ else _) hX (by omega) hj (fun _ _ _ _ => rfl)).upd
    (G' := fun r j' => if r = g + 1 ∧ j' = j then _ else _) hX (by omega) hj (fun _ _ _ _ => rfl)).upd hX (by omega) hj ?_
  intro r j' _ _
  unfold colAt pairRot
  by_cases e : j' = j
  · subst e
    by_cases e1 : r = g
    · subst e1; simp
    · by_cases e2 : r = g + 1
      · subst e2; simp
      · by_cases e3 : r = g + 2
        · subst e3; simp
        · by_cases e4 : r = g + 3
          · subst e4; simp
          · simp [e1, e2, e3, e4]
  · simp [e]

theorem wp_r3KernB (h : MState X μ0 G μ) {g i j : Nat} (hg0 : 0 < g) (hg : g + 2 < X.m) (hj : j < X.n)
    (hgc : g + 1 < C.m) (hgs : g + 1 < S.m) (hic : i + 1 < C.n) (his : i + 1 < S.n) :
    wp (r3KernB f X C S g i j) μ (fun _ ν =>
      MState X μ0 (colAt j (fun x => pairRot g (g + 1) (entry μ0 C g (i + 1)) (f (entry μ0 S g (i + 1)))
        (pairRot (g - 1) g (entry μ0 C (g - 1) (i + 1)) (f (entry μ0 S (g - 1) (i + 1)))
          (pairRot (g + 1) (g + 2) (entry μ0 C (g + 1) i) (f (entry μ0 S (g + 1) i))
            (pairRot g (g + 1) (entry μ0 C g i) (f (entry μ0 S g i)) x)))) G) ν) := by
  obtain ⟨g, rfl⟩ : ∃ d, g = d + 1 := ⟨g - 1, by omega⟩
  unfold r3KernB
  simp only [Nat.add_sub_cancel]
  have e0 := h.val g j (by omega) hj
  have e1 := h.val (g + 1) j (by omega) hj
  have e2 := h.val (g + 2) j (by omega) hj
  have e3 := h.val (g + 3) j (by omega) hj
  have ec : ∀ a b, a < C.m → b < C.n → μ (C.cell a b) = entry μ0 C a b := fun a b ha hb => h.read hC ha hb
  have es : ∀ a b, a < S.m → b < S.n → μ (S.cell a b) = entry μ0 S a b := fun a b ha hb => h.read hS ha hb
  have n1 : X.cell g j ≠ X.cell (g + 3) j := fun e => by
    have := (hX _ _ _ _ (by omega) hj (by omega) hj e).1; omega
  simp only [show g + 1 + 1 = g + 2 from rfl, show g + 1 + 2 = g + 3 from rfl]
  simp only [wp_bind, wp_get, wp_set, wp_pure, upd_ne3 n1, ec _ i (show g + 2 < C.m by omega) (by omega),
    ec _ i (show g + 1 < C.m by omega) (by omega), ec _ (i + 1) (show g + 1 < C.m by omega) (by omega),
    ec _ (i + 1) (show g < C.m by omega) (by omega),
    es _ i (show g + 2 < S.m by omega) (by omega),
    es _ i (show g + 1 < S.m by omega) (by omega), es _ (i + 1) (show g + 1 < S.m by omega) (by omega),
    es _ (i + 1) (show g < S.m by omega) (by omega), e0, e1, e2, e3]
  refine ⟨⟨by omega, by omega⟩, ⟨by omega, by omega⟩, ⟨by omega, by omega⟩, ⟨by omega, by omega⟩, ⟨by omega, by omega⟩, ⟨by omega, by omega⟩,
    ⟨by omega, by omega⟩, ⟨by omega, by omega⟩, ⟨by omega, hj⟩, ⟨by omega, hj⟩, ⟨by omega, hj⟩, ⟨by omega, hj⟩, ⟨by omega, hj⟩,
    ⟨by omega, hj⟩, ⟨by omega, hj⟩, ⟨by omega, hj⟩, ?_⟩
  refine (((h.upd (G' := fun r j' => if r = g + 3 ∧ j' = j then _ else G r j') hX (by omega) hj (fun _ _ _ _ => rfl)).upd
    (G' := fun r j' => if r = g ∧ j' = j then _ else _) hX (by omega) hj (fun _ _ _ _ => rfl)).upd
    (G' := fun r j' => if r = g + 1 ∧ j' = j then _ else _) hX (by omega) hj (fun _ _ _ _ => rfl)).upd hX (by omega) hj ?_
  intro r j' _ _
  unfold colAt pairRot
  by_cases e : j' = j
  · subst e
    by_cases e1 : r = g
    · subst e1; simp
    · by_cases e2 : r = g + 1
      · subst e2; simp
      · by_cases e3 : r = g + 2
        · subst e3; simp
        · by_cases e4 : r = g + 3
          · subst e4; simp
          · simp [e1, e2, e3, e4]
  · simp [e]

/-! In terms of the rotations of the waves. -/

variable {k l : Nat} (hk : k + 1 = X.m) (hCm : C.m = k) (hSm : S.m = k) (hCn : C.n = l) (hSn : S.n = l)
include hk hCm hSm hCn hSn

theorem wp_r3One (h : MState X μ0 G μ) {i t j : Nat} (ht : t < k) (hi : i < l) (hj : j < X.n) :
    wp (r3One f dir X C S i t j) μ (fun _ ν =>
      MState X μ0 (colAt j (r3O dir X.m (entry μ0 C) (fun a b => f (entry μ0 S a b)) i t) G) ν) := by
  unfold r3One r3O
  have : r3g dir X.m t < k := by unfold r3g; split <;> omega
  exact wp_r3Pair f hX hC hS h (by omega) hj (by omega) (by omega) (by omega) (by omega)

theorem wp_r3Kern (h : MState X μ0 G μ) {i t j : Nat} (ht0 : 0 < t) (ht : t + 1 < k) (hi : i + 1 < l) (hj : j < X.n) :
    wp (r3Kern f dir X C S i t j) μ (fun _ ν =>
      MState X μ0 (colAt j (fun x => r3O dir X.m (entry μ0 C) (fun a b => f (entry μ0 S a b)) (i + 1) t
        (r3O dir X.m (entry μ0 C) (fun a b => f (entry μ0 S a b)) (i + 1) (t - 1)
        (r3O dir X.m (entry μ0 C) (fun a b => f (entry μ0 S a b)) i (t + 1)
        (r3O dir X.m (entry μ0 C) (fun a b => f (entry μ0 S a b)) i t x)))) G) ν) := by
  unfold r3Kern r3O r3g
  cases dir
  · simp only [if_true]
    have := wp_r3KernF f hX hC hS h (g := X.m - 2 - t) (i := i) (by omega) (by omega) hj (by omega) (by omega) (by omega) (by omega)
    rw [show X.m - 2 - (t - 1) = X.m - 2 - t + 1 by omega, show X.m - 2 - (t + 1) = X.m - 2 - t - 1 by omega,
      show X.m - 2 - t - 1 + 1 = X.m - 2 - t by omega]
    exact this
  · simp only [reduceCtorEq, if_false]
    have := wp_r3KernB f hX hC hS h (g := t) (i := i) (by omega) (by omega) hj (by omega) (by omega) (by omega) (by omega)
    rw [show t - 1 + 1 = t by omega]
    exact this

theorem wp_r3Tail (h : MState X μ0 G μ) {i t j : Nat} (ht : t + 1 < k) (hi : i < l) (hj : j < X.n) :
    wp (r3Tail f dir X C S i t j) μ (fun _ ν =>
      MState X μ0 (colAt j (fun x => r3O dir X.m (entry μ0 C) (fun a b => f (entry μ0 S a b)) i (t + 1)
        (r3O dir X.m (entry μ0 C) (fun a b => f (entry μ0 S a b)) i t x)) G) ν) := by
  unfold r3Tail
  rw [wp_bind]
  refine wp_conseq (wp_r3One f hX hC hS hk hCm hSm hCn hSn h (show t < k by omega) hi hj (dir := dir)) fun _ ν hν => ?_
  have := wp_r3One f hX hC hS hk hCm hSm hCn hSn hν ht hi hj (dir := dir)
  unfold r3One at this
  have e : (if dir = .Forward then r3g dir X.m t - 1 else r3g dir X.m t + 1) = r3g dir X.m (t + 1) := by
    unfold r3g; split <;> omega
  rw [e]
  refine wp_conseq this fun _ ν' hν' => hν'.congr fun r j' _ _ => ?_
  unfold colAt
  by_cases e : j' = j
  · simp [e]
  · simp [e]

end body
end TLA
