import Verif.Props.Rot
import Verif.Proofs.Rot3Top
set_option linter.unusedTactic false
set_option linter.unusedVariables false
set_option linter.unreachableTactic false
set_option linter.unusedSectionVars false

/-! # C78: rot_sequence3 -/

namespace TLA
open Matrix Finset
variable {L T : Type} [DecidableEq L] [Field T] [StarRing T] [DecidableEq T]

/-- **C78** rot_sequence3 with `side = Left`: the wavefront order, with its fused 2-by-2 blocks, applies exactly
`Q(l-1) ⋯ Q(0)`, `Q(j)` being the sequence of rotations in column `j` of `C` and `S` as rot_sequence applies it. For
`Forward`, `A` may not have more than 256 columns, unless there is only one sequence or there are more sequences than
rotations in a sequence. -/
theorem C78_rot_sequence3_left (colMajor : Bool) (dir : Direction) {A C S : MatV L} (hA : A.Inj) (hC : C.Disj A) (hS : S.Disj A)
    (hCm : C.m + 1 = A.m) (hSm : S.m + 1 = A.m) (hn : S.n = C.n)
    (hw : dir = .Forward → A.n ≤ 256 ∨ C.n ≤ 1 ∨ A.m ≤ C.n) (μ : Store L T) :
    ∃ ν, rotSequence3 colMajor .Left dir C S A μ = (.ok (), ν) ∧
      mat A.m A.n (entry ν A) = rotWave dir A.m (entry μ C) (entry μ S) C.n * mat A.m A.n (entry μ A) ∧
      ∀ l, ¬ A.Owns l → ν l = μ l :=
  wp_unit (wp_rotSequence3_left colMajor dir hA hC hS hCm hSm hn hw)

/-- **C78** rot_sequence3 with `side = Right`: `A := A (Q(l-1) ⋯ Q(0))ᴴ`, without any restriction on the size. -/
theorem C78_rot_sequence3_right (colMajor : Bool) (dir : Direction) {A C S : MatV L} (hA : A.Inj) (hC : C.Disj A) (hS : S.Disj A)
    (hCm : C.m + 1 = A.n) (hSm : S.m + 1 = A.n) (hn : S.n = C.n) (μ : Store L T)
    (hr : ∀ i j, i < C.m → j < C.n → star (entry μ C i j) = entry μ C i j) :
    ∃ ν, rotSequence3 colMajor .Right dir C S A μ = (.ok (), ν) ∧
      mat A.m A.n (entry ν A) = mat A.m A.n (entry μ A) * (rotWave dir A.n (entry μ C) (entry μ S) C.n)ᴴ ∧
      ∀ l, ¬ A.Owns l → ν l = μ l :=
  wp_unit (wp_rotSequence3_right colMajor dir hA hC hS hCm hSm hn hr)

example : (mkM 0 6 300).Inj ∧ (mkM 1 5 3).Disj (mkM 0 6 300) ∧ (mkM 2 5 3).Disj (mkM 0 6 300) ∧ (mkM 1 5 3).m + 1 = (mkM 0 6 300).m := by
  refine ⟨?_, ?_, ?_, rfl⟩ <;> adm

/-- **C78** (deviation) with `side = Left`, `direction = Forward` and more than 256 columns the start-up rotations are
applied once per block of 256 columns to all columns instead of once: if only the rotation `(m-2, 0)` is not the
identity and is the quarter turn, two blocks apply it twice, and rows `m-2` and `m-1` change sign instead of being
exchanged. -/
theorem C78_rot_sequence3_blocks_violated (colMajor : Bool) {A C S : MatV L} (hA : A.Inj) (hC : C.Disj A) (hS : S.Disj A)
    (hCm : C.m + 1 = A.m) (hSm : S.m + 1 = A.m) (hn : S.n = C.n) (hl2 : 2 ≤ C.n) (hl : C.n ≤ C.m)
    (h1 : 256 < A.n) (h2 : A.n ≤ 512) (μ : Store L T)
    (hc0 : entry μ C (C.m - 1) 0 = 0) (hs0 : entry μ S (C.m - 1) 0 = 1)
    (hc1 : ∀ g i, g < C.m → i < C.n → ¬ (g = C.m - 1 ∧ i = 0) → entry μ C g i = 1)
    (hs1 : ∀ g i, g < C.m → i < C.n → ¬ (g = C.m - 1 ∧ i = 0) → entry μ S g i = 0) :
    ∃ ν, rotSequence3 colMajor .Left .Forward C S A μ = (.ok (), ν) ∧
      (∀ j, j < A.n → entry ν A (A.m - 2) j = -entry μ A (A.m - 2) j ∧ entry ν A (A.m - 1) j = -entry μ A (A.m - 1) j) ∧
      ((∃ j, j < A.n ∧ entry μ A (A.m - 1) j ≠ -entry μ A (A.m - 2) j) →
        mat A.m A.n (entry ν A) ≠ rotWave .Forward A.m (entry μ C) (entry μ S) C.n * mat A.m A.n (entry μ A)) := by
  have hone : R3One C S μ C.m C.n := ⟨hc0, hs0, hc1, hs1⟩
  have key : wp (rotSequence3 colMajor .Left .Forward C S A) μ (fun _ ν =>
      MState A μ (fun r j => pairRot (C.m - 1) C.m 0 1 (pairRot (C.m - 1) C.m 0 1 (fun r => entry μ A r j)) r) ν) := by
    unfold rotSequence3
    simp only [wp_bind, wp_check, if_true]
    rw [if_pos (by simpa using hn), if_pos (by simp; omega), if_pos (by simp; omega), wp_ite, if_neg (by omega), wp_ite, if_neg (by omega)]
    simp only [rsView, if_true, decide_true, Bool.and_self]
    have h0 : MState A μ (fun r j => (fun j r => entry μ A r j) j r) μ := ⟨fun _ _ _ _ => rfl, fun _ _ => rfl⟩
    rw [forBy_, dif_pos (by omega), wp_bind]
    refine wp_conseq (wp_r3Block_all hone hA hC hS hCm rfl (by omega) rfl hn _ hl2 hl (by omega) h0) fun _ ν1 g1 => ?_
    rw [dif_neg (by decide), forBy_, dif_pos (by omega), wp_bind]
    refine wp_conseq (wp_r3Block_all hone hA hC hS hCm rfl (by omega) rfl hn _ hl2 hl (by omega)
      (x := fun j => pairRot (C.m - 1) C.m 0 1 (fun r => entry μ A r j)) g1) fun _ ν2 g2 => ?_
    rw [dif_neg (by decide), forBy_, dif_neg (by omega), wp_pure]
    exact g2
  obtain ⟨ν, e, g⟩ := wp_unit key
  have r0 : ∀ j, j < A.n → entry ν A (A.m - 2) j = -entry μ A (A.m - 2) j := by
    intro j hj
    rw [show entry ν A (A.m - 2) j = _ from g.val (A.m - 2) j (by omega) hj, show A.m - 2 = C.m - 1 by omega]
    unfold pairRot
    simp only [if_true]
    rw [if_neg (show C.m ≠ C.m - 1 by omega)]
    simp
  refine ⟨ν, e, fun j hj => ⟨r0 j hj, ?_⟩, ?_⟩
  · rw [show entry ν A (A.m - 1) j = _ from g.val (A.m - 1) j (by omega) hj, show A.m - 1 = C.m by omega]
    unfold pairRot
    simp only [if_true]
    rw [if_neg (show C.m ≠ C.m - 1 by omega)]
    simp
  · rintro ⟨j, hj, hne⟩ heq
    rw [← mat_r3X .Forward _ _ (by omega), mat_ext_iff] at heq
    have hq := heq (A.m - 2) j (by omega) hj
    rw [r0 j hj] at hq
    refine hne (Eq.trans (Eq.symm ?_) hq.symm)
    have hk : C.m + 1 = A.m := hCm
    have z0 : ∀ x t, t < C.m → r3Z .Forward A.m (entry μ C) (entry μ S) 0 (t + 1) x = pairRot (C.m - 1) C.m 0 1 x := by
      intro x t
      induction t with
      | zero => intro _; rw [r3Z_succ]; simpa [r3Z] using r3O_two (X := A) hone hk (by omega) x
      | succ t ih =>
        intro ht
        rw [r3Z_succ, ih (by omega)]
        exact r3O_one (X := A) hone hk ht (by omega) (by omega) _
    have z1 : ∀ i x t, 0 < i → i < C.n → t ≤ C.m → r3Z .Forward A.m (entry μ C) (entry μ S) i t x = x := by
      intro i x t hi hi2
      induction t with
      | zero => intro _; simp [r3Z]
      | succ t ih =>
        intro ht
        rw [r3Z_succ, ih (by omega)]
        exact r3O_one (X := A) hone hk (by omega) hi2 (by omega) _
    have x1 : ∀ i x, i < C.n → r3X .Forward A.m (A.m - 1) (entry μ C) (entry μ S) x (i + 1) = pairRot (C.m - 1) C.m 0 1 x := by
      intro i x
      induction i with
      | zero =>
        intro _
        show r3Z .Forward A.m (entry μ C) (entry μ S) 0 (A.m - 1) x = _
        rw [show A.m - 1 = C.m - 1 + 1 by omega, z0 x _ (by omega)]
      | succ i ih =>
        intro hi
        show r3Z .Forward A.m (entry μ C) (entry μ S) (i + 1) (A.m - 1) _ = _
        rw [z1 _ _ _ (by omega) hi (by omega), ih (by omega)]
    have := x1 (C.n - 1) (fun r => entry μ A r j) (by omega)
    rw [show C.n - 1 + 1 = C.n by omega] at this
    rw [this, show A.m - 2 = C.m - 1 by omega, show A.m - 1 = C.m by omega]
    unfold pairRot
    simp

end TLA
