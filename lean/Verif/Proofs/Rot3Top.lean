import Verif.Proofs.Rot3Lay

/-! rot_sequence3: the routine. -/

set_option linter.unusedTactic false
set_option linter.unusedSectionVars false
set_option linter.unusedVariables false
set_option linter.unreachableTactic false
set_option linter.unusedSimpArgs false

namespace TLA
open Matrix Finset
variable {L T : Type} [DecidableEq L] [Field T] [StarRing T] [DecidableEq T]

theorem rotWave_succ (dir : Direction) (n : Nat) (c s : Nat → Nat → T) (l : Nat) :
    rotWave dir n c s (l + 1) = rotDirProd dir n (fun i => c i l) (fun i => s i l) * rotWave dir n c s l := by
  simp [rotWave, List.range_succ, rotDirProd]

theorem rotWave_congr (dir : Direction) {n : Nat} {c s c' s' : Nat → Nat → T} {l : Nat}
    (hc : ∀ j, j < l → ∀ i, c i j = c' i j) (hs : ∀ j, j < l → ∀ i, s i j = s' i j) :
    rotWave dir n c s l = rotWave dir n c' s' l := by
  induction l with
  | zero => rfl
  | succ l ih =>
    rw [rotWave_succ, rotWave_succ, ih (fun j hj => hc j (by omega)) (fun j hj => hs j (by omega))]
    congr 2
    · funext i; exact hc l (by omega) i
    · funext i; exact hs l (by omega) i

theorem rotWave_star {n : Nat} (dir : Direction) {c s : Nat → Nat → T} {l : Nat}
    (hc : ∀ i j, i + 1 < n → j < l → star (c i j) = c i j) :
    (rotWave dir n c (fun i j => star (s i j)) l)ᵀ = (rotWave dir n c s l)ᴴ := by
  induction l with
  | zero => simp [rotWave]
  | succ l ih =>
    rw [rotWave_succ, rotWave_succ, transpose_mul, conjTranspose_mul, ih (fun i j hi hj => hc i j hi (by omega)),
      rotDirProd_star dir (fun i hi => hc i l hi (by omega))]

theorem rotDirProd_congr {dir : Direction} {n : Nat} {c s c' s' : Nat → T} (hc : ∀ i, i + 1 < n → c i = c' i)
    (hs : ∀ i, i + 1 < n → s i = s' i) : rotDirProd dir n c s = rotDirProd dir n c' s' := by
  have key : (List.range' 0 (n - 1)).map (fun i => rotMat n i (i + 1) (c i) (s i)) =
      (List.range' 0 (n - 1)).map (fun i => rotMat n i (i + 1) (c' i) (s' i)) := by
    refine List.map_congr_left fun i hi => ?_
    rw [List.mem_range'_1] at hi
    rw [hc i (by omega), hs i (by omega)]
  have key2 : (List.range' 0 (n - 1)).reverse.map (fun i => rotMat n i (i + 1) (c i) (s i)) =
      (List.range' 0 (n - 1)).reverse.map (fun i => rotMat n i (i + 1) (c' i) (s' i)) := by
    rw [List.map_reverse, List.map_reverse, key]
  unfold rotDirProd rotProd rotProdRev
  simp only [Nat.sub_zero]
  rw [key, key2]

theorem r3Z_dn {m k : Nat} (c s : Nat → Nat → T) (hm : k + 1 = m) (i : Nat) (x : Nat → T) : ∀ t, t ≤ k →
    r3Z .Forward m c s i t x = rotsDn (fun g => c g i) (fun g => s g i) (k - t) k x := by
  intro t
  induction t with
  | zero => intro _; simp [r3Z, rotsDn]
  | succ t ih =>
    intro h
    rw [r3Z_succ, ih (by omega)]
    unfold rotsDn
    rw [foldDown_bot (show k - (t + 1) < k by omega), show k - (t + 1) + 1 = k - t by omega]
    unfold r3O r3g
    rw [if_pos rfl, show m - 2 - t = k - (t + 1) by omega]
    rw [show k - (t + 1) + 1 = k - t by omega]

theorem r3Z_dir {m k : Nat} (dir : Direction) (c s : Nat → Nat → T) (hm : k + 1 = m) (i : Nat) (x : Nat → T) :
    r3Z dir m c s i k x = rotsDir dir (fun g => c g i) (fun g => s g i) k x := by
  cases dir
  · rw [r3Z_dn c s hm i x k (le_refl k), Nat.sub_self]
    simp [rotsDir]
  · simp only [rotsDir, reduceCtorEq, if_false]
    unfold r3Z rotsUp r3O r3g
    simp

theorem mat_r3X {n m : Nat} (dir : Direction) (c s : Nat → Nat → T) (hn : 0 < n) (F : Nat → Nat → T) (l : Nat) :
    mat n m (fun r j => r3X dir n (n - 1) c s (fun r => F r j) l r) = rotWave dir n c s l * mat n m F := by
  induction l with
  | zero => simp [rotWave, r3X]
  | succ l ih =>
    rw [rotWave_succ, Matrix.mul_assoc, ← ih, ← mat_rotsDir]
    congr 1
    funext r j
    simp only [r3X, colMap]
    rw [r3Z_dir dir c s (by omega)]

theorem r3P_fam {X C S : MatV L} {μ0 : Store L T} {f : T → T} {dir : Direction} {k l : Nat} (hk : k + 1 = X.m) (hk0 : 0 < k) :
    R3Fam k l (r3O dir X.m (entry μ0 C) (fun a b => f (entry μ0 S a b)))
      (fun j q y => r3P dir X.m k (entry μ0 C) (fun a b => f (entry μ0 S a b)) (fun r => entry μ0 X r j) q y) where
  congr := fun j q q' y e h => h.congr hk0 e
  step := fun j q y i t hi en h => h.step hk en.hlt en.q0 en.q1 en.q2

/-- The wavefront part, on the view `X`. -/
theorem wp_r3Main {X C S : MatV L} {μ : Store L T} (f : T → T) (dir : Direction) (lines sa : Bool) {l : Nat}
    (hX : X.Inj) (hC : C.Disj X) (hS : S.Disj X) (hCm : C.m + 1 = X.m) (hSm : S.m + 1 = X.m) (hCn : C.n = l) (hSn : S.n = l)
    (hl2 : 2 ≤ l) (hl : l + 1 ≤ X.m) (hsa : sa = true → X.n ≤ 256) :
    wp (forBy_ 256 X.n (r3Block lines sa f dir X C S l) 0) μ (fun _ ν =>
      mat X.m X.n (entry ν X) = rotWave dir X.m (entry μ C) (fun a b => f (entry μ S a b)) l * mat X.m X.n (entry μ X) ∧
      ∀ l, ¬ X.Owns l → ν l = μ l) := by
  obtain ⟨k, hk⟩ : ∃ k, k + 1 = X.m := ⟨X.m - 1, by omega⟩
  have h0 : MState X μ (entry μ X) μ := ⟨fun _ _ _ _ => rfl, fun _ _ => rfl⟩
  refine wp_conseq (wp_r3Blocks (μ0 := μ) (k := k) (r3P_fam hk (by omega)) hX hC hS hk (by omega) (by omega) hCn hSn lines sa hl2 (by omega) hsa
    ⟨_, h0, fun j hj => r3P.start⟩) ?_
  rintro _ ν ⟨G, hG, hP⟩
  refine ⟨?_, hG.frame⟩
  rw [← mat_r3X dir _ _ (by omega)]
  refine mat_ext_iff.2 fun r j hr hj => ?_
  rw [show entry ν X r j = G r j from hG.val r j hr hj]
  have := (hP j hj).done hk hr
  rw [show X.m - 1 = k by omega]
  exact this

theorem wp_r3Seq_left {A C S : MatV L} {μ : Store L T} (cm : Bool) (dir : Direction) {l : Nat}
    (hA : A.Inj) (hC : C.Disj A) (hS : S.Disj A) (hCm : C.m + 1 = A.m) (hSm : S.m + 1 = A.m) (hCn : C.n = l) (hSn : S.n = l) :
    wp (forUp_ 0 l fun j => do
      let c ← C.sliceCol 0 C.m j
      let s ← S.sliceCol 0 S.m j
      let _ ← rotSequence cm .Left dir c s A
      pure ()) μ (fun _ ν =>
      mat A.m A.n (entry ν A) = rotWave dir A.m (entry μ C) (entry μ S) l * mat A.m A.n (entry μ A) ∧
      ∀ l, ¬ A.Owns l → ν l = μ l) := by
  refine wp_forUp_ (fun j ν => mat A.m A.n (entry ν A) = rotWave dir A.m (entry μ C) (entry μ S) j * mat A.m A.n (entry μ A) ∧
      ∀ l, ¬ A.Owns l → ν l = μ l) (Nat.zero_le _) ⟨by simp [rotWave], fun _ _ => rfl⟩ ?_ (fun _ h => h)
  rintro j ν _ hj ⟨h1, h2⟩
  simp only [wp_bind]
  refine wp_sliceCol (by omega) (by omega) (by omega) ?_
  refine wp_sliceCol (by omega) (by omega) (by omega) ?_
  have dc : (C.colv 0 C.m j).DisjM A := fun i hi => hC (0 + i) j (by simp [MatV.colv] at hi; omega) (by omega)
  have ds : (S.colv 0 S.m j).DisjM A := fun i hi => hS (0 + i) j (by simp [MatV.colv] at hi; omega) (by omega)
  refine wp_conseq (wp_rotSequence_left cm dir hA dc ds (by omega) (by simp [MatV.colv]; omega) (by simp [MatV.colv]; omega)) ?_
  rintro _ ν' ⟨-, h3, h4⟩
  rw [wp_pure]
  refine ⟨?_, fun l hl => by rw [h4 l hl, h2 l hl]⟩
  rw [h3, h1, rotWave_succ, Matrix.mul_assoc]
  congr 1
  have ec : ∀ i, i + 1 < A.m → ventry ν (C.colv 0 C.m j) i = entry μ C i j := fun i hi => by
    have : ventry ν (C.colv 0 C.m j) i = ν (C.cell i j) := by simp [ventry, MatV.colv]
    rw [this, h2 _ (hC i j (by omega) (by omega))]; rfl
  have es : ∀ i, i + 1 < A.m → ventry ν (S.colv 0 S.m j) i = entry μ S i j := fun i hi => by
    have : ventry ν (S.colv 0 S.m j) i = ν (S.cell i j) := by simp [ventry, MatV.colv]
    rw [this, h2 _ (hS i j (by omega) (by omega))]; rfl
  exact rotDirProd_congr ec es

theorem wp_r3Seq_right {A C S : MatV L} {μ : Store L T} (cm : Bool) (dir : Direction) {l : Nat}
    (hA : A.Inj) (hC : C.Disj A) (hS : S.Disj A) (hCm : C.m + 1 = A.n) (hSm : S.m + 1 = A.n) (hCn : C.n = l) (hSn : S.n = l)
    (hr : ∀ i j, i < C.m → j < C.n → star (entry μ C i j) = entry μ C i j) :
    wp (forUp_ 0 l fun j => do
      let c ← C.sliceCol 0 C.m j
      let s ← S.sliceCol 0 S.m j
      let _ ← rotSequence cm .Right dir c s A
      pure ()) μ (fun _ ν =>
      mat A.m A.n (entry ν A) = mat A.m A.n (entry μ A) * (rotWave dir A.n (entry μ C) (entry μ S) l)ᴴ ∧
      ∀ l, ¬ A.Owns l → ν l = μ l) := by
  refine wp_forUp_ (fun j ν => mat A.m A.n (entry ν A) = mat A.m A.n (entry μ A) * (rotWave dir A.n (entry μ C) (entry μ S) j)ᴴ ∧
      ∀ l, ¬ A.Owns l → ν l = μ l) (Nat.zero_le _) ⟨by simp [rotWave], fun _ _ => rfl⟩ ?_ (fun _ h => h)
  rintro j ν _ hj ⟨h1, h2⟩
  simp only [wp_bind]
  refine wp_sliceCol (by omega) (by omega) (by omega) ?_
  refine wp_sliceCol (by omega) (by omega) (by omega) ?_
  have dc : (C.colv 0 C.m j).DisjM A := fun i hi => hC (0 + i) j (by simp [MatV.colv] at hi; omega) (by omega)
  have ds : (S.colv 0 S.m j).DisjM A := fun i hi => hS (0 + i) j (by simp [MatV.colv] at hi; omega) (by omega)
  have ec : ∀ i, i + 1 < A.n → ventry ν (C.colv 0 C.m j) i = entry μ C i j := fun i hi => by
    have : ventry ν (C.colv 0 C.m j) i = ν (C.cell i j) := by simp [ventry, MatV.colv]
    rw [this, h2 _ (hC i j (by omega) (by omega))]; rfl
  have es : ∀ i, i + 1 < A.n → ventry ν (S.colv 0 S.m j) i = entry μ S i j := fun i hi => by
    have : ventry ν (S.colv 0 S.m j) i = ν (S.cell i j) := by simp [ventry, MatV.colv]
    rw [this, h2 _ (hS i j (by omega) (by omega))]; rfl
  refine wp_conseq (wp_rotSequence_right cm dir hA dc ds (by omega) (by simp [MatV.colv]; omega) (by simp [MatV.colv]; omega)
    (fun i hi => by rw [ec i (by simp [MatV.colv] at hi; omega)]; exact hr i j (by simp [MatV.colv] at hi; omega) (by omega))) ?_
  rintro _ ν' ⟨-, h3, h4⟩
  rw [wp_pure]
  refine ⟨?_, fun l hl => by rw [h4 l hl, h2 l hl]⟩
  rw [h3, h1, rotWave_succ, conjTranspose_mul, Matrix.mul_assoc, rotDirProd_congr ec es]

theorem wp_rotSequence3_left {A C S : MatV L} {μ : Store L T} (cm : Bool) (dir : Direction)
    (hA : A.Inj) (hC : C.Disj A) (hS : S.Disj A) (hCm : C.m + 1 = A.m) (hSm : S.m + 1 = A.m) (hn : S.n = C.n)
    (hw : dir = .Forward → A.n ≤ 256 ∨ C.n ≤ 1 ∨ A.m ≤ C.n) :
    wp (rotSequence3 cm .Left dir C S A) μ (fun _ ν =>
      mat A.m A.n (entry ν A) = rotWave dir A.m (entry μ C) (entry μ S) C.n * mat A.m A.n (entry μ A) ∧
      ∀ l, ¬ A.Owns l → ν l = μ l) := by
  unfold rotSequence3
  simp only [wp_bind, wp_check, if_true]
  rw [if_pos (by simpa using hn), if_pos (by simp; omega), if_pos (by simp; omega), wp_ite]
  split
  · next h =>
    rw [wp_pure]
    refine ⟨?_, fun _ _ => rfl⟩
    have key : rotWave dir A.m (entry μ C) (entry μ S) C.n = 1 := by
      rcases h with h | h
      · have h' : A.m - 1 = 0 := by omega
        have : ∀ l, rotWave dir A.m (entry μ C) (entry μ S) l = 1 := by
          intro l
          induction l with
          | zero => simp [rotWave]
          | succ l ih =>
            rw [rotWave_succ, ih]
            cases dir <;> simp [rotDirProd, h', rotProd_self, rotProdRev_self]
        exact this _
      · rw [show C.n = 0 by omega]; simp [rotWave]
    rw [key, Matrix.one_mul]
  · next h =>
    rw [wp_ite]
    split
    · next h2 =>
      exact wp_r3Seq_left cm dir hA hC hS hCm hSm rfl hn
    · next h2 =>
      simp only [rsView, if_true]
      exact wp_r3Main id dir _ _ hA hC hS hCm hSm rfl hn (by omega) (by omega) (fun e => by
        have := hw (by simpa using e); omega)

theorem wp_rotSequence3_right {A C S : MatV L} {μ : Store L T} (cm : Bool) (dir : Direction)
    (hA : A.Inj) (hC : C.Disj A) (hS : S.Disj A) (hCm : C.m + 1 = A.n) (hSm : S.m + 1 = A.n) (hn : S.n = C.n)
    (hr : ∀ i j, i < C.m → j < C.n → star (entry μ C i j) = entry μ C i j) :
    wp (rotSequence3 cm .Right dir C S A) μ (fun _ ν =>
      mat A.m A.n (entry ν A) = mat A.m A.n (entry μ A) * (rotWave dir A.n (entry μ C) (entry μ S) C.n)ᴴ ∧
      ∀ l, ¬ A.Owns l → ν l = μ l) := by
  unfold rotSequence3
  simp only [wp_bind, wp_check, reduceCtorEq, if_false]
  rw [if_pos (by simpa using hn), if_pos (by simp; omega), if_pos (by simp; omega), wp_ite]
  split
  · next h =>
    rw [wp_pure]
    refine ⟨?_, fun _ _ => rfl⟩
    have key : rotWave dir A.n (entry μ C) (entry μ S) C.n = 1 := by
      rcases h with h | h
      · have h' : A.n - 1 = 0 := by omega
        have : ∀ l, rotWave dir A.n (entry μ C) (entry μ S) l = 1 := by
          intro l
          induction l with
          | zero => simp [rotWave]
          | succ l ih =>
            rw [rotWave_succ, ih]
            cases dir <;> simp [rotDirProd, h', rotProd_self, rotProdRev_self]
        exact this _
      · rw [show C.n = 0 by omega]; simp [rotWave]
    rw [key, conjTranspose_one, Matrix.mul_one]
  · next h =>
    rw [wp_ite]
    split
    · next h2 =>
      exact wp_r3Seq_right cm dir hA hC hS hCm hSm rfl hn hr
    · next h2 =>
      simp only [rsView, reduceCtorEq, if_false]
      let X : MatV L := ⟨A.n, A.m, fun i j => A.cell j i⟩
      have own : ∀ l, X.Owns l ↔ A.Owns l := fun l =>
        ⟨fun ⟨i, j, hi, hj, e⟩ => ⟨j, i, hj, hi, e⟩, fun ⟨i, j, hi, hj, e⟩ => ⟨j, i, hj, hi, e⟩⟩
      have hX : X.Inj := fun i j i' j' hi hj hi' hj' e => (hA j i j' i' hj hi hj' hi' e).symm
      have hcX : C.Disj X := fun i j hi hj h => hC i j hi hj ((own _).1 h)
      have hsX : S.Disj X := fun i j hi hj h => hS i j hi hj ((own _).1 h)
      refine wp_conseq (wp_r3Main (X := X) star dir _ _ hX hcX hsX hCm hSm rfl hn (by omega) (show C.n + 1 ≤ A.n by omega) (fun e => by
        simp at e)) ?_
      rintro _ ν ⟨h1, h2⟩
      refine ⟨?_, fun l hl => h2 l (fun h => hl ((own l).1 h))⟩
      rw [← rotWave_star dir (fun i j hi hj => hr i j (by omega) hj)]
      have e2 := congrArg transpose h1
      rw [transpose_mul] at e2
      exact e2

/-! ### The start-up phase runs over all lines in every block -/

theorem pairRot_id (p q : Nat) (x : Nat → T) : pairRot p q 1 0 x = x := by
  funext r
  unfold pairRot
  split_ifs with h1 h2
  · simp [h1]
  · simp [h2]
  · rfl

section viol
variable {X C S : MatV L} {μ0 : Store L T} {k l : Nat}

/-- Only the first rotation is not the identity. -/
structure R3One (C S : MatV L) (μ0 : Store L T) (k l : Nat) : Prop where
  c0 : entry μ0 C (k - 1) 0 = 0
  s0 : entry μ0 S (k - 1) 0 = 1
  c1 : ∀ g i, g < k → i < l → ¬ (g = k - 1 ∧ i = 0) → entry μ0 C g i = 1
  s1 : ∀ g i, g < k → i < l → ¬ (g = k - 1 ∧ i = 0) → entry μ0 S g i = 0

theorem r3O_one (h : R3One C S μ0 k l) (hk : k + 1 = X.m) {i t : Nat} (ht : t < k) (hi : i < l) (hne : ¬ (t = 0 ∧ i = 0)) (y : Nat → T) :
    r3O .Forward X.m (entry μ0 C) (fun a b => id (entry μ0 S a b)) i t y = y := by
  unfold r3O r3g
  simp only [if_true, id]
  rw [h.c1 _ i (by omega) hi (by omega), h.s1 _ i (by omega) hi (by omega), pairRot_id]

theorem r3O_two (h : R3One C S μ0 k l) (hk : k + 1 = X.m) (hk0 : 0 < k) (y : Nat → T) :
    r3O .Forward X.m (entry μ0 C) (fun a b => id (entry μ0 S a b)) 0 0 y = pairRot (k - 1) k 0 1 y := by
  unfold r3O r3g
  simp only [if_true, id]
  rw [show X.m - 2 - 0 = k - 1 by omega, h.c0, h.s0, show k - 1 + 1 = k by omega]

theorem r3_fam_one (h : R3One C S μ0 k l) (hk : k + 1 = X.m) (hk0 : 0 < k) (x : Nat → Nat → T) :
    R3Fam k l (r3O .Forward X.m (entry μ0 C) (fun a b => id (entry μ0 S a b)))
      (fun j q y => y = if q 0 = 0 then x j else pairRot (k - 1) k 0 1 (x j)) where
  congr := fun j q q' y e h => by rw [← e 0 hk0]; exact h
  step := fun j q y i t hi en hy => by
    obtain ⟨h1, h2, h3, h4⟩ := en
    by_cases e : t = 0 ∧ i = 0
    · obtain ⟨rfl, rfl⟩ := e
      rw [r3O_two h hk hk0, hy, h2]
      simp
    · rw [r3O_one h hk h1 hi e, hy]
      by_cases e0 : t = 0
      · subst e0
        rw [h2, Function.update_self, if_neg (by omega), if_neg (by omega)]
      · rw [Function.update_of_ne (fun e => e0 e.symm)]

theorem wp_r3Block_all (h : R3One C S μ0 k l) (hX : X.Inj) (hC : C.Disj X) (hS : S.Disj X) (hk : k + 1 = X.m) (hCm : C.m = k)
    (hSm : S.m = k) (hCn : C.n = l) (hSn : S.n = l) (lines : Bool) (hl2 : 2 ≤ l) (hl : l ≤ k) {ib : Nat} (hib : ib < X.n)
    {x : Nat → Nat → T} {ν : Store L T} (hν : MState X μ0 (fun r j => x j r) ν) :
    wp (r3Block lines true id .Forward X C S l ib) ν
      (fun _ ν' => MState X μ0 (fun r j => pairRot (k - 1) k 0 1 (x j) r) ν') := by
  have e : (r3Block lines true id .Forward X C S l ib : M L T Unit) = (do
      (if lines then forUp_ 0 X.n fun i1 => r3Start l fun i t => r3One id .Forward X C S i t i1
        else r3Start l fun i t => forUp_ 0 X.n fun i1 => r3One id .Forward X C S i t i1)
      (if lines then forUp_ ib (min (ib + 256) X.n) fun i1 => r3Pipe X.m l (fun i t => r3Kern id .Forward X C S i t i1) (fun i t => r3Tail id .Forward X C S i t i1)
        else r3Pipe X.m l (fun i t => forUp_ ib (min (ib + 256) X.n) fun i1 => r3Kern id .Forward X C S i t i1) (fun i t => forUp_ ib (min (ib + 256) X.n) fun i1 => r3Tail id .Forward X C S i t i1))
      (if lines then forUp_ ib (min (ib + 256) X.n) fun i1 => r3End X.m l fun i t => r3One id .Forward X C S i t i1
        else r3End X.m l fun i t => forUp_ ib (min (ib + 256) X.n) fun i1 => r3One id .Forward X C S i t i1)) := by
    unfold r3Block
    cases lines <;> rfl
  rw [e]
  simp only [wp_bind]
  have F := r3_fam_one h hk (by omega) x
  have h0 : R3S X μ0 (fun j q y => y = if q 0 = 0 then x j else pairRot (k - 1) k 0 1 (x j)) (fun _ _ => 0) ν :=
    ⟨_, hν, fun j hj => by simp⟩
  refine wp_conseq (r3_start F hX hC hS hk hCm hSm hCn hSn (Nat.zero_le _) (le_refl _) lines hl (fun j h1 h2 => rfl) h0) fun _ ν1 h1 => ?_
  refine wp_conseq (r3_pipe F hX hC hS hk hCm hSm hCn hSn (by omega) (by omega) lines hl2 hl (fun j g1 g2 => by rw [if_pos (by omega)]) h1) fun _ ν2 h2 => ?_
  refine wp_conseq (r3_end F hX hC hS hk hCm hSm hCn hSn (by omega) (by omega) lines hl2 hl (fun j g1 g2 => by rw [if_pos ⟨g1, g2⟩]) h2) fun _ ν3 h3 => ?_
  obtain ⟨G, hG, hP⟩ := h3
  refine hG.congr fun r j hr hj => ?_
  have := congrFun (hP j hj) r
  rw [this, if_neg]
  intro h0
  beta_reduce at h0
  by_cases g : ib ≤ j ∧ j < min (ib + 256) X.n
  · rw [if_pos g] at h0
    omega
  · rw [if_neg g, if_neg g, if_pos ⟨Nat.zero_le _, hj⟩] at h0
    omega

end viol

end TLA
