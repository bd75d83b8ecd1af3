import Verif.Proofs.RotAlg

/-! rot_sequence. -/

set_option linter.unusedTactic false
set_option linter.unusedSectionVars false
set_option linter.unusedVariables false
set_option linter.unreachableTactic false
set_option linter.unusedSimpArgs false

namespace TLA
open Matrix Finset
variable {L T : Type} [DecidableEq L] [Field T] [StarRing T] [DecidableEq T]

/-- Column `j` replaced by its image. -/
def colAt (j : Nat) (g : (Nat → T) → Nat → T) (G : Nat → Nat → T) : Nat → Nat → T := fun r j' =>
  if j' = j then g (fun r => G r j) r else G r j'

theorem wp_rsPair {X : MatV L} {c s : VecV L} {μ0 μ : Store L T} {G : Nat → Nat → T} (f : T → T)
    (h : MState X μ0 G μ) (hX : X.Inj) (hc : c.DisjM X) (hs : s.DisjM X) {i j : Nat} (hi : i + 1 < X.m)
    (hj : j < X.n) (hic : i < c.n) (his : i < s.n) :
    wp (rsPair f X c s i j) μ (fun _ ν =>
      MState X μ0 (colAt j (pairRot i (i + 1) (ventry μ0 c i) (f (ventry μ0 s i))) G) ν) := by
  unfold rsPair
  have e1 := h.val i j (by omega) hj
  have e2 := h.val (i + 1) j hi hj
  have e3 : μ (c.cell i) = ventry μ0 c i := h.readV hc hic
  have e4 : μ (s.cell i) = ventry μ0 s i := h.readV hs his
  simp only [wp_bind, wp_get, wp_set, wp_vget, wp_pure, e1, e2, e3, e4]
  refine ⟨hic, his, ⟨by omega, hj⟩, ⟨hi, hj⟩, ⟨hi, hj⟩, ⟨by omega, hj⟩, ?_⟩
  have h1 := h.upd (G' := fun r j' => if r = i + 1 ∧ j' = j then
      (-star (f (ventry μ0 s i)) * G i j + ventry μ0 c i * G (i + 1) j) else G r j') hX hi hj
    (fun _ _ _ _ => rfl)
  refine h1.upd hX (by omega) hj ?_
  intro r j' _ _
  unfold colAt pairRot
  by_cases e : j' = j
  · subst e
    by_cases e1 : r = i
    · subst e1; simp
    · by_cases e2 : r = i + 1
      · subst e2; simp
      · simp [e1, e2]
  · simp [e]

theorem wp_rsTripleF {X : MatV L} {c s : VecV L} {μ0 μ : Store L T} {G : Nat → Nat → T} (f : T → T)
    (h : MState X μ0 G μ) (hX : X.Inj) (hc : c.DisjM X) (hs : s.DisjM X) {i j : Nat} (h2 : 2 ≤ i) (hi : i + 1 < X.m)
    (hj : j < X.n) (hic : i < c.n) (his : i < s.n) :
    wp (rsTripleF f X c s i j) μ (fun _ ν =>
      MState X μ0 (colAt j (rotsDn (ventry μ0 c) (fun i => f (ventry μ0 s i)) (i - 2) (i + 1)) G) ν) := by
  obtain ⟨i, rfl⟩ : ∃ d, i = d + 2 := ⟨i - 2, by omega⟩
  unfold rsTripleF
  simp only [show i + 2 - 1 = i + 1 by omega, show i + 2 - 2 = i by omega]
  have e0 := h.val i j (by omega) hj
  have e1 := h.val (i + 1) j (by omega) hj
  have e2 := h.val (i + 2) j (by omega) hj
  have e3 := h.val (i + 3) j (by omega) hj
  have ec : ∀ k, k < c.n → μ (c.cell k) = ventry μ0 c k := fun k hk => h.readV hc hk
  have es : ∀ k, k < s.n → μ (s.cell k) = ventry μ0 s k := fun k hk => h.readV hs hk
  simp only [wp_bind, wp_get, wp_set, wp_vget, wp_pure, ec i (by omega), ec (i + 1) (by omega), ec (i + 2) hic,
    es i (by omega), es (i + 1) (by omega), es (i + 2) his, e1, e2, e3, show i + 2 + 1 = i + 3 by omega]
  generalize ventry μ0 c = C
  generalize ventry μ0 s = S
  have h1 := h.upd (G' := fun r j' => if r = i + 3 ∧ j' = j then
      (-star (f (S (i + 2))) * G (i + 2) j + C (i + 2) * G (i + 3) j) else G r j') hX (by omega : i + 3 < X.m) hj
    (fun _ _ _ _ => rfl)
  generalize upd μ (X.cell (i + 3) j) _ = μ1 at h1 ⊢
  have h2 := h1.upd (G' := fun r j' => if r = i + 2 ∧ j' = j then
      (-star (f (S (i + 1))) * G (i + 1) j +
        C (i + 1) * (C (i + 2) * G (i + 2) j + f (S (i + 2)) * G (i + 3) j)) else
      if r = i + 3 ∧ j' = j then
      (-star (f (S (i + 2))) * G (i + 2) j + C (i + 2) * G (i + 3) j) else G r j') hX (by omega : i + 2 < X.m) hj
    (fun _ _ _ _ => rfl)
  generalize upd μ1 (X.cell (i + 2) j) _ = μ2 at h2 ⊢
  have f0 : μ2 (X.cell i j) = G i j := by
    rw [h2.val i j (by omega) hj]; simp
  have h3 := h2.upd (G' := fun r j' => if r = i + 1 ∧ j' = j then
      (-star (f (S i)) * G i j + C i * (C (i + 1) * G (i + 1) j + f (S (i + 1)) *
        (C (i + 2) * G (i + 2) j + f (S (i + 2)) * G (i + 3) j))) else
      if r = i + 2 ∧ j' = j then
      (-star (f (S (i + 1))) * G (i + 1) j +
        C (i + 1) * (C (i + 2) * G (i + 2) j + f (S (i + 2)) * G (i + 3) j)) else
      if r = i + 3 ∧ j' = j then
      (-star (f (S (i + 2))) * G (i + 2) j + C (i + 2) * G (i + 3) j) else G r j') hX (by omega : i + 1 < X.m) hj
    (fun _ _ _ _ => rfl)
  simp only [f0]
  generalize upd μ2 (X.cell (i + 1) j) _ = μ3 at h3 ⊢
  have f1 : μ3 (X.cell i j) = G i j := by
    rw [h3.val i j (by omega) hj]; simp
  rw [f1]
  refine ⟨hic, his, by omega, by omega, by omega, by omega, ⟨by omega, hj⟩, ⟨by omega, hj⟩, ⟨by omega, hj⟩,
    ⟨by omega, hj⟩, ⟨by omega, hj⟩, ⟨by omega, hj⟩, ⟨by omega, hj⟩, ⟨by omega, hj⟩, ⟨by omega, hj⟩, ?_⟩
  refine h3.upd hX (by omega) hj ?_
  intro r j' _ _
  unfold colAt rotsDn
  rw [foldDown_bot (by omega), foldDown_bot (by omega), foldDown_bot (by omega)]
  simp only [foldDown, show i + 3 - (i + 1 + 1 + 1) = 0 by omega, foldDownN, pairRot]
  simp only [Nat.add_assoc, Nat.reduceAdd]
  by_cases e : j' = j
  · subst e
    by_cases e1 : r = i
    · subst e1; simp
    · by_cases e2 : r = i + 1
      · subst e2; simp
      · by_cases e3 : r = i + 2
        · subst e3; simp
        · by_cases e4 : r = i + 3
          · subst e4; simp
          · simp [e1, e2, e3, e4]
  · simp [e]

theorem wp_rsTripleB {X : MatV L} {c s : VecV L} {μ0 μ : Store L T} {G : Nat → Nat → T} (f : T → T)
    (h : MState X μ0 G μ) (hX : X.Inj) (hc : c.DisjM X) (hs : s.DisjM X) {i j : Nat} (hi : i + 3 < X.m)
    (hj : j < X.n) (hic : i + 2 < c.n) (his : i + 2 < s.n) :
    wp (rsTripleB f X c s i j) μ (fun _ ν =>
      MState X μ0 (colAt j (rotsUp (ventry μ0 c) (fun i => f (ventry μ0 s i)) i (i + 3)) G) ν) := by
  unfold rsTripleB
  have e0 := h.val i j (by omega) hj
  have e1 := h.val (i + 1) j (by omega) hj
  have e2 := h.val (i + 2) j (by omega) hj
  have e3 := h.val (i + 3) j (by omega) hj
  have ec : ∀ k, k < c.n → μ (c.cell k) = ventry μ0 c k := fun k hk => h.readV hc hk
  have es : ∀ k, k < s.n → μ (s.cell k) = ventry μ0 s k := fun k hk => h.readV hs hk
  simp only [wp_bind, wp_get, wp_set, wp_vget, wp_pure, ec i (by omega), ec (i + 1) (by omega), ec (i + 2) hic,
    es i (by omega), es (i + 1) (by omega), es (i + 2) his, e0, e1, e2]
  generalize ventry μ0 c = C
  generalize ventry μ0 s = S
  have h1 := h.upd (G' := fun r j' => if r = i ∧ j' = j then
      (C i * G i j + f (S i) * G (i + 1) j) else G r j') hX (by omega : i < X.m) hj
    (fun _ _ _ _ => rfl)
  generalize upd μ (X.cell i j) _ = μ1 at h1 ⊢
  have h2 := h1.upd (G' := fun r j' => if r = i + 1 ∧ j' = j then
      (C (i + 1) * (-star (f (S i)) * G i j + C i * G (i + 1) j) + f (S (i + 1)) * G (i + 2) j) else
      if r = i ∧ j' = j then
      (C i * G i j + f (S i) * G (i + 1) j) else G r j') hX (by omega : i + 1 < X.m) hj
    (fun _ _ _ _ => rfl)
  generalize upd μ1 (X.cell (i + 1) j) _ = μ2 at h2 ⊢
  have f0 : μ2 (X.cell (i + 3) j) = G (i + 3) j := by
    rw [h2.val (i + 3) j (by omega) hj]; simp
  have h3 := h2.upd (G' := fun r j' => if r = i + 2 ∧ j' = j then
      (C (i + 2) * (-star (f (S (i + 1))) * (-star (f (S i)) * G i j + C i * G (i + 1) j) + C (i + 1) * G (i + 2) j)
        + f (S (i + 2)) * G (i + 3) j) else
      if r = i + 1 ∧ j' = j then
      (C (i + 1) * (-star (f (S i)) * G i j + C i * G (i + 1) j) + f (S (i + 1)) * G (i + 2) j) else
      if r = i ∧ j' = j then
      (C i * G i j + f (S i) * G (i + 1) j) else G r j') hX (by omega : i + 2 < X.m) hj
    (fun _ _ _ _ => rfl)
  simp only [f0]
  generalize upd μ2 (X.cell (i + 2) j) _ = μ3 at h3 ⊢
  have f1 : μ3 (X.cell (i + 3) j) = G (i + 3) j := by
    rw [h3.val (i + 3) j (by omega) hj]; simp
  rw [f1]
  refine ⟨by omega, by omega, by omega, by omega, by omega, by omega, ⟨by omega, hj⟩, ⟨by omega, hj⟩,
    ⟨by omega, hj⟩, ⟨by omega, hj⟩, ⟨by omega, hj⟩, ⟨by omega, hj⟩, ⟨by omega, hj⟩, ⟨by omega, hj⟩,
    ⟨by omega, hj⟩, ?_⟩
  refine h3.upd hX (by omega) hj ?_
  intro r j' _ _
  unfold colAt rotsUp
  rw [foldUp_succ (by omega : i ≤ i + 2), foldUp_succ (by omega : i ≤ i + 1), foldUp_succ (by omega : i ≤ i)]
  simp only [foldUp, show i - i = 0 by omega, foldUpN, pairRot]
  simp only [Nat.add_assoc, Nat.reduceAdd]
  by_cases e : j' = j
  · subst e
    by_cases e1 : r = i
    · subst e1; simp
    · by_cases e2 : r = i + 1
      · subst e2; simp
      · by_cases e3 : r = i + 2
        · subst e3; simp
        · by_cases e4 : r = i + 3
          · subst e4; simp
          · simp [e1, e2, e3, e4]
  · simp [e]

/-- The same map applied to all columns, one after the other. -/
theorem wp_colMap {X : MatV L} {μ0 μ : Store L T} {G : Nat → Nat → T} {body : Nat → M L T Unit}
    (g : (Nat → T) → Nat → T) (h : MState X μ0 G μ)
    (hb : ∀ j G μ, j < X.n → MState X μ0 G μ → wp (body j) μ (fun _ ν => MState X μ0 (colAt j g G) ν)) :
    wp (forUp_ 0 X.n body) μ (fun _ ν => MState X μ0 (colMap g G) ν) := by
  refine wp_forUp_ (fun k ν => MState X μ0 (fun r j => if j < k then colMap g G r j else G r j) ν) (Nat.zero_le _)
    (h.congr fun r j _ _ => by simp) ?_ ?_
  · intro j ν _ hj hν
    refine wp_conseq (hb j _ ν hj hν) ?_
    intro _ ν' hν'
    refine hν'.congr fun r j' _ _ => ?_
    unfold colAt
    by_cases e : j' = j
    · subst e
      simp [colMap]
    · rw [if_neg e]
      beta_reduce
      by_cases e2 : j' < j
      · rw [if_pos e2, if_pos (by omega)]
      · rw [if_neg e2, if_neg (by omega)]
  · intro ν hν
    exact hν.congr fun r j _ hj => by rw [if_pos hj]

theorem rotsDn_split (c s : Nat → T) (x : Nat → T) {mid hi : Nat} (h2 : mid ≤ hi) :
    ∀ d lo, lo + d = mid → rotsDn c s lo mid (rotsDn c s mid hi x) = rotsDn c s lo hi x := by
  intro d
  induction d with
  | zero => intro lo h; obtain rfl : lo = mid := by omega
            simp [rotsDn]
  | succ d ih =>
    intro lo h
    have := ih (lo + 1) (by omega)
    unfold rotsDn at this ⊢
    rw [foldDown_bot (by omega : lo < mid), this, foldDown_bot (by omega : lo < hi)]

theorem rotsUp_split (c s : Nat → T) (x : Nat → T) {lo mid : Nat} (h1 : lo ≤ mid) :
    ∀ d, rotsUp c s mid (mid + d) (rotsUp c s lo mid x) = rotsUp c s lo (mid + d) x := by
  intro d
  induction d with
  | zero => simp [rotsUp]
  | succ d ih =>
    unfold rotsUp at ih ⊢
    rw [← Nat.add_assoc, foldUp_succ (by omega : mid ≤ mid + d), ih, foldUp_succ (by omega : lo ≤ mid + d)]

/-- The rotations of the code, for one direction. -/
def rotsDir (dir : Direction) (c s : Nat → T) (k : Nat) : (Nat → T) → Nat → T :=
  if dir = .Forward then rotsDn c s 0 k else rotsUp c s 0 k

section
variable {X : MatV L} {c s : VecV L} {μ0 μ : Store L T} {G : Nat → Nat → T} {k : Nat}

theorem wp_rsDown (f : T → T) (h : MState X μ0 G μ) (hX : X.Inj) (hc : c.DisjM X) (hs : s.DisjM X) {j : Nat}
    (hk : k + 1 ≤ X.m) (hj : j < X.n) (hic : k ≤ c.n) (his : k ≤ s.n) :
    wp (forDown_ 0 k fun i => rsPair f X c s i j) μ (fun _ ν =>
      MState X μ0 (colAt j (rotsDn (ventry μ0 c) (fun i => f (ventry μ0 s i)) 0 k) G) ν) := by
  refine wp_forDown_ (fun i ν =>
      MState X μ0 (colAt j (rotsDn (ventry μ0 c) (fun i => f (ventry μ0 s i)) i k) G) ν) (Nat.zero_le _)
    (h.congr fun r j' _ _ => by
      unfold colAt; split
      · next e => subst e; simp [rotsDn]
      · rfl) ?_ (fun _ h => h)
  intro i ν _ hi hν
  refine wp_conseq (wp_rsPair f hν hX hc hs (by omega) hj (by omega) (by omega)) ?_
  intro _ ν' hν'
  refine hν'.congr fun r j' _ _ => ?_
  unfold colAt
  by_cases e : j' = j
  · rw [if_pos e, if_pos e]
    unfold rotsDn
    rw [foldDown_bot (by omega : i < k)]
    simp only [if_true]
  · simp [e]

theorem wp_rsUp (f : T → T) (h : MState X μ0 G μ) (hX : X.Inj) (hc : c.DisjM X) (hs : s.DisjM X) {j : Nat}
    (hk : k + 1 ≤ X.m) (hj : j < X.n) (hic : k ≤ c.n) (his : k ≤ s.n) :
    wp (forUp_ 0 k fun i => rsPair f X c s i j) μ (fun _ ν =>
      MState X μ0 (colAt j (rotsUp (ventry μ0 c) (fun i => f (ventry μ0 s i)) 0 k) G) ν) := by
  refine wp_forUp_ (fun i ν =>
      MState X μ0 (colAt j (rotsUp (ventry μ0 c) (fun i => f (ventry μ0 s i)) 0 i) G) ν) (Nat.zero_le _)
    (h.congr fun r j' _ _ => by
      unfold colAt; split
      · next e => subst e; simp [rotsUp]
      · rfl) ?_ (fun _ h => h)
  intro i ν _ hi hν
  refine wp_conseq (wp_rsPair f hν hX hc hs (by omega) hj (by omega) (by omega)) ?_
  intro _ ν' hν'
  refine hν'.congr fun r j' _ _ => ?_
  unfold colAt
  by_cases e : j' = j
  · rw [if_pos e, if_pos e]
    unfold rotsUp
    rw [foldUp_succ (by omega : 0 ≤ i)]
    simp only [if_true]
  · simp [e]

theorem wp_rsLines (f : T → T) (dir : Direction) (h : MState X μ0 G μ) (hX : X.Inj) (hc : c.DisjM X)
    (hs : s.DisjM X) (hk : k + 1 ≤ X.m) (hic : k ≤ c.n) (his : k ≤ s.n) :
    wp (rsLines f dir X c s k) μ (fun _ ν =>
      MState X μ0 (colMap (rotsDir dir (ventry μ0 c) (fun i => f (ventry μ0 s i)) k) G) ν) := by
  unfold rsLines
  refine wp_colMap _ h ?_
  intro j G μ hj h
  cases dir
  · simp only [rotsDir, if_true]
    exact wp_rsDown f h hX hc hs hk hj hic his
  · simp only [rotsDir, reduceCtorEq, if_false]
    exact wp_rsUp f h hX hc hs hk hj hic his

theorem wp_rsBlocks (f : T → T) (dir : Direction) (h : MState X μ0 G μ) (hX : X.Inj) (hc : c.DisjM X)
    (hs : s.DisjM X) (hk : k + 1 ≤ X.m) (hic : k ≤ c.n) (his : k ≤ s.n) :
    wp (rsBlocks f dir X c s k) μ (fun _ ν =>
      MState X μ0 (colMap (rotsDir dir (ventry μ0 c) (fun i => f (ventry μ0 s i)) k) G) ν) := by
  unfold rsBlocks
  have hdm : k = 3 * (k / 3) + k % 3 := (Nat.div_add_mod k 3).symm
  generalize k / 3 = q at hdm ⊢
  generalize k % 3 = e at hdm ⊢
  cases dir
  · simp only [rotsDir, if_true, wp_bind]
    refine wp_forUp_ (fun t ν => MState X μ0
        (colMap (rotsDn (ventry μ0 c) (fun i => f (ventry μ0 s i)) (k - 3 * t) k) G) ν) (Nat.zero_le _)
      (h.congr fun r j _ _ => by simp [colMap, rotsDn]) ?_ ?_
    · intro t ν _ ht hν
      refine wp_conseq (wp_colMap _ hν fun j G μ hj h =>
        wp_rsTripleF f h hX hc hs (by omega) (by omega) hj (by omega) (by omega)) ?_
      intro _ ν' hν'
      refine hν'.congr fun r j _ _ => ?_
      show rotsDn _ _ _ _ _ _ = rotsDn _ _ _ _ (rotsDn _ _ _ _ _) _
      rw [show k - 3 * t - 1 - 2 = k - 3 * (t + 1) by omega, show k - 3 * t - 1 + 1 = k - 3 * t by omega,
        rotsDn_split _ _ _ (by omega : k - 3 * t ≤ k) 3 _ (by omega)]
    · intro ν hν
      refine wp_forDown_ (fun i ν => MState X μ0
        (colMap (rotsDn (ventry μ0 c) (fun i => f (ventry μ0 s i)) i k) G) ν) (Nat.zero_le _)
        (by rwa [show k - 3 * q = e by omega] at hν) ?_ (fun _ h => h)
      intro i ν _ hi hν
      refine wp_conseq (wp_colMap _ hν fun j G μ hj h =>
        wp_rsPair f h hX hc hs (by omega) hj (by omega) (by omega)) ?_
      intro _ ν' hν'
      refine hν'.congr fun r j _ _ => ?_
      show rotsDn _ _ _ _ _ _ = pairRot _ _ _ _ (rotsDn _ _ _ _ _) _
      conv_lhs => unfold rotsDn
      rw [foldDown_bot (by omega : i < k)]
      rfl
  · simp only [rotsDir, reduceCtorEq, if_false, wp_bind]
    refine wp_forUp_ (fun t ν => MState X μ0
        (colMap (rotsUp (ventry μ0 c) (fun i => f (ventry μ0 s i)) 0 (3 * t)) G) ν) (Nat.zero_le _)
      (h.congr fun r j _ _ => by simp [colMap, rotsUp]) ?_ ?_
    · intro t ν _ ht hν
      refine wp_conseq (wp_colMap _ hν fun j G μ hj h =>
        wp_rsTripleB f h hX hc hs (by omega) hj (by omega) (by omega)) ?_
      intro _ ν' hν'
      refine hν'.congr fun r j _ _ => ?_
      show rotsUp _ _ _ _ _ _ = rotsUp _ _ _ _ (rotsUp _ _ _ _ _) _
      rw [rotsUp_split _ _ _ (by omega : 0 ≤ 3 * t) 3]
      rfl
    · intro ν hν
      refine wp_forUp_ (fun i ν => MState X μ0
        (colMap (rotsUp (ventry μ0 c) (fun i => f (ventry μ0 s i)) 0 i) G) ν) (by omega)
        (by rwa [show k - e = 3 * q by omega]) ?_ (fun _ h => h)
      intro i ν _ hi hν
      refine wp_conseq (wp_colMap _ hν fun j G μ hj h =>
        wp_rsPair f h hX hc hs (by omega) hj (by omega) (by omega)) ?_
      intro _ ν' hν'
      refine hν'.congr fun r j _ _ => ?_
      show rotsUp _ _ _ _ _ _ = pairRot _ _ _ _ (rotsUp _ _ _ _ _) _
      conv_lhs => unfold rotsUp
      rw [foldUp_succ (by omega : 0 ≤ i)]
      rfl
end

/-- The product the code applies for a direction. -/
def rotDirProd (dir : Direction) (n : Nat) (c s : Nat → T) : Matrix (Fin n) (Fin n) T :=
  if dir = .Forward then rotProd n c s 0 (n - 1) else rotProdRev n c s 0 (n - 1)

theorem mat_rotsDir {n m : Nat} (dir : Direction) (c s : Nat → T) (F : Nat → Nat → T) :
    mat n m (colMap (rotsDir dir c s (n - 1)) F) = rotDirProd dir n c s * mat n m F := by
  cases dir
  · simp only [rotsDir, rotDirProd, if_true]
    exact mat_rotsDn c s (by omega) F (n - 1) 0 (by omega)
  · simp only [rotsDir, rotDirProd, reduceCtorEq, if_false]
    have := mat_rotsUp (n := n) (m := m) c s (lo := 0) F (n - 1) (by omega)
    simpa using this

theorem rotProd_star {n : Nat} {c s : Nat → T} (hc : ∀ i, i + 1 < n → star (c i) = c i) {hi : Nat} (hhi : hi + 1 ≤ n ∨ hi = 0) :
    ∀ d lo, lo + d = hi → (rotProd n c (fun i => star (s i)) lo hi)ᵀ = (rotProd n c s lo hi)ᴴ := by
  intro d
  induction d with
  | zero => intro lo h; obtain rfl : lo = hi := by omega
            simp [rotProd_self]
  | succ d ih =>
    intro lo h
    rw [rotProd_bot _ _ (by omega : lo < hi), rotProd_bot _ _ (by omega : lo < hi), transpose_mul, conjTranspose_mul,
      ih _ (by omega), rotMat_transpose_star (by omega) (hc lo (by omega))]

theorem rotProdRev_star {n : Nat} {c s : Nat → T} (hc : ∀ i, i + 1 < n → star (c i) = c i) {lo : Nat} :
    ∀ d, (lo + d + 1 ≤ n ∨ d = 0) →
      (rotProdRev n c (fun i => star (s i)) lo (lo + d))ᵀ = (rotProdRev n c s lo (lo + d))ᴴ := by
  intro d
  induction d with
  | zero => intro _; simp [rotProdRev_self]
  | succ d ih =>
    intro h
    rw [← Nat.add_assoc, rotProdRev_succ _ _ (by omega : lo ≤ lo + d), rotProdRev_succ _ _ (by omega : lo ≤ lo + d), transpose_mul,
      conjTranspose_mul, ih (by omega), rotMat_transpose_star (by omega) (hc (lo + d) (by omega))]

theorem rotDirProd_star {n : Nat} (dir : Direction) {c s : Nat → T} (hc : ∀ i, i + 1 < n → star (c i) = c i) :
    (rotDirProd dir n c (fun i => star (s i)))ᵀ = (rotDirProd dir n c s)ᴴ := by
  cases dir
  · simp only [rotDirProd, if_true]
    exact rotProd_star hc (by omega) (n - 1) 0 (by omega)
  · simp only [rotDirProd, reduceCtorEq, if_false]
    have := rotProdRev_star (n := n) (s := s) hc (lo := 0) (n - 1) (by omega)
    simpa using this

theorem wp_rotSequence_left {A : MatV L} {c s : VecV L} {μ : Store L T} (cm : Bool) (dir : Direction)
    (hA : A.Inj) (hc : c.DisjM A) (hs : s.DisjM A) (hm : 0 < A.m) (hcn : c.n + 1 = A.m) (hsn : s.n + 1 = A.m) :
    wp (rotSequence cm .Left dir c s A) μ (fun r ν => r = 0 ∧
      mat A.m A.n (entry ν A) = rotDirProd dir A.m (ventry μ c) (ventry μ s) * mat A.m A.n (entry μ A) ∧
      ∀ l, ¬ A.Owns l → ν l = μ l) := by
  unfold rotSequence
  simp only [wp_bind, wp_check, if_true]
  rw [if_pos (by simp; omega), if_pos (by simp; omega), wp_ite]
  split
  · next h1 =>
    simp only [wp_pure]
    refine ⟨trivial, ?_, fun _ _ => trivial⟩
    have : A.m - 1 = 0 := by omega
    cases dir <;> simp [rotDirProd, this, rotProd_self, rotProdRev_self]
  · next h1 =>
    have key : ∀ x : M L T Unit, wp x μ (fun _ ν => MState A μ (colMap (rotsDir dir (ventry μ c)
          (fun i => id (ventry μ s i)) (A.m - 1)) (entry μ A)) ν) →
        wp (x >>= fun _ => pure 0) μ (fun r ν => r = 0 ∧
      mat A.m A.n (entry ν A) = rotDirProd dir A.m (ventry μ c) (ventry μ s) * mat A.m A.n (entry μ A) ∧
      ∀ l, ¬ A.Owns l → ν l = μ l) := by
      intro x hx
      simp only [wp_bind, wp_pure]
      refine wp_conseq hx ?_
      intro _ ν hν
      refine ⟨trivial, ?_, hν.frame⟩
      rw [← mat_rotsDir]
      exact mat_ext_iff.2 fun i j hi hj => hν.val i j hi hj
    have h0 : MState A μ (entry μ A) μ := ⟨fun _ _ _ _ => rfl, fun _ _ => rfl⟩
    refine key _ ?_
    simp only [rsView, if_true]
    split
    · exact wp_rsLines id dir h0 hA hc hs (by omega) (by omega) (by omega)
    · exact wp_rsBlocks id dir h0 hA hc hs (by omega) (by omega) (by omega)

theorem wp_rotSequence_right {A : MatV L} {c s : VecV L} {μ : Store L T} (cm : Bool) (dir : Direction)
    (hA : A.Inj) (hc : c.DisjM A) (hs : s.DisjM A) (hm : 0 < A.n) (hcn : c.n + 1 = A.n) (hsn : s.n + 1 = A.n)
    (hr : ∀ i, i < c.n → star (ventry μ c i) = ventry μ c i) :
    wp (rotSequence cm .Right dir c s A) μ (fun r ν => r = 0 ∧
      mat A.m A.n (entry ν A) = mat A.m A.n (entry μ A) * (rotDirProd dir A.n (ventry μ c) (ventry μ s))ᴴ ∧
      ∀ l, ¬ A.Owns l → ν l = μ l) := by
  unfold rotSequence
  simp only [wp_bind, wp_check, reduceCtorEq, if_false]
  rw [if_pos (by simp; omega), if_pos (by simp; omega), wp_ite]
  split
  · next h1 =>
    simp only [wp_pure]
    refine ⟨trivial, ?_, fun _ _ => trivial⟩
    have : A.n - 1 = 0 := by omega
    cases dir <;> simp [rotDirProd, this, rotProd_self, rotProdRev_self]
  · next h1 =>
    let X : MatV L := ⟨A.n, A.m, fun i j => A.cell j i⟩
    have own : ∀ l, X.Owns l ↔ A.Owns l := fun l =>
      ⟨fun ⟨i, j, hi, hj, e⟩ => ⟨j, i, hj, hi, e⟩, fun ⟨i, j, hi, hj, e⟩ => ⟨j, i, hj, hi, e⟩⟩
    have hX : X.Inj := fun i j i' j' hi hj hi' hj' e => (hA j i j' i' hj hi hj' hi' e).symm
    have hcX : c.DisjM X := fun i hi h => hc i hi ((own _).1 h)
    have hsX : s.DisjM X := fun i hi h => hs i hi ((own _).1 h)
    have key : ∀ x : M L T Unit, wp x μ (fun _ ν => MState X μ (colMap (rotsDir dir (ventry μ c)
          (fun i => star (ventry μ s i)) (A.n - 1)) (entry μ X)) ν) →
        wp (x >>= fun _ => pure 0) μ (fun r ν => r = 0 ∧
      mat A.m A.n (entry ν A) = mat A.m A.n (entry μ A) * (rotDirProd dir A.n (ventry μ c) (ventry μ s))ᴴ ∧
      ∀ l, ¬ A.Owns l → ν l = μ l) := by
      intro x hx
      simp only [wp_bind, wp_pure]
      refine wp_conseq hx ?_
      intro _ ν hν
      refine ⟨trivial, ?_, fun l hl => hν.frame l (fun h => hl ((own l).1 h))⟩
      rw [← rotDirProd_star dir (fun i hi => hr i (by omega))]
      have e1 : mat A.n A.m (entry ν X) = rotDirProd dir A.n (ventry μ c) (fun i => star (ventry μ s i)) *
          mat A.n A.m (entry μ X) := by
        rw [← mat_rotsDir]
        exact mat_ext_iff.2 fun i j hi hj => hν.val i j hi hj
      have e2 := congrArg transpose e1
      rw [transpose_mul] at e2
      exact e2
    have h0 : MState X μ (entry μ X) μ := ⟨fun _ _ _ _ => rfl, fun _ _ => rfl⟩
    refine key _ ?_
    simp only [rsView, reduceCtorEq, if_false]
    split
    · exact wp_rsLines star dir h0 hX hcX hsX (by show _ ≤ A.n; omega) (by omega) (by omega)
    · exact wp_rsBlocks star dir h0 hX hcX hsX (by show _ ≤ A.n; omega) (by omega) (by omega)

end TLA
