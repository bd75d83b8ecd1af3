import Verif.Proofs.HouseGen

/-! ungq_level2: the loops. -/

set_option linter.unusedSectionVars false
set_option linter.unusedTactic false
set_option linter.unreachableTactic false

namespace TLA
open Finset
variable {L 𝕜 : Type} [DecidableEq L] [RCLike 𝕜] [DecidableEq 𝕜]

theorem tr_set {T : Type} (A : MatV L) (i j : Nat) (v : T) : A.tr.set i j v = A.set j i v := by
  funext μ
  unfold MatV.set
  by_cases h : i < A.tr.m ∧ j < A.tr.n
  · rw [if_pos h, if_pos (show j < A.m ∧ i < A.n from h.symm)]
    rfl
  · rw [if_neg h, if_neg (fun h' => h h'.symm)]

theorem UngPar.facts {dir : Direction} {m n k j P r0 r1 c c0 c1 : Nat} (hp : UngPar dir m n k j P r0 r1 c c0 c1)
    (hn : n ≤ m) (hk : k ≤ n) (hj : j < k) :
    r0 < r1 ∧ r1 ≤ m ∧ c < n ∧ c0 ≤ c1 ∧ c1 ≤ n ∧ (c < c0 ∨ c1 ≤ c) ∧ (r0 ≤ P ∧ P < r1) ∧ P = r0 + pidx dir (r1 - r0) ∧
    c1 - c0 ≤ n - 1 := by
  obtain ⟨rfl, rfl, rfl, rfl, rfl, rfl⟩ := hp
  unfold hpiv qcol pidx
  cases dir <;> simp <;> omega

theorem wp_ungStepCol {dir : Direction} {A : MatV L} {tau work : VecV L} (ok : QrOK A tau work)
    (hn : A.n ≤ A.m) (hk : tau.n ≤ A.n) {j jold jnew P r0 r1 c c0 c1 z0 z1 : Nat} (hj : j < tau.n)
    (hw : larfWorksize .Left A.m (A.n - 1) ≤ work.n)
    (hold : jold = if dir = .Forward then j + 1 else j) (hnew : jnew = if dir = .Forward then j else j + 1)
    (hp : UngPar dir A.m A.n tau.n j P r0 r1 c c0 c1)
    (hz : (z0 = 0 ∧ z1 = r0 ∧ r1 = A.m) ∨ (z0 = r1 ∧ z1 = A.m ∧ r0 = 0))
    {μ ν : Store L 𝕜} (h : UState dir .Columnwise A tau work μ jold ν) :
    wp (do
      let t ← tau.get j
      let v ← A.sliceCol r0 r1 c
      let C ← A.slice r0 r1 c0 c1
      larf .Left dir .Columnwise v t C work
      scal (-t) v
      A.set P c (1 - t)
      forUp_ z0 z1 fun i => A.set i c 0) ν (fun _ ν' => UState dir .Columnwise A tau work μ jnew ν') := by
  obtain ⟨f1, f2, f3, f4, f5, f6, f7, f8, f9⟩ := hp.facts hn hk hj
  rw [wp_bind]
  refine wp_vgetE hj ?_
  have ht : ν (tau.cell j) = ventry μ tau j := h.frame _ (by
    rintro ⟨r, c', hr, hc', e⟩
    exact ok.At r c' hr hc' ⟨j, hj, e.symm⟩) (ok.tw j hj)
  rw [ht, wp_bind]
  refine wp_sliceCol (by omega) (by omega) (by omega) ?_
  rw [wp_bind]
  refine wp_slice (by omega) (by omega) (by omega) (by omega) ?_
  rw [wp_bind]
  refine wp_conseq (wp_larfSubL (u := colU P r0 r1 c (LG .Columnwise ν A))
    ⟨ok.inj, ok.winj, f2, f5, colv_disj_sub ok.inj f2 f3 f5 f6, ?_, ok.Aw⟩ rfl
    (le_trans (larfWorksize_left (by omega) (by omega)) hw) (fun i hi => (hvec_colU f8 hi).symm) ?_) ?_
  · intro i hi ho
    simp only [MatV.colv] at hi ho
    exact ok.Aw _ _ (by omega) f3 ho
  · intro r hr h2
    unfold colU
    rw [if_neg (by omega), if_neg (by omega)]
  intro _ ν1 h1
  refine wp_conseq (wp_ungTail ok.inj rfl f2 f3 f7 hz) ?_
  intro _ ν' h'
  refine h.next hn hk hj hold hnew hp (fun r c' hr hc' => ?_) h1.frame h'
  exact h1.val r c' hr hc'

theorem wp_ungStepRow {dir : Direction} {A : MatV L} {tau work : VecV L} (ok : QrOK A tau work)
    (hn : A.m ≤ A.n) (hk : tau.n ≤ A.m) {j jold jnew P r0 r1 c c0 c1 z0 z1 : Nat} (hj : j < tau.n)
    (hw : larfWorksize .Right (A.m - 1) A.n ≤ work.n)
    (hold : jold = if dir = .Forward then j + 1 else j) (hnew : jnew = if dir = .Forward then j else j + 1)
    (hp : UngPar dir A.n A.m tau.n j P r0 r1 c c0 c1)
    (hz : (z0 = 0 ∧ z1 = r0 ∧ r1 = A.n) ∨ (z0 = r1 ∧ z1 = A.n ∧ r0 = 0))
    {μ ν : Store L 𝕜} (h : UState dir .Rowwise A.tr tau work μ jold ν) :
    wp (do
      let t ← tau.get j
      let v ← A.sliceRow c r0 r1
      let C ← A.slice c0 c1 r0 r1
      larf .Right dir .Rowwise v (star t) C work
      scal (-(star t)) v
      A.set c P (1 - star t)
      forUp_ z0 z1 fun i => A.set c i 0) ν (fun _ ν' => UState dir .Rowwise A.tr tau work μ jnew ν') := by
  obtain ⟨f1, f2, f3, f4, f5, f6, f7, f8, f9⟩ := hp.facts hn hk hj
  have e1 : A.tr.m = A.n := rfl
  have e2 : A.tr.n = A.m := rfl
  rw [wp_bind]
  refine wp_vgetE hj ?_
  have ht : ν (tau.cell j) = ventry μ tau j := h.frame _ (by
    rintro ⟨r, c', hr, hc', e⟩
    exact ok.tr.At r c' hr hc' ⟨j, hj, e.symm⟩) (ok.tw j hj)
  rw [ht, wp_bind]
  refine wp_sliceRow (by omega) (by omega) (by omega) ?_
  rw [wp_bind]
  refine wp_slice (by omega) (by omega) (by omega) (by omega) ?_
  rw [wp_bind]
  have hdis := colv_disj_sub (r0 := r0) (r1 := r1) (c := c) (c0 := c0) (c1 := c1) ok.tr.inj f2 f3 f5 f6
  refine wp_conseq (wp_larfSubR (u := colU P r0 r1 c (LG .Rowwise ν A.tr))
    ⟨ok.inj, ok.winj, f5, f2, ?_, ?_, ok.Aw⟩ rfl
    (le_trans (larfWorksize_right (by omega) (by omega)) hw)
    (fun i hi => (hvec_colU (store := .Rowwise) (B := A.tr) f8 hi).symm) ?_) ?_
  · rintro i hi ⟨i', j', hi', hj', e⟩
    exact hdis i hi ⟨j', i', hj', hi', e⟩
  · intro i hi ho
    simp only [MatV.rowv] at hi ho
    exact ok.Aw _ _ f3 (by omega) ho
  · intro r hr h2
    unfold colU
    rw [if_neg (by omega), if_neg (by omega)]
  intro _ ν1 h1
  have htail := wp_ungTail (B := A.tr) (c := c) ok.tr.inj rfl f2 f3 f7 hz (t := star (ventry μ tau j)) (ν := ν1)
  simp only [tr_set] at htail
  refine wp_conseq htail ?_
  intro _ ν' h'
  refine h.next hn hk hj hold hnew hp (fun r c' hr hc' => ?_) (fun l h2 h3 => h1.frame l (fun ho => h2 (MatV.tr_owns.2 ho)) h3) h'
  have := h1.val c' r hc' hr
  show star (entry ν1 A c' r) = _
  rw [this]
  by_cases hcc : c0 ≤ c' ∧ c' < c1
  · rw [if_pos hcc, if_pos hcc]
    unfold applyR applyL
    rw [star_sub, star_mul', star_mul', star_star, star_sum, star_star, mul_right_comm]
    refine congrArg₂ _ rfl (congrArg₂ _ rfl (Finset.sum_congr rfl fun s hs => ?_))
    rw [star_mul', mul_comm]
    rfl
  · rw [if_neg hcc, if_neg hcc]
    rfl

theorem wp_lasetG {A : MatV L} (hA : A.Inj) {beta : 𝕜} {μ : Store L 𝕜} :
    wp (lasetG beta A) μ (fun _ ν => MState A μ (fun i j => if i = j then beta else 0) ν) := by
  obtain ⟨ν, h1, h2, h3⟩ := C24_laset .General (Or.inr (Or.inr rfl)) (0 : 𝕜) beta A hA μ
  refine wp_of_eq h1 ⟨fun i j hi hj => ?_, h3⟩
  rw [show ν (A.cell i j) = _ from h2 i j hi hj]
  unfold lasetVal
  by_cases e : i = j
  · rw [if_pos e, if_pos e]
  · rw [if_neg e, if_neg e, if_pos (by simp [inTri])]

instance (dir : Direction) (n k j c : Nat) : Decidable (ungDone dir n k j c) := by unfold ungDone; infer_instance

/-- Initial state of the loops. -/
theorem UState.init {dir : Direction} {store : StoreV} {B : MatV L} {tau work : VecV L} {μ ν : Store L 𝕜} {j : Nat}
    (hn : B.n ≤ B.m) (hk : tau.n ≤ B.n)
    (hj : j = if dir = .Forward then tau.n else 0)
    (hv : ∀ r c, r < B.m → c < B.n → entry ν B r c =
      if ungDone dir B.n tau.n j c then eyeF dir B.m B.n r c else entry μ B r c)
    (hf : ∀ l, ¬ B.Owns l → ν l = μ l) : UState dir store B tau work μ j ν := by
  refine ⟨⟨fun r c hr hc h => ?_, eyeF dir B.m B.n, ?_, fun r c hr hc h => ?_, fun _ _ _ _ _ => rfl⟩, fun l h _ => hf l h⟩
  · unfold LG; rw [hv r c hr hc, if_neg h]
  · unfold ungList; rw [hj]; cases dir <;> simp
  · unfold LG; rw [hv r c hr hc, if_pos h]
    unfold cj eyeF
    split
    · rfl
    · split <;> simp

theorem ungDone_fwd {n k j c : Nat} : ungDone .Forward n k j c ↔ j ≤ c := Iff.rfl
theorem ungDone_bwd {n k j c : Nat} : ungDone .Backward n k j c ↔ c + k < n + j := Iff.rfl

theorem wp_ungq_cf {A : MatV L} {tau work : VecV L} (ok : UngqOK .Columnwise A tau work) {μ : Store L 𝕜} :
    wp (ungq .Forward .Columnwise A tau work) μ (fun r ν => r = 0 ∧
      (A.m ≠ 0 ∧ A.n ≠ 0 → UState .Forward .Columnwise A tau work μ 0 ν) ∧ (A.m = 0 ∨ A.n = 0 → ν = μ)) := by
  have hsh := ok.shape
  simp only [if_true] at hsh
  unfold ungq
  simp only [wp_bind, wp_check]
  rw [if_pos (by simpa using hsh)]
  by_cases h0 : A.m = 0 ∨ A.n = 0
  · rw [if_pos h0, wp_pure]
    exact ⟨rfl, fun h => by omega, fun _ => rfl⟩
  rw [if_neg h0]
  have hw : larfWorksize .Left A.m (A.n - 1) ≤ work.n := by
    have := ok.wn
    unfold ungqWorksize at this
    simp only at this
    by_cases h1 : A.n > 1
    · rwa [if_pos h1] at this
    · rw [show A.n - 1 = 0 by omega]; simp [larfWorksize]
  simp only [wp_bind]
  refine wp_slice (by omega) (by omega) (by omega) (by omega) ?_
  refine wp_slice (by omega) (by omega) (by omega) (by omega) ?_
  refine wp_conseq (wp_lasetG (ok.inj.sub (by omega) (by omega))) ?_
  intro _ ν1 h1
  have s1 := (MState.start A μ).lift ok.inj (by omega) (by omega) h1
  refine wp_conseq (wp_lasetG (ok.inj.sub (by omega) (by omega))) ?_
  intro _ ν2 h2
  have s2 := s1.lift ok.inj (by omega) (by omega) h2
  refine wp_forDown_ (fun j ν => UState .Forward .Columnwise A tau work μ j ν) (Nat.zero_le _) ?_ ?_ ?_
  · refine UState.init hsh.1 hsh.2 rfl (fun r c hr hc => ?_) s2.frame
    rw [show entry ν2 A r c = _ from s2.val r c hr hc]
    by_cases e : tau.n ≤ c
    · rw [if_pos (ungDone_fwd.2 e)]
      unfold eyeF
      simp only [if_true]
      by_cases e2 : tau.n ≤ r
      · rw [if_pos (by omega)]
        exact if_congr (by omega) rfl rfl
      · rw [if_neg (by omega), if_pos (by omega), if_neg (show ¬ r = c by omega)]
        split <;> rfl
    · rw [if_neg (fun h => e (ungDone_fwd.1 h)), if_neg (by omega), if_neg (by omega)]
  · intro j ν _ hj hν
    exact wp_ungStepCol ok.toQrOK hsh.1 hsh.2 hj hw rfl rfl (P := j) ⟨rfl, rfl, rfl, rfl, rfl, rfl⟩ (Or.inl ⟨rfl, rfl, rfl⟩) hν
  · intro ν hν
    rw [wp_pure]
    exact ⟨rfl, fun _ => hν, fun h => absurd h h0⟩

theorem wp_ungq_cb {A : MatV L} {tau work : VecV L} (ok : UngqOK .Columnwise A tau work) {μ : Store L 𝕜} :
    wp (ungq .Backward .Columnwise A tau work) μ (fun r ν => r = 0 ∧
      (A.m ≠ 0 ∧ A.n ≠ 0 → UState .Backward .Columnwise A tau work μ tau.n ν) ∧ (A.m = 0 ∨ A.n = 0 → ν = μ)) := by
  have hsh := ok.shape
  simp only [if_true] at hsh
  unfold ungq
  simp only [wp_bind, wp_check]
  rw [if_pos (by simpa using hsh)]
  by_cases h0 : A.m = 0 ∨ A.n = 0
  · rw [if_pos h0, wp_pure]
    exact ⟨rfl, fun h => by omega, fun _ => rfl⟩
  rw [if_neg h0]
  have hw : larfWorksize .Left A.m (A.n - 1) ≤ work.n := by
    have := ok.wn
    unfold ungqWorksize at this
    simp only at this
    by_cases h1 : A.n > 1
    · rwa [if_pos h1] at this
    · rw [show A.n - 1 = 0 by omega]; simp [larfWorksize]
  simp only [wp_bind]
  refine wp_slice (by omega) (by omega) (by omega) (by omega) ?_
  refine wp_slice (by omega) (by omega) (by omega) (by omega) ?_
  refine wp_slice (by omega) (by omega) (by omega) (by omega) ?_
  refine wp_conseq (wp_lasetG (ok.inj.sub (by omega) (by omega))) ?_
  intro _ ν1 h1
  have s1 := (MState.start A μ).lift ok.inj (by omega) (by omega) h1
  refine wp_conseq (wp_lasetG (ok.inj.sub (by omega) (by omega))) ?_
  intro _ ν2 h2
  have s2 := s1.lift ok.inj (by omega) (by omega) h2
  refine wp_conseq (wp_lasetG (ok.inj.sub (by omega) (by omega))) ?_
  intro _ ν3 h3
  have s3 := s2.lift ok.inj (by omega) (by omega) h3
  refine wp_forUp_ (fun j ν => UState .Backward .Columnwise A tau work μ j ν) (Nat.zero_le _) ?_ ?_ ?_
  · refine UState.init hsh.1 hsh.2 rfl (fun r c hr hc => ?_) s3.frame
    rw [show entry ν3 A r c = _ from s3.val r c hr hc]
    by_cases e : c + tau.n < A.n + 0
    · rw [if_pos (ungDone_bwd.2 e)]
      unfold eyeF
      simp only [reduceCtorEq, if_false]
      by_cases e2 : A.m - tau.n ≤ r
      · rw [if_pos (by omega), if_neg (show ¬ r + A.n = c + A.m by omega)]
        split <;> rfl
      · rw [if_neg (by omega)]
        by_cases e3 : A.m - A.n ≤ r
        · rw [if_pos (by omega)]
          exact if_congr (by omega) rfl rfl
        · rw [if_neg (by omega), if_pos (by omega), if_neg (show ¬ r + A.n = c + A.m by omega)]
          split <;> rfl
    · rw [if_neg (fun h => e (ungDone_bwd.1 h)), if_neg (by omega), if_neg (by omega), if_neg (by omega)]
  · intro j ν _ hj hν
    unfold ung2lStep
    simp only [Nat.add_sub_cancel]
    exact wp_ungStepCol ok.toQrOK hsh.1 hsh.2 hj hw rfl rfl (P := A.m - tau.n + j) ⟨rfl, rfl, rfl, rfl, rfl, rfl⟩
      (Or.inr ⟨rfl, rfl, rfl⟩) hν
  · intro ν hν
    rw [wp_pure]
    exact ⟨rfl, fun _ => hν, fun h => absurd h h0⟩

theorem wp_ungq_rf {A : MatV L} {tau work : VecV L} (ok : UngqOK .Rowwise A tau work) {μ : Store L 𝕜} :
    wp (ungq .Forward .Rowwise A tau work) μ (fun r ν => r = 0 ∧
      (A.m ≠ 0 ∧ A.n ≠ 0 → UState .Forward .Rowwise A.tr tau work μ 0 ν) ∧ (A.m = 0 ∨ A.n = 0 → ν = μ)) := by
  have hsh := ok.shape
  simp only [reduceCtorEq, if_false] at hsh
  unfold ungq
  simp only [wp_bind, wp_check]
  rw [if_pos (by simpa using hsh)]
  by_cases h0 : A.m = 0 ∨ A.n = 0
  · rw [if_pos h0, wp_pure]
    exact ⟨rfl, fun h => by omega, fun _ => rfl⟩
  rw [if_neg h0]
  have hw : larfWorksize .Right (A.m - 1) A.n ≤ work.n := by
    have := ok.wn
    unfold ungqWorksize at this
    simp only at this
    by_cases h1 : A.m > 1
    · rwa [if_pos h1] at this
    · rw [show A.m - 1 = 0 by omega]; simp [larfWorksize]
  simp only [wp_bind]
  refine wp_slice (by omega) (by omega) (by omega) (by omega) ?_
  refine wp_slice (by omega) (by omega) (by omega) (by omega) ?_
  refine wp_conseq (wp_lasetG (ok.inj.sub (by omega) (by omega))) ?_
  intro _ ν1 h1
  have s1 := (MState.start A μ).lift ok.inj (by omega) (by omega) h1
  refine wp_conseq (wp_lasetG (ok.inj.sub (by omega) (by omega))) ?_
  intro _ ν2 h2
  have s2 := s1.lift ok.inj (by omega) (by omega) h2
  refine wp_forDown_ (fun j ν => UState .Forward .Rowwise A.tr tau work μ j ν) (Nat.zero_le _) ?_ ?_ ?_
  · refine UState.init hsh.1 hsh.2 rfl (fun r c hr hc => ?_) (fun l h => s2.frame l (fun ho => h (MatV.tr_owns.2 ho)))
    rw [show entry ν2 A.tr r c = _ from s2.val c r hc hr]
    have e1 : A.tr.m = A.n := rfl
    have e2 : A.tr.n = A.m := rfl
    by_cases e : tau.n ≤ c
    · rw [if_pos (ungDone_fwd.2 e)]
      unfold eyeF
      simp only [if_true]
      by_cases e2 : tau.n ≤ r
      · rw [if_pos (by omega)]
        exact if_congr (by omega) rfl rfl
      · rw [if_neg (by omega), if_pos (by omega), if_neg (show ¬ r = c by omega)]
        split <;> rfl
    · rw [if_neg (fun h => e (ungDone_fwd.1 h)), if_neg (by omega), if_neg (by omega)]
      rfl
  · intro j ν _ hj hν
    exact wp_ungStepRow ok.toQrOK hsh.1 hsh.2 hj hw rfl rfl (P := j) ⟨rfl, rfl, rfl, rfl, rfl, rfl⟩ (Or.inl ⟨rfl, rfl, rfl⟩) hν
  · intro ν hν
    rw [wp_pure]
    exact ⟨rfl, fun _ => hν, fun h => absurd h h0⟩

theorem wp_ungq_rb {A : MatV L} {tau work : VecV L} (ok : UngqOK .Rowwise A tau work) {μ : Store L 𝕜} :
    wp (ungq .Backward .Rowwise A tau work) μ (fun r ν => r = 0 ∧
      (A.m ≠ 0 ∧ A.n ≠ 0 → UState .Backward .Rowwise A.tr tau work μ tau.n ν) ∧ (A.m = 0 ∨ A.n = 0 → ν = μ)) := by
  have hsh := ok.shape
  simp only [reduceCtorEq, if_false] at hsh
  unfold ungq
  simp only [wp_bind, wp_check]
  rw [if_pos (by simpa using hsh)]
  by_cases h0 : A.m = 0 ∨ A.n = 0
  · rw [if_pos h0, wp_pure]
    exact ⟨rfl, fun h => by omega, fun _ => rfl⟩
  rw [if_neg h0]
  have hw : larfWorksize .Right (A.m - 1) A.n ≤ work.n := by
    have := ok.wn
    unfold ungqWorksize at this
    simp only at this
    by_cases h1 : A.m > 1
    · rwa [if_pos h1] at this
    · rw [show A.m - 1 = 0 by omega]; simp [larfWorksize]
  simp only [wp_bind]
  refine wp_slice (by omega) (by omega) (by omega) (by omega) ?_
  refine wp_slice (by omega) (by omega) (by omega) (by omega) ?_
  refine wp_slice (by omega) (by omega) (by omega) (by omega) ?_
  refine wp_conseq (wp_lasetG (ok.inj.sub (by omega) (by omega))) ?_
  intro _ ν1 h1
  have s1 := (MState.start A μ).lift ok.inj (by omega) (by omega) h1
  refine wp_conseq (wp_lasetG (ok.inj.sub (by omega) (by omega))) ?_
  intro _ ν2 h2
  have s2 := s1.lift ok.inj (by omega) (by omega) h2
  refine wp_conseq (wp_lasetG (ok.inj.sub (by omega) (by omega))) ?_
  intro _ ν3 h3
  have s3 := s2.lift ok.inj (by omega) (by omega) h3
  refine wp_forUp_ (fun j ν => UState .Backward .Rowwise A.tr tau work μ j ν) (Nat.zero_le _) ?_ ?_ ?_
  · refine UState.init hsh.1 hsh.2 rfl (fun r c hr hc => ?_) (fun l h => s3.frame l (fun ho => h (MatV.tr_owns.2 ho)))
    rw [show entry ν3 A.tr r c = _ from s3.val c r hc hr]
    have e1 : A.tr.m = A.n := rfl
    have e2 : A.tr.n = A.m := rfl
    by_cases e : c + tau.n < A.tr.n + 0
    · rw [if_pos (ungDone_bwd.2 e)]
      unfold eyeF
      simp only [reduceCtorEq, if_false]
      by_cases e2 : A.n - tau.n ≤ r
      · rw [if_pos (by omega), if_neg (show ¬ r + A.tr.n = c + A.tr.m by omega)]
        split <;> rfl
      · rw [if_neg (by omega)]
        by_cases e3 : A.n - A.m ≤ r
        · rw [if_pos (by omega)]
          exact if_congr (by omega) rfl rfl
        · rw [if_neg (by omega), if_pos (by omega), if_neg (show ¬ r + A.tr.n = c + A.tr.m by omega)]
          split <;> rfl
    · rw [if_neg (fun h => e (ungDone_bwd.1 h)), if_neg (by omega), if_neg (by omega), if_neg (by omega)]
      rfl
  · intro j ν _ hj hν
    unfold ungr2Step
    simp only [Nat.add_sub_cancel]
    exact wp_ungStepRow ok.toQrOK hsh.1 hsh.2 hj hw rfl rfl (P := A.n - tau.n + j) ⟨rfl, rfl, rfl, rfl, rfl, rfl⟩
      (Or.inr ⟨rfl, rfl, rfl⟩) hν
  · intro ν hν
    rw [wp_pure]
    exact ⟨rfl, fun _ => hν, fun h => absurd h h0⟩

end TLA
