import Verif.Proofs.UngqBlk
set_option linter.unusedTactic false
set_option linter.unusedVariables false
set_option linter.unreachableTactic false
set_option linter.unusedSectionVars false

/-! # ungq, blocked: the loops -/

namespace TLA
open Finset
variable {L 𝕜 : Type} [DecidableEq L] [RCLike 𝕜] [DecidableEq 𝕜]

/-- Setting rows `a..b`, columns `c..d` of `B`. -/
theorem lasetG_at {B : MatV L} (hB : B.Inj) {r0 r1 c0 c1 : Nat} (h1 : r1 ≤ B.m) (h2 : c1 ≤ B.n) {beta : 𝕜} {μ ν : Store L 𝕜}
    (h : MState (B.sub r0 r1 c0 c1) μ (fun i j => if i = j then beta else 0) ν) {r c : Nat} (hr : r < B.m) (hc : c < B.n) :
    ν (B.cell r c) = if r0 ≤ r ∧ r < r1 ∧ c0 ≤ c ∧ c < c1 then (if r - r0 = c - c0 then beta else 0) else μ (B.cell r c) := by
  split
  · rename_i h3
    have := h.val (r - r0) (c - c0) (by simp only [MatV.sub]; omega) (by simp only [MatV.sub]; omega)
    simp only [MatV.sub] at this
    rw [show r0 + (r - r0) = r by omega, show c0 + (c - c0) = c by omega] at this
    exact this
  · rename_i h3
    refine h.frame _ ?_
    rintro ⟨i, j, hi, hj, e⟩
    simp only [MatV.sub] at hi hj e
    have := hB _ _ _ _ (by omega) (by omega) hr hc e
    omega

theorem lasetG_tr {A : MatV L} {r0 r1 c0 c1 : Nat} {beta : 𝕜} {μ ν : Store L 𝕜} (h : MState (A.sub r0 r1 c0 c1) μ (fun i j => if i = j then beta else 0) ν) :
    MState (A.tr.sub c0 c1 r0 r1) μ (fun i j => if i = j then beta else 0) ν :=
  ⟨fun i j hi hj => (h.val j i hj hi).trans (if_congr eq_comm rfl rfl), fun l hl => h.frame l fun ⟨i, j, hi, hj, e⟩ => hl ⟨j, i, hj, hi, e⟩⟩

theorem initF {store : StoreV} {B : MatV L} {tau work : VecV L} {μ ν ν' : Store L 𝕜}
    (ok : QrOK B tau work) (hn : B.n ≤ B.m) (hk : tau.n ≤ B.n)
    (h1 : MState (B.sub 0 tau.n tau.n B.n) μ (fun i j => if i = j then (0 : 𝕜) else 0) ν)
    (h2 : MState (B.sub tau.n B.m tau.n B.n) ν (fun i j => if i = j then (1 : 𝕜) else 0) ν') :
    UState .Forward store B tau work μ tau.n ν' := by
  refine UState.start ok hn hk rfl rfl rfl (fun r c hr h3 h4 => ?_) (fun l hl => ?_)
  · rw [lasetG_at ok.inj (le_refl _) (le_refl _) h2 hr h4, lasetG_at ok.inj (by omega) (le_refl _) h1 hr h4]
    unfold eyeF
    by_cases e : tau.n ≤ r
    · rw [if_pos (by simp at h3 h4 ⊢; omega)]
      refine if_congr ?_ rfl rfl
      simp at h3 ⊢; omega
    · rw [if_neg (by omega), if_pos (by simp at h3 h4 ⊢; omega), ite_self]
      exact (if_neg (by simp at h3 h4 ⊢; omega)).symm
  · rw [h2.frame l, h1.frame l]
    · rintro ⟨i, j, hi, hj, e⟩
      simp only [MatV.sub] at hi hj e
      exact hl ⟨i, j, by simp [MatV.sub]; omega, by simp [MatV.sub]; omega, by simpa [MatV.sub] using e⟩
    · rintro ⟨i, j, hi, hj, e⟩
      simp only [MatV.sub] at hi hj e
      exact hl ⟨tau.n + i, j, by simp [MatV.sub]; omega, by simp [MatV.sub]; omega, by simpa [MatV.sub] using e⟩

theorem initB {store : StoreV} {B : MatV L} {tau work : VecV L} {μ ν ν' ν'' : Store L 𝕜}
    (ok : QrOK B tau work) (hn : B.n ≤ B.m) (hk : tau.n ≤ B.n)
    (h1 : MState (B.sub 0 (B.m - B.n) 0 (B.n - tau.n)) μ (fun i j => if i = j then (0 : 𝕜) else 0) ν)
    (h2 : MState (B.sub (B.m - B.n) (B.m - tau.n) 0 (B.n - tau.n)) ν (fun i j => if i = j then (1 : 𝕜) else 0) ν')
    (h3 : MState (B.sub (B.m - tau.n) B.m 0 (B.n - tau.n)) ν' (fun i j => if i = j then (0 : 𝕜) else 0) ν'') :
    UState .Backward store B tau work μ 0 ν'' := by
  refine UState.start ok hn hk rfl rfl rfl (fun r c hr h4 h5 => ?_) (fun l hl => ?_)
  · have hc : c < B.n := by simp at h5; omega
    rw [lasetG_at ok.inj (le_refl _) (by omega) h3 hr hc, lasetG_at ok.inj (by omega) (by omega) h2 hr hc,
      lasetG_at ok.inj (by omega) (by omega) h1 hr hc]
    unfold eyeF
    simp at h5
    by_cases e : B.m - tau.n ≤ r
    · rw [if_pos (by omega), ite_self]
      exact (if_neg (by simp; omega)).symm
    · rw [if_neg (by omega)]
      by_cases e2 : B.m - B.n ≤ r
      · rw [if_pos (by omega)]
        refine if_congr ?_ rfl rfl
        simp; omega
      · rw [if_neg (by omega), if_pos (by omega), ite_self]
        exact (if_neg (by simp; omega)).symm
  · rw [h3.frame l, h2.frame l, h1.frame l]
    · rintro ⟨i, j, hi, hj, e⟩
      simp only [MatV.sub] at hi hj e
      exact hl ⟨i, j, by simp [MatV.sub]; omega, by simp [MatV.sub]; omega, by simpa [MatV.sub] using e⟩
    · rintro ⟨i, j, hi, hj, e⟩
      simp only [MatV.sub] at hi hj e
      exact hl ⟨B.m - B.n + i, j, by simp [MatV.sub]; omega, by simp [MatV.sub]; omega, by simpa [MatV.sub] using e⟩
    · rintro ⟨i, j, hi, hj, e⟩
      simp only [MatV.sub] at hi hj e
      exact hl ⟨B.m - tau.n + i, j, by simp [MatV.sub]; omega, by simp [MatV.sub]; omega, by simpa [MatV.sub] using e⟩

/-- The descending loop. -/
theorem wp_ungqLoop {k nb : Nat} (hnb : 0 < nb) (hk : 0 < k) {body : Nat → M L 𝕜 Unit} (I : Nat → Store L 𝕜 → Prop) {μ : Store L 𝕜}
    (h0 : I k μ) (hs : ∀ j ib ν, j < k → ib = min nb (k - j) → (j = 0 ∨ nb ≤ j) → I (j + ib) ν → wp (body j) ν (fun _ ν' => I j ν')) :
    wp (ungqLoop k nb body) μ (fun _ ν => I 0 ν) := by
  unfold ungqLoop
  rw [if_neg (by omega)]
  have hend : k ≤ ((k - 1) / nb + 1) * nb := by
    have := Nat.lt_div_mul_add (a := k - 1) hnb
    rw [Nat.add_mul, Nat.one_mul]
    omega
  refine wp_forDown_ (fun s ν => I (min (s * nb) k) ν) (Nat.zero_le _) (by rw [Nat.min_eq_right hend]; exact h0) ?_
    (fun ν h => by rw [Nat.zero_mul, Nat.zero_min] at h; exact h)
  intro b ν _ hb hν
  have hbk : b * nb < k := by
    have h1 : b ≤ (k - 1) / nb := by omega
    have h2 := (Nat.le_div_iff_mul_le hnb).1 h1
    omega
  have hbb : b * nb = 0 ∨ nb ≤ b * nb := by
    rcases Nat.eq_zero_or_pos b with h | h
    · left; rw [h, Nat.zero_mul]
    · right; exact Nat.le_mul_of_pos_left _ h
  rw [Nat.succ_mul] at hν
  refine wp_conseq (hs (b * nb) (min nb (k - b * nb)) ν hbk rfl hbb ?_) ?_
  · rw [show b * nb + min nb (k - b * nb) = min (b * nb + nb) k by omega]; exact hν
  · intro _ ν' h
    rw [Nat.min_eq_left (by omega)]; exact h

/-- The ascending loop. -/
theorem wp_ungqLoopUp {k nb : Nat} (hnb : 0 < nb) {body : Nat → M L 𝕜 (Option Unit)} (I : Nat → Store L 𝕜 → Prop) {μ : Store L 𝕜}
    (h0 : I 0 μ) (hs : ∀ j ib ν, j < k → ib = min nb (k - j) → (∃ b, j = b * nb) → I j ν → wp (body j) ν (fun r ν' => r = none ∧ I (j + ib) ν')) :
    wp (forStep nb k body 0) μ (fun _ ν => I k ν) := by
  refine wp_forStep (fun j ν => I (min j k) ν ∧ ∃ b, j = b * nb) hnb ?_ ?_ 0 μ ⟨by rw [Nat.zero_min]; exact h0, 0, by simp⟩
  · rintro j ν hj ⟨h1, b, hb⟩
    rw [Nat.min_eq_left (by omega)] at h1
    refine wp_conseq (hs j (min nb (k - j)) ν hj rfl ⟨b, hb⟩ h1) ?_
    rintro _ ν' ⟨rfl, h2⟩
    refine ⟨?_, b + 1, by rw [hb]; ring⟩
    rw [show min (j + nb) k = j + min nb (k - j) by omega]; exact h2
  · rintro j ν hj ⟨h1, -⟩
    rw [Nat.min_eq_right (by omega)] at h1
    exact h1

end TLA

namespace TLA
open Finset
variable {L 𝕜 : Type} [DecidableEq L] [RCLike 𝕜] [DecidableEq 𝕜]

theorem ung_div_le {k nb : Nat} : (k - 1) / nb * nb ≤ k - 1 := Nat.div_mul_le_self _ _

theorem wp_ungqBlk_c {isReal : Bool} (hreal : isReal = true → ∀ z : 𝕜, star z = z) {dir : Direction} {A : MatV L} {tau work : VecV L}
    {nb0 : Nat} (ok : UngqBlkOK nb0 dir .Columnwise A tau work) {μ : Store L 𝕜} :
    wp (ungqBlk isReal nb0 dir .Columnwise A tau work) μ (fun r ν => r = 0 ∧
      (A.m ≠ 0 ∧ A.n ≠ 0 → UState dir .Columnwise A tau work μ (if dir = .Forward then 0 else tau.n) ν) ∧ (A.m = 0 ∨ A.n = 0 → ν = μ)) := by
  have hsh := ok.shape
  simp only [if_true] at hsh
  have hnb0 := ok.nb
  have hk := ok.k
  have qok := ok.toQrOK
  unfold ungqBlk
  simp only [wp_bind, wp_check]
  rw [if_pos (by simpa using hsh)]
  by_cases h0 : A.m = 0 ∨ A.n = 0
  · rw [if_pos h0, wp_pure]
    exact ⟨rfl, fun h => by omega, fun _ => rfl⟩
  rw [if_neg h0]
  have hk0 : 0 < tau.n := by omega
  obtain ⟨nb, hnb⟩ : ∃ nb, nb = min nb0 tau.n := ⟨_, rfl⟩
  rw [← hnb]
  have hw := ungqBlkWorksize_leC hnb (ok.wn (by omega) (by omega))
  obtain ⟨hw1, hw2⟩ := hw
  simp only [wp_bind]
  have hmn : min A.m A.n = A.n := by omega
  rw [hmn]
  have hws : nb * nb * (if A.n > nb then 1 else 0) ≤ work.n := by
    split
    · rename_i h; have := hw2 h; omega
    · omega
  refine wp_blockWork hws ?_
  have cx : UngCtx A.n tau.n work nb (if A.n > nb then (wview work nb nb, work.sub (nb * nb) work.n) else (wview work 0 0, work.sub (0 * 0) work.n)).1
      (if A.n > nb then (wview work nb nb, work.sub (nb * nb) work.n) else (wview work 0 0, work.sub (0 * 0) work.n)).2 :=
    ⟨by omega, by omega, fun h => by rw [if_pos h]; exact ⟨rfl, rfl⟩⟩
  generalize (if A.n > nb then (wview work nb nb, work.sub (nb * nb) work.n) else (wview work 0 0, work.sub (0 * 0) work.n)) = w at cx ⊢
  have fin : ∀ ν', UState dir .Columnwise A tau work μ (if dir = .Forward then 0 else tau.n) ν' →
      (0 = 0 ∧ (A.m ≠ 0 ∧ A.n ≠ 0 → UState dir .Columnwise A tau work μ (if dir = .Forward then 0 else tau.n) ν') ∧ (A.m = 0 ∨ A.n = 0 → ν' = μ)) :=
    fun ν' h => ⟨rfl, fun _ => h, fun h' => absurd h' h0⟩
  cases dir with
  | Forward =>
    simp only [wp_bind]
    refine wp_slice (by omega) (by omega) (by omega) (by omega) ?_
    refine wp_slice (by omega) (by omega) (by omega) (by omega) ?_
    refine wp_conseq (wp_lasetG (qok.inj.sub (by omega) (le_refl _))) fun _ ν1 h1 => ?_
    refine wp_conseq (wp_lasetG (qok.inj.sub (le_refl _) (le_refl _))) fun _ ν2 h2 => ?_
    refine wp_conseq (wp_ungqLoop cx.nb0 hk0 (fun j ν => UState .Forward .Columnwise A tau work μ j ν) (initF qok hsh.1 hsh.2 h1 h2) ?_) fun _ ν3 h3 => ?_
    · intro j ib ν hj hib hjb hν
      exact wp_ungqrStep hreal qok hsh.1 hsh.2 cx hw1 hw2 hj hib hjb hν
    · rw [wp_pure]
      exact fin ν3 h3
  | Backward =>
    simp only [wp_bind]
    refine wp_slice (by omega) (by omega) (by omega) (by omega) ?_
    refine wp_slice (by omega) (by omega) (by omega) (by omega) ?_
    refine wp_slice (by omega) (by omega) (by omega) (by omega) ?_
    refine wp_conseq (wp_lasetG (qok.inj.sub (by omega) (by omega))) fun _ ν1 h1 => ?_
    refine wp_conseq (wp_lasetG (qok.inj.sub (by omega) (by omega))) fun _ ν2 h2 => ?_
    refine wp_conseq (wp_lasetG (qok.inj.sub (by omega) (by omega))) fun _ ν2' h2' => ?_
    refine wp_conseq (wp_ungqLoopUp cx.nb0 (fun j ν => UState .Backward .Columnwise A tau work μ j ν) (initB qok hsh.1 hsh.2 h1 h2 h2') ?_) fun _ ν3 h3 => ?_
    · intro j ib ν hj hib hjb hν
      exact wp_ungqlStep hreal qok hsh.1 hsh.2 cx hw1 hw2 hj hib hjb hν
    · rw [wp_pure]
      exact fin ν3 h3

theorem wp_ungqBlk_r {isReal : Bool} (hreal : isReal = true → ∀ z : 𝕜, star z = z) {dir : Direction} {A : MatV L} {tau work : VecV L}
    {nb0 : Nat} (ok : UngqBlkOK nb0 dir .Rowwise A tau work) {μ : Store L 𝕜} :
    wp (ungqBlk isReal nb0 dir .Rowwise A tau work) μ (fun r ν => r = 0 ∧
      (A.m ≠ 0 ∧ A.n ≠ 0 → UState dir .Rowwise A.tr tau work μ (if dir = .Forward then 0 else tau.n) ν) ∧ (A.m = 0 ∨ A.n = 0 → ν = μ)) := by
  have hsh := ok.shape
  simp only [reduceCtorEq, if_false] at hsh
  have hnb0 := ok.nb
  have hk := ok.k
  have qok := ok.toQrOK
  unfold ungqBlk
  simp only [wp_bind, wp_check]
  rw [if_pos (by simpa using hsh)]
  by_cases h0 : A.m = 0 ∨ A.n = 0
  · rw [if_pos h0, wp_pure]
    exact ⟨rfl, fun h => by omega, fun _ => rfl⟩
  rw [if_neg h0]
  have hk0 : 0 < tau.n := by omega
  obtain ⟨nb, hnb⟩ : ∃ nb, nb = min nb0 tau.n := ⟨_, rfl⟩
  rw [← hnb]
  have hw := ungqBlkWorksize_leR hnb (ok.wn (by omega) (by omega))
  obtain ⟨hw1, hw2⟩ := hw
  simp only [wp_bind]
  have hmn : min A.m A.n = A.m := by omega
  rw [hmn]
  have hws : nb * nb * (if A.m > nb then 1 else 0) ≤ work.n := by
    split
    · rename_i h; have := hw2 h; omega
    · omega
  refine wp_blockWork hws ?_
  have cx : UngCtx A.m tau.n work nb (if A.m > nb then (wview work nb nb, work.sub (nb * nb) work.n) else (wview work 0 0, work.sub (0 * 0) work.n)).1
      (if A.m > nb then (wview work nb nb, work.sub (nb * nb) work.n) else (wview work 0 0, work.sub (0 * 0) work.n)).2 :=
    ⟨by omega, by omega, fun h => by rw [if_pos h]; exact ⟨rfl, rfl⟩⟩
  generalize (if A.m > nb then (wview work nb nb, work.sub (nb * nb) work.n) else (wview work 0 0, work.sub (0 * 0) work.n)) = w at cx ⊢
  have fin : ∀ ν', UState dir .Rowwise A.tr tau work μ (if dir = .Forward then 0 else tau.n) ν' →
      (0 = 0 ∧ (A.m ≠ 0 ∧ A.n ≠ 0 → UState dir .Rowwise A.tr tau work μ (if dir = .Forward then 0 else tau.n) ν') ∧ (A.m = 0 ∨ A.n = 0 → ν' = μ)) :=
    fun ν' h => ⟨rfl, fun _ => h, fun h' => absurd h' h0⟩
  cases dir with
  | Forward =>
    simp only [wp_bind]
    refine wp_slice (by omega) (by omega) (by omega) (by omega) ?_
    refine wp_slice (by omega) (by omega) (by omega) (by omega) ?_
    refine wp_conseq (wp_lasetG (qok.inj.sub (by omega) (by omega))) fun _ ν1 h1 => ?_
    refine wp_conseq (wp_lasetG (qok.inj.sub (by omega) (by omega))) fun _ ν2 h2 => ?_
    have ini := initF (store := .Rowwise) (B := A.tr) qok.tr hsh.1 hsh.2 (lasetG_tr h1) (lasetG_tr h2)
    refine wp_conseq (wp_ungqLoop cx.nb0 hk0 (fun j ν => UState .Forward .Rowwise A.tr tau work μ j ν) ini ?_) fun _ ν3 h3 => ?_
    · intro j ib ν hj hib hjb hν
      exact wp_unglqStep hreal qok hsh.1 hsh.2 cx hw1 hw2 hj hib hjb hν
    · rw [wp_pure]
      exact fin ν3 h3
  | Backward =>
    simp only [wp_bind]
    refine wp_slice (by omega) (by omega) (by omega) (by omega) ?_
    refine wp_slice (by omega) (by omega) (by omega) (by omega) ?_
    refine wp_slice (by omega) (by omega) (by omega) (by omega) ?_
    refine wp_conseq (wp_lasetG (qok.inj.sub (by omega) (by omega))) fun _ ν1 h1 => ?_
    refine wp_conseq (wp_lasetG (qok.inj.sub (by omega) (by omega))) fun _ ν2 h2 => ?_
    refine wp_conseq (wp_lasetG (qok.inj.sub (by omega) (by omega))) fun _ ν2' h2' => ?_
    have ini := initB (store := .Rowwise) (B := A.tr) qok.tr hsh.1 hsh.2 (lasetG_tr h1) (lasetG_tr h2) (lasetG_tr h2')
    refine wp_conseq (wp_ungqLoopUp cx.nb0 (fun j ν => UState .Backward .Rowwise A.tr tau work μ j ν) ini ?_) fun _ ν3 h3 => ?_
    · intro j ib ν hj hib hjb hν
      exact wp_ungrqStep hreal qok hsh.1 hsh.2 cx hw1 hw2 hj hib hjb hν
    · rw [wp_pure]
      exact fin ν3 h3

end TLA
