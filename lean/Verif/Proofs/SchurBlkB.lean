import Verif.Proofs.SchurBlkA

set_option linter.unusedTactic false
set_option linter.unusedSectionVars false
set_option linter.unusedVariables false
set_option linter.unreachableTactic false
set_option linter.unusedSimpArgs false

/-! schur_swap for real matrices: generation of the pair of reflectors. -/

namespace TLA
open Matrix Finset
variable {L : Type} [DecidableEq L] {hp : HhPar}

theorem hvec_swW (b : Nat → ℝ) (n : Nat) : hvec .Forward .Columnwise n b = swW b := by
  funext i; simp [hvec, swW, pidx]

theorem wp_larfgR (hl : HhLaws ℝ hp) {x : VecV L} (hx : x.Inj) (hn : 0 < x.n) {ν : Store L ℝ} {g : Nat → ℝ}
    (hg : ∀ k, k < x.n → ν (x.cell k) = g k) (hb : ∀ k, k < x.n → |g k| ≤ hp.tbig) :
    wp (larfgV (hhOps (𝕜 := ℝ) hp) .Forward .Columnwise x) ν (fun tau ν' => ∃ b, VState x ν b ν' ∧
      tau * tau * (∑ k ∈ range x.n, swW b k * swW b k) = tau + tau ∧
      ∀ k, k < x.n → swH x.n (swW b) tau g k = if k = 0 then b 0 else 0) := by
  refine wp_conseq (wp_larfgV (store := .Columnwise) hl hx hn (.inl fun i hi => ?_)) ?_
  · show ‖ventry ν x (skip .Forward i)‖ ≤ _
    unfold ventry
    rw [hg _ (skip_lt hi), Real.norm_eq_abs]
    exact hb _ (skip_lt hi)
  · rintro tau ν' ⟨fr, h⟩
    have r := reflRes_of (dir := .Forward) hn (b := ventry ν' x) (a := ventry ν x) h
    refine ⟨ventry ν' x, ⟨fun i hi => rfl, fr⟩, ?_, fun k hk => ?_⟩
    · have := r.unit
      simp only [hvec_swW, star_trivial] at this
      exact this
    · have := r.ann k hk
      simp only [hvec_swW, star_trivial, adjTau, pidx, if_true] at this
      rw [← this]
      unfold swH
      rw [show (∑ j ∈ range x.n, swW (ventry ν' x) j * g j) = ∑ j ∈ range x.n, swW (ventry ν' x) j * ventry ν x j from
        sum_congr rfl fun j hj => by rw [← hg j (mem_range.1 hj)]; rfl, ← hg k hk]
      show ventry ν x k - _ = _
      ring

theorem refl_orth {m : Nat} {t : ℝ} {w : Nat → ℝ} (h : t * t * (∑ k ∈ range m, w k * w k) = t + t) :
    mat m m (reflF t w) * (mat m m (reflF t w))ᵀ = 1 := by
  have := refl_unitary' (𝕜 := ℝ) (m := m) (t := t) (u := w) (by simpa using h)
  rwa [Matrix.conjTranspose_eq_transpose_of_trivial] at this

theorem swM_orth {l : Nat} (hl : 0 < l) {u1 u2 : Nat → ℝ} {t1 t2 : ℝ}
    (h1 : t1 * t1 * (∑ k ∈ range l, swW u1 k * swW u1 k) = t1 + t1)
    (h2 : t2 * t2 * (∑ k ∈ range (l - 1), swW u2 k * swW u2 k) = t2 + t2) : swM l u1 t1 u2 t2 * (swM l u1 t1 u2 t2)ᵀ = 1 := by
  have e1 := refl_orth h1
  have e2 : mat l l (reflF t2 (fun k => if k = 0 then 0 else swW u2 (k - 1))) * (mat l l (reflF t2 (fun k => if k = 0 then 0 else swW u2 (k - 1))))ᵀ = 1 := by
    refine refl_orth ?_
    obtain ⟨m, rfl⟩ : ∃ m, l = m + 1 := ⟨l - 1, by omega⟩
    rw [sum_range_succ', ← h2]
    simp
  unfold swM
  rw [Matrix.transpose_mul, Matrix.mul_assoc, ← Matrix.mul_assoc (mat l l (reflF t1 (swW u1))), e1, Matrix.one_mul, e2]

/-- Orthogonal matrices preserve the norm. -/
theorem swH_norm {l : Nat} {w : Nat → ℝ} {t : ℝ} (h : t * t * (∑ k ∈ range l, w k * w k) = t + t) (y : Nat → ℝ) :
    ∑ k ∈ range l, swH l w t y k ^ 2 = ∑ k ∈ range l, y k ^ 2 := by
  obtain ⟨S, hS⟩ : ∃ S, S = ∑ j ∈ range l, w j * y j := ⟨_, rfl⟩
  have e : ∀ k, swH l w t y k ^ 2 = y k ^ 2 - 2 * S * t * (w k * y k) + S * S * (t * t) * (w k * w k) := fun k => by
    unfold swH; rw [← hS]; ring
  simp only [e, sum_add_distrib, sum_sub_distrib, ← mul_sum]
  rw [← hS]
  linear_combination (S * S) * h

theorem swH_congr {l : Nat} {w w' : Nat → ℝ} {k : Nat} (hk : k < l) (h : ∀ k, k < l → w k = w' k) (t : ℝ) (y : Nat → ℝ) :
    swH l w t y k = swH l w' t y k := by
  unfold swH
  rw [h k hk, sum_congr rfl fun j hj => by rw [h j (mem_range.1 hj)]]

/-- What the pair of reflectors does with the columns `b0`, `b1` of `B`. -/
structure SwPair (l : Nat) (b0 b1 : Nat → ℝ) (g : (Nat → ℝ) × ℝ × (Nat → ℝ) × ℝ) : Prop where
  orth : swM l g.1 g.2.1 g.2.2.1 g.2.2.2 * (swM l g.1 g.2.1 g.2.2.1 g.2.2.2)ᵀ = 1
  z0 : ∀ k, 1 ≤ k → k < l → swP l g.1 g.2.1 g.2.2.1 g.2.2.2 b0 k = 0
  z1 : ∀ k, 2 ≤ k → k < l → swP l g.1 g.2.1 g.2.2.1 g.2.2.2 b1 k = 0

theorem wp_swGen (hl : HhLaws ℝ hp) {B : MatV L} (hB : B.Inj) (hm : 1 < B.m) (hn : B.n = 2) {μ ν : Store L ℝ} {F : Nat → Nat → ℝ}
    (h : MState B μ F ν) (hb : ∀ c, c < 2 → ∑ k ∈ range B.m, F k c ^ 2 ≤ hp.tbig ^ 2) :
    wp (swGen (hhOps (𝕜 := ℝ) hp) B) ν (fun g ν' => SwPair B.m (fun r => F r 0) (fun r => F r 1) g ∧ ∀ x, ¬ B.Owns x → ν' x = μ x) := by
  have ht : 0 ≤ hp.tbig := le_trans zero_le_one hl.tbig_one
  have bd : ∀ (y : Nat → ℝ), ∑ k ∈ range B.m, y k ^ 2 ≤ hp.tbig ^ 2 → ∀ k, k < B.m → |y k| ≤ hp.tbig := by
    intro y hy k hk
    refine abs_le_of_sq_le_sq (le_trans ?_ hy) ht
    exact single_le_sum (f := fun k => y k ^ 2) (fun i _ => sq_nonneg _) (mem_range.2 hk)
  unfold swGen
  simp only [wp_bind]
  refine wp_sliceCol (by omega) (by omega) (by omega) ?_
  refine wp_sliceCol (by omega) (by omega) (by omega) ?_
  have i0 : (B.colv 0 B.m 0).Inj := hB.colv (le_refl _) (by omega)
  have i1 : (B.colv 0 B.m 1).Inj := hB.colv (le_refl _) (by omega)
  have i2 : (B.colv 1 B.m 1).Inj := hB.colv (le_refl _) (by omega)
  have n0 : (B.colv 0 B.m 0).n = B.m := rfl
  have n1 : (B.colv 0 B.m 1).n = B.m := rfl
  have n2 : (B.colv 1 B.m 1).n = B.m - 1 := rfl
  have l1 := wp_larfgR hl i0 (by rw [n0]; omega) (ν := ν) (g := fun k => F k 0)
    (fun k hk => by rw [n0] at hk; have := h.val k 0 hk (by omega); simpa [MatV.colv] using this)
    (fun k hk => by rw [n0] at hk; exact bd (fun k => F k 0) (hb 0 (by omega)) k hk)
  rw [n0] at l1
  refine wp_conseq l1 ?_
  rintro t1 ν1 ⟨b1, s1, q1, a1⟩
  refine wp_rdVec fun u1 hu1 => ?_
  have hw1 : ∀ k, k < B.m → swW u1 k = swW b1 k := fun k hk => by
    unfold swW; rw [hu1 k hk, s1.val k hk]
  have hH1 : ∀ y k, k < B.m → swH B.m (swW u1) t1 y k = swH B.m (swW b1) t1 y k := fun y k hk => by
    unfold swH
    rw [hw1 k hk, sum_congr rfl fun j hj => by rw [hw1 j (mem_range.1 hj)]]
  have m1 := h.liftCol hB (le_refl _) (by omega) s1
  refine wp_sliceCol (by omega) (by omega) (by omega) ?_
  refine wp_conseq (wp_swRefl i1 (by rw [n1]; omega) u1 t1 ν1 (g := fun k => F k 1) fun k hk => ?_) ?_
  · rw [n1] at hk
    have := m1.val k 1 hk (by omega)
    rw [if_neg (by omega)] at this
    simpa [MatV.colv] using this
  intro _ ν2 s2
  rw [n1] at s2
  have m2 := m1.liftCol hB (le_refl _) (by omega) s2
  have q1' : t1 * t1 * (∑ k ∈ range B.m, swW u1 k * swW u1 k) = t1 + t1 := by
    rw [← q1, sum_congr rfl fun j hj => by rw [hw1 j (mem_range.1 hj)]]
  have l2 := wp_larfgR hl i2 (by rw [n2]; omega) (ν := ν2) (g := fun k => swH B.m (swW u1) t1 (fun k => F k 1) (1 + k))
    (fun k hk => by
      rw [n2] at hk
      have := m2.val (1 + k) 1 (by omega) (by omega)
      rw [if_pos ⟨rfl, by omega⟩] at this
      simpa [MatV.colv] using this)
    (fun k hk => by
      rw [n2] at hk
      exact bd _ (by rw [swH_norm q1']; exact hb 1 (by omega)) (1 + k) (by omega))
  rw [n2] at l2
  refine wp_conseq l2 ?_
  rintro t2 ν3 ⟨b2, s3, q2, a2⟩
  have m3 := m2.liftCol hB (le_refl _) (by omega) s3
  refine wp_rdVec fun u2 hu2 => ?_
  rw [n2] at hu2
  have hw2 : ∀ k, k < B.m - 1 → swW u2 k = swW b2 k := fun k hk => by
    unfold swW; rw [hu2 k hk, s3.val k hk]
  rw [wp_pure]
  refine ⟨⟨swM_orth (by omega) q1' ?_, fun k h1 h2 => ?_, fun k h1 h2 => ?_⟩, m3.frame⟩
  · rw [← q2, sum_congr rfl fun j hj => by rw [hw2 j (mem_range.1 hj)]]
  · have z : ∀ i, i < B.m - 1 → swH B.m (swW u1) t1 (fun r => F r 0) (1 + i) = 0 := fun i hi => by
      rw [hH1 _ _ (by omega), a1 _ (by omega), if_neg (by omega)]
    unfold swP
    dsimp only
    rw [if_pos h1]
    obtain ⟨y, hy⟩ : ∃ y, y = swH B.m (swW u1) t1 (fun r => F r 0) := ⟨_, rfl⟩
    rw [← hy] at z ⊢
    unfold swH
    beta_reduce
    rw [z (k - 1) (by omega), sum_eq_zero fun j hj => by rw [z j (mem_range.1 hj), mul_zero]]
    ring
  · unfold swP
    dsimp only
    rw [if_pos (by omega)]
    have := a2 (k - 1) (by omega)
    rw [if_neg (by omega)] at this
    rw [← this]
    exact swH_congr (by omega) hw2 _ _

end TLA
