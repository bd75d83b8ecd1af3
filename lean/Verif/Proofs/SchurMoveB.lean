import Verif.Proofs.SchurMoveA

set_option linter.unusedTactic false
set_option linter.unusedSectionVars false
set_option linter.unusedVariables false
set_option linter.unreachableTactic false
set_option linter.unusedSimpArgs false

/-! schur_move for real matrices: the loops. -/

namespace TLA
open Matrix Finset
variable {L : Type} [DecidableEq L] {hp : HhPar}
variable {wantq : Bool} {A Q B V D : MatV L} {μ ν : Store L ℝ} {F G : Nat → Nat → ℝ} {n j e b n1 n2 : Nat} {l l1 l2 p q : List Nat}

theorem MovedDown.refl {α : Type} {a : Nat} {ps : List α} (h : a < ps.length) : MovedDown a 0 ps ps := by
  refine ⟨ps.take a, ps[a], [], ps.drop (a + 1), by simp; omega, rfl, ?_, ?_⟩ <;> simp

theorem MovedDown.step {α : Type} {a m : Nat} {P : List α} {x y : α} {P' qs : List α} (hP : P.length = a)
    (h : MovedDown (a + 1) m (P ++ y :: x :: P') qs) : MovedDown a (m + 1) (P ++ x :: y :: P') qs := by
  obtain ⟨P1, z, P2, P3, e1, e2, e3, rfl⟩ := h
  have e4 : (P ++ [y]) ++ x :: P' = P1 ++ z :: (P2 ++ P3) := by simpa using e3
  obtain ⟨rfl, e5⟩ := List.append_inj e4 (by simp [hP, e1])
  simp only [List.cons.injEq] at e5
  obtain ⟨rfl, rfl⟩ := e5
  exact ⟨P, x, y :: P2, P3, hP, by simp [e2], by simp, by simp⟩

theorem MovedDown.stepUp {α : Type} {a m : Nat} {P : List α} {x y : α} {P' qs : List α} (hP : P.length = a + m)
    (h : MovedDown a m qs (P ++ y :: x :: P')) : MovedDown a (m + 1) qs (P ++ x :: y :: P') := by
  obtain ⟨P1, z, P2, P3, e1, e2, rfl, e3⟩ := h
  have e4 : P ++ y :: x :: P' = (P1 ++ P2) ++ z :: P3 := by simpa using e3
  obtain ⟨rfl, e5⟩ := List.append_inj e4 (by simp [hP, e1, e2])
  simp only [List.cons.injEq] at e5
  obtain ⟨rfl, rfl⟩ := e5
  exact ⟨P1, y, P2 ++ [x], P', e1, by simp [e2], by simp, by simp⟩

theorem RSchur.at (h : RSchur n F 0 (p ++ b :: q)) : (b = 1 ∨ b = 2 ∧ StdBlk F p.sum) ∧ p.sum + b ≤ n ∧
    (∀ r k, p.sum ≤ r → r < n → k < p.sum → F r k = 0) ∧ (∀ r k, p.sum + b ≤ r → r < n → k < p.sum + b → F r k = 0) := by
  obtain ⟨hp, h1, z1, hq⟩ := RTo_append.1 (RSchur_iff.1 h)
  rw [Nat.zero_add] at hp h1 z1 hq
  have := hq.sum
  refine ⟨h1, by omega, fun r k a1 a2 a3 => hp.below r k a1 a2 (by omega) a3, fun r k a1 a2 a3 => ?_⟩
  by_cases hk : k < p.sum
  · exact hp.below r k (by omega) a2 (by omega) hk
  · exact z1 r k a1 a2 (by omega) a3

theorem RSchur.blkAt (h : RSchur n F 0 (p ++ b :: q)) : TLA.blkAt n F p.sum = b := by
  obtain ⟨h1, hn, -, z⟩ := h.at
  unfold TLA.blkAt
  rcases h1 with rfl | ⟨rfl, st⟩
  · rw [if_neg]
    rintro ⟨a, b⟩
    exact b (z _ _ (le_refl _) a (by omega))
  · rw [if_pos ⟨by omega, st.ne⟩]

theorem RSchur.blkAbove (h : RSchur n F 0 (p ++ b :: q)) : TLA.blkAbove F (p.sum + b) = b := by
  obtain ⟨h1, hn, z, -⟩ := h.at
  unfold TLA.blkAbove
  rcases h1 with rfl | ⟨rfl, st⟩
  · rw [if_neg]
    rintro ⟨a, c⟩
    rw [show p.sum + 1 - 1 = p.sum by omega] at c
    exact c (z _ _ (le_refl _) (by omega) (by omega))
  · rw [if_pos ⟨by omega, by
      rw [show p.sum + 2 - 1 = p.sum + 1 by omega, show p.sum + 2 - 2 = p.sum by omega]
      exact st.ne⟩]

theorem smSize_run {A : MatV L} (hA : A.m = A.n) (i : Nat) (μ : Store L ℝ) : smSize A i μ = (.ok (blkAt A.n (entry μ A) i), μ) := by
  have key : wp (smSize A i) μ (fun x ν => x = blkAt A.n (entry μ A) i ∧ ν = μ) := by
    unfold smSize blkAt
    rw [wp_ite]
    split
    · next h =>
      rw [wp_bind]
      refine wp_getE ⟨by omega, by omega⟩ ?_
      rw [wp_pure]
      refine ⟨?_, rfl⟩
      change (if entry μ A (i + 1) i ≠ 0 then 2 else 1) = _
      by_cases hx : entry μ A (i + 1) i = 0
      · rw [if_neg (by simpa using hx), if_neg fun a => a.2 hx]
      · rw [if_pos hx, if_pos ⟨h, hx⟩]
    · next h => rw [wp_pure]; exact ⟨by rw [if_neg fun a => h a.1], rfl⟩
  obtain ⟨_, _, e, rfl, rfl⟩ := wp_iff.1 key
  exact e

theorem smPrev_run {A : MatV L} (hA : A.m = A.n) {i : Nat} (hi : i ≤ A.n) (μ : Store L ℝ) : smPrev A i μ = (.ok (blkAbove (entry μ A) i), μ) := by
  have key : wp (smPrev A i) μ (fun x ν => x = blkAbove (entry μ A) i ∧ ν = μ) := by
    unfold smPrev blkAbove
    rw [wp_ite]
    split
    · next h =>
      rw [wp_bind]
      refine wp_getE ⟨by omega, by omega⟩ ?_
      rw [wp_pure]
      refine ⟨?_, rfl⟩
      change (if entry μ A (i - 1) (i - 2) ≠ 0 then 2 else 1) = _
      by_cases hx : entry μ A (i - 1) (i - 2) = 0
      · rw [if_neg (by simpa using hx), if_neg fun a => a.2 hx]
      · rw [if_pos hx, if_pos ⟨h, hx⟩]
    · next h => rw [wp_pure]; exact ⟨by rw [if_neg fun a => h a.1], rfl⟩
  obtain ⟨_, _, e, rfl, rfl⟩ := wp_iff.1 key
  exact e

theorem smFirst_run {A : MatV L} (hA : A.m = A.n) {i : Nat} (h : RSchur A.n (entry μ A) 0 (p ++ b :: q)) (hi : InBlkRow p.sum b i) :
    smFirst A i μ = (.ok p.sum, μ) := by
  obtain ⟨h1, hn, z, -⟩ := h.at
  obtain ⟨i1, i2⟩ := hi
  have key : wp (smFirst A i) μ (fun x ν => x = p.sum ∧ ν = μ) := by
    unfold smFirst
    rw [wp_ite]
    split
    · next h =>
      rw [wp_bind]
      refine wp_getE ⟨by omega, by omega⟩ ?_
      rw [wp_pure]
      refine ⟨?_, rfl⟩
      change (if entry μ A i (i - 1) ≠ 0 then i - 1 else i) = _
      by_cases e : i = p.sum
      · rw [e, if_neg (by simpa using z _ _ (le_refl _) (by omega) (by omega))]
      · obtain ⟨rfl, st⟩ : b = 2 ∧ StdBlk (entry μ A) p.sum := by
          rcases h1 with rfl | h1
          · omega
          · exact h1
        obtain rfl : i = p.sum + 1 := by omega
        rw [show p.sum + 1 - 1 = p.sum by omega, if_pos st.ne]
    · next h => rw [wp_pure]; exact ⟨by omega, rfl⟩
  obtain ⟨_, _, e, rfl, rfl⟩ := wp_iff.1 key
  exact e

section
variable {ro : RotOps ℝ} {pr : Kernel.SchurPar} {eps small : ℝ}

theorem smDown_run (hl : HhLaws ℝ hp) (ho : RotLaws ro) (he : 0 < pr.eps) (hm : 0 < pr.safmn2) (hs : 0 < small) (ok : SchurOK wantq A Q)
    (sc : SwScr wantq A Q B V D) {run : Nat → Nat → Nat → M L ℝ Nat} (hrun : run = schurSwapR (hhOps (𝕜 := ℝ) hp) ro pr eps small wantq A Q B V D) {h : Nat} {μ : Store L ℝ} (last : Nat)
    (H : ∀ i ν, DownReach run A b h last μ i ν → i ≠ last → StepOK hp ro eps small wantq A Q B V D i b (blkAt A.n (entry ν A) (i + b)) ν) (l3 : List Nat) :
    ∀ (l2 : List Nat) (fuel : Nat) (l1 : List Nat) (ν : Store L ℝ), RSchur A.n (entry ν A) 0 (l1 ++ b :: (l2 ++ l3)) → l2.length < fuel →
      last = l1.sum + l2.sum → DownReach run A b h last μ l1.sum ν →
      ∃ ν', smDown run A b last fuel l1.sum ν = (.ok (0, last), ν') ∧ RSchur A.n (entry ν' A) 0 (l1 ++ (l2 ++ b :: l3)) ∧ SimTo wantq A Q B V D ν ν' ∧
        MovedDown l1.length l2.length (blkPolys (entry ν A) 0 (l1 ++ b :: (l2 ++ l3))) (blkPolys (entry ν' A) 0 (l1 ++ (l2 ++ b :: l3))) := by
  intro l2
  induction l2 with
  | nil =>
    intro fuel l1 ν hR hf hL _
    obtain ⟨f, rfl⟩ : ∃ f, fuel = f + 1 := ⟨fuel - 1, by simp at hf; omega⟩
    refine ⟨ν, ?_, hR, SimTo.refl, MovedDown.refl (by simp [blkPolys_length])⟩
    simp only [List.sum_nil, Nat.add_zero] at hL
    unfold smDown
    rw [if_neg (by simpa using hL.symm)]
    rw [hL]; rfl
  | cons c l2 ih =>
    intro fuel l1 ν hR hf hL hD
    obtain ⟨f, rfl⟩ : ∃ f, fuel = f + 1 := ⟨fuel - 1, by simp at hf; omega⟩
    have hR' : RSchur A.n (entry ν A) 0 (l1 ++ b :: c :: (l2 ++ l3)) := by simpa using hR
    have hc : blkAt A.n (entry ν A) (l1.sum + b) = c := by
      have : RSchur A.n (entry ν A) 0 ((l1 ++ [b]) ++ c :: (l2 ++ l3)) := by simpa using hR
      have := this.blkAt
      simpa using this
    have hc0 : 1 ≤ c := by
      rcases hR'.win.2.2.1 with e | e <;> omega
    simp only [List.sum_cons] at hL
    have hne : l1.sum ≠ last := by omega
    have hst := H _ _ hD hne
    rw [hc] at hst
    obtain ⟨ν1, e1, R1, S1, P, x, y, P', hP, p1, p2⟩ := swap_step hl ho he hm hs ok sc hR' hst
    rw [← hrun] at e1
    have hD' := DownReach.step hD hne (by rw [hc]; exact e1)
    rw [hc] at hD'
    have s1 : (l1 ++ [c]).sum = l1.sum + c := by simp
    obtain ⟨ν', e2, R2, S2, M2⟩ := ih f (l1 ++ [c]) ν1 (by simpa using R1) (by simpa using hf) (by rw [s1]; omega) (by rw [s1]; exact hD')
    refine ⟨ν', ?_, by simpa using R2, S1.trans S2, ?_⟩
    · unfold smDown
      rw [if_pos hne]
      rw [s1] at e2
      have t : ∀ K : Nat → M L ℝ (Nat × Nat), (smSize A (l1.sum + b) >>= K) ν = K c ν := by
        intro K
        show M.bind _ _ _ = _
        unfold M.bind
        rw [smSize_run ok.Am, hc]
      rw [t]
      have t2 : ∀ K : Nat → M L ℝ (Nat × Nat), (run l1.sum b c >>= K) ν = K 0 ν1 := by
        intro K
        show M.bind _ _ _ = _
        unfold M.bind
        rw [e1]
      rw [t2, if_neg (by simp)]
      exact e2
    · simp only [List.append_assoc, List.singleton_append, List.length_append, List.length_singleton, List.cons_append, List.nil_append] at M2
      simp only [List.length_cons, List.cons_append]
      rw [p1]
      rw [p2] at M2
      exact MovedDown.step hP M2

theorem smUp_run (hl : HhLaws ℝ hp) (ho : RotLaws ro) (he : 0 < pr.eps) (hm : 0 < pr.safmn2) (hs : 0 < small) (ok : SchurOK wantq A Q)
    (sc : SwScr wantq A Q B V D) {run : Nat → Nat → Nat → M L ℝ Nat} (hrun : run = schurSwapR (hhOps (𝕜 := ℝ) hp) ro pr eps small wantq A Q B V D) {h : Nat} {μ : Store L ℝ} (l1 : List Nat)
    (H : ∀ i ν, UpReach run A b h l1.sum μ i ν → i ≠ l1.sum → StepOK hp ro eps small wantq A Q B V D (i - blkAbove (entry ν A) i) (blkAbove (entry ν A) i) b ν) :
    ∀ (fuel : Nat) (l2 l3 : List Nat) (ν : Store L ℝ), RSchur A.n (entry ν A) 0 (l1 ++ (l2 ++ b :: l3)) → l2.length < fuel →
      UpReach run A b h l1.sum μ (l1.sum + l2.sum) ν →
      ∃ ν', smUp run A b l1.sum fuel (l1.sum + l2.sum) ν = (.ok (0, l1.sum), ν') ∧ RSchur A.n (entry ν' A) 0 (l1 ++ b :: (l2 ++ l3)) ∧
        SimTo wantq A Q B V D ν ν' ∧
        MovedDown l1.length l2.length (blkPolys (entry ν' A) 0 (l1 ++ b :: (l2 ++ l3))) (blkPolys (entry ν A) 0 (l1 ++ (l2 ++ b :: l3))) := by
  intro fuel
  induction fuel with
  | zero => intro l2 l3 ν _ h; omega
  | succ f ih =>
    intro l2 l3 ν hR hf hD
    rcases List.eq_nil_or_concat l2 with rfl | ⟨l2, c, rfl⟩
    · refine ⟨ν, ?_, hR, SimTo.refl, MovedDown.refl (by simp [blkPolys_length])⟩
      unfold smUp
      rw [if_neg (by simp)]
      rfl
    · rw [List.concat_eq_append] at hR hf hD ⊢
      have hR' : RSchur A.n (entry ν A) 0 ((l1 ++ l2) ++ c :: b :: l3) := by simpa using hR
      have ss : l1.sum + (l2 ++ [c]).sum = (l1 ++ l2).sum + c := by simp; omega
      rw [ss] at hD ⊢
      have hc : blkAbove (entry ν A) ((l1 ++ l2).sum + c) = c := hR'.blkAbove
      have hc0 : 1 ≤ c := by
        rcases hR'.win.2.1 with e | e <;> omega
      have s2 : (l1 ++ l2).sum = l1.sum + l2.sum := by simp
      have hne : (l1 ++ l2).sum + c ≠ l1.sum := by omega
      have hst := H _ _ hD hne
      rw [hc, Nat.add_sub_cancel] at hst
      obtain ⟨ν1, e1, R1, S1, P, x, y, P', hP, p1, p2⟩ := swap_step hl ho he hm hs ok sc hR' hst
      rw [← hrun] at e1
      have hD' := UpReach.step hD hne (by rw [hc, Nat.add_sub_cancel]; exact e1)
      rw [hc, Nat.add_sub_cancel, s2] at hD'
      obtain ⟨ν', e2, R2, S2, M2⟩ := ih l2 (c :: l3) ν1 (by simpa using R1) (by simpa using hf) hD'
      have hle := hR'.win.2.2.2.1
      refine ⟨ν', ?_, by simpa using R2, S1.trans S2, ?_⟩
      · unfold smUp
        rw [if_pos hne]
        have t : ∀ K : Nat → M L ℝ (Nat × Nat), (smPrev A ((l1 ++ l2).sum + c) >>= K) ν = K c ν := by
          intro K
          show M.bind _ _ _ = _
          unfold M.bind
          rw [smPrev_run ok.Am (by omega), hc]
        rw [t, if_neg (by omega), Nat.add_sub_cancel]
        have t2 : ∀ K : Nat → M L ℝ (Nat × Nat), (run (l1 ++ l2).sum c b >>= K) ν = K 0 ν1 := by
          intro K
          show M.bind _ _ _ = _
          unfold M.bind
          rw [e1]
        rw [t2, if_neg (by simp), s2]
        exact e2
      · have q1 : l1 ++ (l2 ++ [c] ++ b :: l3) = (l1 ++ l2) ++ c :: b :: l3 := by simp
        have q2 : l1 ++ b :: (l2 ++ [c] ++ l3) = l1 ++ b :: (l2 ++ c :: l3) := by simp
        have q3 : (l1 ++ l2) ++ b :: c :: l3 = l1 ++ (l2 ++ b :: c :: l3) := by simp
        rw [List.length_append, List.length_singleton, q1, q2, p1]
        rw [← q3, p2] at M2
        exact MovedDown.stepUp (by simpa using hP) M2

end
end TLA
