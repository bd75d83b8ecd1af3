import Verif.Proofs.Region
import Verif.Proofs.SubView
import Verif.Props.Examples

/-! # C25: recursive transposition -/

set_option linter.unusedTactic false
set_option linter.unreachableTactic false

namespace TLA
variable {L T : Type} [DecidableEq L]

theorem wp_transposeRec (f : T → T) (nx : Nat) (hnx : 2 ≤ nx) (s : Nat) :
    ∀ (A B : MatV L) (μ : Store L T), A.m + A.n = s → A.m = B.n → A.n = B.m → B.Inj → A.Disj B →
    wp (transposeRec f nx A B) μ (fun _ ν => MState B μ (fun j i => f (entry μ A i j)) ν) := by
  induction s using Nat.strong_induction_on with
  | _ s ih =>
  intro A B μ hs hm hn hB hd
  have h0 : MState B μ (entry μ B) μ := MState.init B μ _ (fun _ _ _ _ => rfl)
  rw [transposeRec]
  simp only [wp_bind, wp_check, hm, hn, hnx, ge_iff_le, decide_true, if_true]
  split
  · refine wp_conseq (wp_region (fun j i => f (entry μ A i j)) h0 hB (le_refl _)
      (fun j _ _ _ => le_refl _) ?_) ?_
    · intro i j ν _ hi _ hj hν
      simp only [wp_bind, wp_get, wp_set]
      rw [hν.read hd (by omega) (by omega)]
      exact ⟨by omega, by omega, rfl⟩
    · intro _ ν h
      exact h.congr (fun j i hj hi => by rw [if_pos (by omega)])
  · rename_i hlt
    simp only [wp_bind]
    refine wp_sliceChk (by omega) (by omega) (by omega) (by omega) ?_
    refine wp_sliceChk (by omega) (by omega) (by omega) (by omega) ?_
    refine wp_sliceChk (by omega) (by omega) (by omega) (by omega) ?_
    refine wp_sliceChk (by omega) (by omega) (by omega) (by omega) ?_
    refine wp_sliceChk (by omega) (by omega) (by omega) (by omega) ?_
    refine wp_sliceChk (by omega) (by omega) (by omega) (by omega) ?_
    refine wp_sliceChk (by omega) (by omega) (by omega) (by omega) ?_
    refine wp_sliceChk (by omega) (by omega) (by omega) (by omega) ?_
    have key : ∀ (r0 r1 c0 c1 : Nat), r1 ≤ B.n → c1 ≤ B.m → r1 - r0 + (c1 - c0) < s →
        ∀ (G : Nat → Nat → T) (ν : Store L T), MState B μ G ν →
        wp (transposeRec f nx (A.sub r0 r1 c0 c1) (B.sub c0 c1 r0 r1)) ν (fun _ ν' =>
          MState B μ (fun j i => if (c0 ≤ j ∧ j < c1) ∧ (r0 ≤ i ∧ i < r1) then f (entry μ A i j)
            else G j i) ν') := by
      intro r0 r1 c0 c1 hr1 hc1 hlt G ν hν
      refine wp_conseq (ih _ hlt _ _ ν rfl rfl rfl (hB.sub hc1 hr1)
        ((hd.sub_left (by omega) (by omega)).sub_right hc1 hr1)) (fun _ ν' h' => ?_)
      refine (hν.lift hB hc1 hr1 h').congr (fun j i hj hi => ?_)
      by_cases hin : (c0 ≤ j ∧ j < c1) ∧ (r0 ≤ i ∧ i < r1)
      · rw [if_pos hin, if_pos hin]
        show _ = f (ν (A.cell (r0 + (i - r0)) (c0 + (j - c0))))
        rw [show r0 + (i - r0) = i by omega, show c0 + (j - c0) = j by omega,
          hν.read hd (by omega) (by omega)]
        rfl
      · rw [if_neg hin, if_neg hin]
    refine wp_conseq (key 0 (B.n / 2) 0 (B.m / 2) (by omega) (by omega) (by omega) _ μ h0)
      (fun _ ν1 h1 => ?_)
    refine wp_conseq (key 0 (B.n / 2) (B.m / 2) B.m (by omega) (by omega) (by omega) _ ν1 h1)
      (fun _ ν2 h2 => ?_)
    refine wp_conseq (key (B.n / 2) B.n 0 (B.m / 2) (by omega) (by omega) (by omega) _ ν2 h2)
      (fun _ ν3 h3 => ?_)
    refine wp_conseq (key (B.n / 2) B.n (B.m / 2) B.m (by omega) (by omega) (by omega) _ ν3 h3)
      (fun _ ν4 h4 => h4.congr (fun j i hj hi => ?_))
    by_cases a : j < B.m / 2 <;> by_cases b : i < B.n / 2
    · rw [if_neg (by omega), if_neg (by omega), if_neg (by omega), if_pos (by omega)]
    · rw [if_neg (by omega), if_pos (by omega)]
    · rw [if_neg (by omega), if_neg (by omega), if_pos (by omega)]
    · rw [if_pos (by omega)]

/-- **C25** `transpose` terminates, sets `B = Aᵀ` and writes nothing else, for every block
threshold `nx ≥ 2` and every shape. -/
theorem C25_transpose (nx : Nat) (hnx : 2 ≤ nx) (A B : MatV L) (hm : A.m = B.n) (hn : A.n = B.m)
    (hB : B.Inj) (hd : A.Disj B) (μ : Store L T) :
    ∃ ν, transposeRec id nx A B μ = (.ok (), ν) ∧
      mat A.n A.m (entry ν B) = (mat A.m A.n (entry μ A)).transpose ∧
      ∀ l, ¬ B.Owns l → ν l = μ l := by
  obtain ⟨ν, e, h⟩ := wp_unit (wp_transposeRec id nx hnx _ A B μ rfl hm hn hB hd)
  exact ⟨ν, e, by funext j i; exact h.val j i (by omega) (by omega), h.frame⟩

/-- **C25** `conjtranspose` sets `B = Aᴴ`. -/
theorem C25_conjtranspose [Star T] (nx : Nat) (hnx : 2 ≤ nx) (A B : MatV L) (hm : A.m = B.n)
    (hn : A.n = B.m) (hB : B.Inj) (hd : A.Disj B) (μ : Store L T) :
    ∃ ν, transposeRec star nx A B μ = (.ok (), ν) ∧
      mat A.n A.m (entry ν B) = (mat A.m A.n (entry μ A)).conjTranspose ∧
      ∀ l, ¬ B.Owns l → ν l = μ l := by
  obtain ⟨ν, e, h⟩ := wp_unit (wp_transposeRec star nx hnx _ A B μ rfl hm hn hB hd)
  exact ⟨ν, e, by funext j i; exact h.val j i (by omega) (by omega), h.frame⟩

/-- **C25** wrong sizes or a threshold below 2 are rejected with nothing written. -/
theorem C25_rejected (f : T → T) (nx : Nat) (A B : MatV L) (μ : Store L T)
    (h : A.m ≠ B.n ∨ A.n ≠ B.m ∨ nx < 2) : transposeRec f nx A B μ = (.error .check, μ) := by
  have : wp (transposeRec f nx A B) μ (fun _ _ => False) (fun e ν => e = .check ∧ ν = μ) := by
    rw [transposeRec]
    simp only [wp_bind, wp_check]
    by_cases h1 : A.m = B.n
    · by_cases h2 : A.n = B.m
      · have h3 : ¬ nx ≥ 2 := by omega
        simp [h1, h2, h3]
      · simp [h1, h2]
    · simp [h1]
  unfold wp at this
  rcases hx : transposeRec f nx A B μ with ⟨r, ν⟩
  rw [hx] at this
  cases r with
  | ok a => exact this.elim
  | error e' => obtain ⟨rfl, rfl⟩ := this; rfl

example : (mkM 0 7 5).m = (mkM 1 5 7).n ∧ (mkM 0 7 5).n = (mkM 1 5 7).m ∧ (mkM 1 5 7).Inj ∧
    (mkM 0 7 5).Disj (mkM 1 5 7) := by
  refine ⟨rfl, rfl, ?_, ?_⟩ <;> adm

end TLA
