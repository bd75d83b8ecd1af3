import Verif.Proofs.LabrdStepL

/-! # labrd: the panel -/

set_option linter.unusedSectionVars false
set_option linter.unusedTactic false
set_option linter.unreachableTactic false
set_option linter.unusedVariables false

namespace TLA
open Finset
variable {L 𝕜 : Type} [DecidableEq L] [RCLike 𝕜] [DecidableEq 𝕜] {p : HhPar}
variable {A X Y : MatV L} {m n nb : Nat}

theorem glue_at (s : Nat) (g G : Nat → Nat → 𝕜) (r c : Nat) : glue s g G (s + r) (s + c) = G r c := by
  unfold glue
  rw [if_neg (by omega), Nat.add_sub_cancel_left, Nat.add_sub_cancel_left]

theorem virtF_zero (a x y : Nat → Nat → 𝕜) : virtF 0 0 a x y = a := by
  funext r c
  unfold virtF
  simp

theorem StepOut.mid {M N s i : Nat} {A0 g a x y a' x' y' : Nat → Nat → 𝕜} {v w v' w' : Nat → 𝕜} {t : 𝕜} {H : Nat → Nat → 𝕜}
    (h : BInv (s + M) (s + N) A0 (s + i) (s + i) (glue s g (virtF i i a x y)) v w) (hN : N ≤ M) (hi : i < N)
    (cs : ColStep M N i i M i (i + 1) N t (virtF i i a x y) H)
    (hv : ∀ j, j < s + i → v' j = v j) (hv' : v' (s + i) = t) (hw : ∀ j, j < s + i → w' j = w j) :
    BInv (s + M) (s + N) A0 (s + i + 1) (s + i) (glue s g H) v' w' :=
  h.col (by omega) (by omega) (cs.glue (s0 := s) (s := s) (g := g) (by omega) hi) hv hv' hw

theorem StepOut.inv {M N s i : Nat} {A0 g a x y a' x' y' : Nat → Nat → 𝕜} {v w v' w' : Nat → 𝕜} {t u : 𝕜}
    (h : BInv (s + M) (s + N) A0 (s + i) (s + i) (glue s g (virtF i i a x y)) v w) (hN : N ≤ M) (hi : i < N)
    (so : StepOut M N i t u a x y a' x' y')
    (hv : ∀ j, j < s + i → v' j = v j) (hv' : v' (s + i) = t) (hw : ∀ j, j < s + i → w' j = w j) (hw' : w' (s + i) = u) :
    BInv (s + M) (s + N) A0 (s + i + 1) (s + i + 1) (glue s g (virtF (i + 1) (i + 1) a' x' y')) v' w' := by
  obtain ⟨H, cs, h1, h2⟩ := so
  have mid := StepOut.mid (a' := a') (x' := x') (y' := y') h hN hi cs hv hv' hw
  by_cases e : i + 1 < N
  · have := (h1 e).glue (s0 := s) (s := s) (g := starT g) (by omega) (by omega)
    rw [← glue_starT, ← glue_starT] at this
    exact mid.row (by omega) (by omega) this (fun _ _ => rfl) hw' (fun _ _ => rfl)
  · have e' : i + 1 = N := by omega
    refine (mid.last' (v' := v') (w' := w') (by omega) (fun _ _ => rfl) (fun _ _ => rfl)).congrG ?_ (by omega) (by omega)
    intro r c hr hc
    unfold glue
    by_cases hh : r < s ∨ c < s
    · rw [if_pos hh, if_pos hh]
    · rw [if_neg hh, if_neg hh, h2 e' _ _ (by omega) (by omega)]

/-- The bounds a step needs. -/
theorem BInv.vb1 {M N s i : Nat} {A0 g a x y : Nat → Nat → 𝕜} {v w : Nat → 𝕜} {b : ℝ}
    (h : BInv (s + M) (s + N) A0 (s + i) (s + i) (glue s g (virtF i i a x y)) v w) (hi : i < N) (hb : 0 ≤ b)
    (hf : frobSq (s + M) (s + N) A0 ≤ b ^ 2) : ∀ r, i ≤ r → r < M → ‖virtF i i a x y r i‖ ≤ b := by
  intro r h0 h1
  have := h.bound hb hf (r := s + r) (c := s + i) (by omega) (by omega) (by unfold bz; omega)
  rwa [glue_at] at this

theorem BInv.vb2 {M N s i : Nat} {A0 g a x y : Nat → Nat → 𝕜} {v w : Nat → 𝕜} {b : ℝ}
    (h : BInv (s + M) (s + N) A0 (s + i) (s + i) (glue s g (virtF i i a x y)) v w) (hN : N ≤ M) (hi : i < N) (hb : 0 ≤ b)
    (hf : frobSq (s + M) (s + N) A0 ≤ b ^ 2) : ∀ t G2, ColStep M N i i M i (i + 1) N t (virtF i i a x y) G2 → ∀ c, i < c → c < N → ‖G2 i c‖ ≤ b := by
  intro t G2 cs c h0 h1
  have mid := StepOut.mid (a' := a) (x' := x) (y' := y) (v' := fun j => if j = s + i then t else v j) (w' := w) h hN hi cs
    (fun j hj => if_neg (by omega)) (if_pos rfl) (fun _ _ => rfl)
  have := mid.bound hb hf (r := s + i) (c := s + c) (by omega) (by omega) (by unfold bz; omega)
  rwa [glue_at] at this

theorem BInv.vre {M N s i : Nat} {A0 g a x y : Nat → Nat → 𝕜} {v w : Nat → 𝕜}
    (h : BInv (s + M) (s + N) A0 (s + i) (s + i) (glue s g (virtF i i a x y)) v w) (hi : i < N) :
    0 < i → star (a (i - 1) i) = a (i - 1) i := by
  intro h0
  have := h.reale (s + (i - 1)) (by omega) (by omega)
  rw [show s + (i - 1) + 1 = s + i by omega, glue_at] at this
  unfold virtF at this
  rwa [if_pos (by omega)] at this

/-- The vectors of scalar factors and the panel. -/
structure PTau (A X Y : MatV L) (tauv tauw : VecV L) (s nb : Nat) : Prop where
  hq : ∀ i, i < tauv.n → ∀ k, ¬ (B3 A X Y k).Owns (tauv.cell i)
  hp : ∀ i, i < tauw.n → ∀ k, ¬ (B3 A X Y k).Owns (tauw.cell i)
  qp : ∀ i j, i < tauv.n → j < tauw.n → tauv.cell i ≠ tauw.cell j
  jq : tauv.Inj
  jp : tauw.Inj
  iq : s + nb ≤ tauv.n
  ip : s + nb ≤ tauw.n

theorem PTau.tk {tauv tauw : VecV L} {s nb i : Nat} (h : PTau A X Y tauv tauw s nb) (hi : i < nb) :
    TauOK A X Y (tauv.sub s (s + nb)) (tauw.sub s (s + nb)) i := by
  obtain ⟨hq, hp, qp, jq, jp, iq, ip⟩ := h
  refine ⟨fun j hj k => ?_, fun j hj k => ?_, fun j j' hj hj' => ?_, by simp [VecV.sub]; omega, by simp [VecV.sub]; omega⟩ <;> simp only [VecV.sub] at *
  · exact hq _ (by omega) k
  · exact hp _ (by omega) k
  · exact qp _ _ (by omega) (by omega)

/-- What the panel has done after `i` steps, for the matrix (`tr = false`) or its conjugate transpose. -/
structure PanInv (M N s : Nat) (A0 g : Nat → Nat → 𝕜) (A X Y : MatV L) (tauv tauw : VecV L) (tr : Bool) (nb : Nat) (ν0 : Store L 𝕜) (i : Nat) (ν : Store L 𝕜) : Prop where
  ex : ∃ f, LS (B3 A X Y) f ν ∧
    (if tr then BInv (s + N) (s + M) A0 (s + i) (s + i) (glue s g (virtF i i (starT (f .a)) (f .y) (f .x))) (ventry ν tauw) (ventry ν tauv)
     else BInv (s + M) (s + N) A0 (s + i) (s + i) (glue s g (virtF i i (f .a) (f .x) (f .y))) (ventry ν tauv) (ventry ν tauw))
  frame : ∀ l, (∀ k, ¬ (B3 A X Y k).Owns l) → ¬ (tauv.sub s (s + nb)).Owns l → ¬ (tauw.sub s (s + nb)).Owns l → ν l = ν0 l

theorem PTau.old {tauv tauw : VecV L} {s i : Nat} (h : PTau A X Y tauv tauw s nb) (hi : i < nb) {ν ν' : Store L 𝕜}
    (fr : ∀ l, (∀ k, ¬ (B3 A X Y k).Owns l) → l ≠ (tauv.sub s (s + nb)).cell i → l ≠ (tauw.sub s (s + nb)).cell i → ν' l = ν l) :
    (∀ j, j < s + i → ventry ν' tauv j = ventry ν tauv j) ∧ (∀ j, j < s + i → ventry ν' tauw j = ventry ν tauw j) := by
  obtain ⟨hq, hp, qp, jq, jp, iq, ip⟩ := h
  constructor
  · intro j hj
    refine fr _ (hq j (by omega)) (fun e => ?_) (qp j _ (by omega) (by omega))
    have := jq _ _ (by omega) (by omega) e
    omega
  · intro j hj
    refine fr _ (hp j (by omega)) (fun e => ?_) (fun e => ?_)
    · exact qp _ _ (by omega) (by omega) e.symm
    · have := jp _ _ (by omega) (by omega) e
      omega

theorem wp_labrdU (hl : HhLaws 𝕜 p) (ok : BpOK A X Y m n nb) (hmn : n ≤ m) {tauv tauw : VecV L} {s : Nat} (pt : PTau A X Y tauv tauw s nb)
    {A0 g : Nat → Nat → 𝕜} {ν : Store L 𝕜} (hb : frobSq (s + m) (s + n) A0 ≤ p.tbig ^ 2)
    (h : BInv (s + m) (s + n) A0 s s (glue s g (entry ν A)) (ventry ν tauv) (ventry ν tauw)) :
    wp (labrd (hhOps p) A (tauv.sub s (s + nb)) (tauw.sub s (s + nb)) X Y) ν (fun _ ν' => PanInv m n s A0 g A X Y tauv tauw false nb ν nb ν') := by
  have htb := hl.tbig_one
  have hAm := ok.Am
  have hAn := ok.An
  have hm := ok.hm
  have hn := ok.hn
  have st : PanInv m n s A0 g A X Y tauv tauw false nb ν 0 ν := by
    refine ⟨⟨fun k => entry ν (B3 A X Y k), LS.self, ?_⟩, fun _ _ _ _ => rfl⟩
    rw [if_neg (by simp), virtF_zero]
    exact h
  unfold labrd
  by_cases h0 : A.m = 0 ∨ A.n = 0
  · rw [if_pos h0, wp_pure]
    have : nb = 0 := by omega
    subst this
    exact st
  rw [if_neg h0, if_pos (by omega)]
  simp only [wp_bind]
  rw [ok.Xn]
  refine wp_forUp_ (fun i ν' => PanInv m n s A0 g A X Y tauv tauw false nb ν i ν') (by omega) st ?_ ?_
  · intro i ν1 _ hi ⟨⟨f, hf, inv⟩, fr⟩
    rw [if_neg (by simp)] at inv
    refine wp_conseq (wp_labrdStepU hl ok hmn hi (pt.tk hi) hf (inv.vre (by omega)) (inv.vb1 (by omega) (by linarith) hb)
      (inv.vb2 hmn (by omega) (by linarith) hb)) ?_
    rintro _ ν2 ⟨f', hf', fr', so⟩
    obtain ⟨ov, ow⟩ := pt.old hi fr'
    refine ⟨⟨f', hf', ?_⟩, fun l hl hq hp => ?_⟩
    · rw [if_neg (by simp)]
      exact StepOut.inv inv hmn (by omega) so ov rfl ow rfl
    · rw [fr' l hl (fun e => hq ⟨i, by simp [VecV.sub]; omega, e.symm⟩) (fun e => hp ⟨i, by simp [VecV.sub]; omega, e.symm⟩), fr l hl hq hp]
  · intro ν' h'
    exact h'

theorem wp_labrdL (hl : HhLaws 𝕜 p) (ok : BpOK A X Y m n nb) (hmn : m < n) {tauv tauw : VecV L} {s : Nat} (pt : PTau A X Y tauv tauw s nb)
    {A0 g : Nat → Nat → 𝕜} {ν : Store L 𝕜} (hb : frobSq (s + n) (s + m) A0 ≤ p.tbig ^ 2)
    (h : BInv (s + n) (s + m) A0 s s (glue s g (starT (entry ν A))) (ventry ν tauw) (ventry ν tauv)) :
    wp (labrd (hhOps p) A (tauv.sub s (s + nb)) (tauw.sub s (s + nb)) X Y) ν (fun _ ν' => PanInv m n s A0 g A X Y tauv tauw true nb ν nb ν') := by
  have htb := hl.tbig_one
  have hAm := ok.Am
  have hAn := ok.An
  have hm := ok.hm
  have hn := ok.hn
  have st : PanInv m n s A0 g A X Y tauv tauw true nb ν 0 ν := by
    refine ⟨⟨fun k => entry ν (B3 A X Y k), LS.self, ?_⟩, fun _ _ _ _ => rfl⟩
    rw [if_pos rfl, virtF_zero]
    exact h
  unfold labrd
  by_cases h0 : A.m = 0 ∨ A.n = 0
  · rw [if_pos h0, wp_pure]
    have : nb = 0 := by omega
    subst this
    exact st
  rw [if_neg h0, if_neg (by omega)]
  simp only [wp_bind]
  rw [ok.Xn]
  refine wp_forUp_ (fun i ν' => PanInv m n s A0 g A X Y tauv tauw true nb ν i ν') (by omega) st ?_ ?_
  · intro i ν1 _ hi ⟨⟨f, hf, inv⟩, fr⟩
    rw [if_pos rfl] at inv
    refine wp_conseq (wp_labrdStepL hl ok hmn hi (pt.tk hi) hf (fun h => (star_injective (inv.vre (by omega) h))) (inv.vb1 (by omega) (by linarith) hb)
      (inv.vb2 hmn.le (by omega) (by linarith) hb)) ?_
    rintro _ ν2 ⟨f', hf', fr', so⟩
    obtain ⟨ov, ow⟩ := pt.old hi fr'
    refine ⟨⟨f', hf', ?_⟩, fun l hl hq hp => ?_⟩
    · rw [if_pos rfl]
      exact StepOut.inv inv hmn.le (by omega) so ow rfl ov rfl
    · rw [fr' l hl (fun e => hq ⟨i, by simp [VecV.sub]; omega, e.symm⟩) (fun e => hp ⟨i, by simp [VecV.sub]; omega, e.symm⟩), fr l hl hq hp]
  · intro ν' h'
    exact h'

end TLA
