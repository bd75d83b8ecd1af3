import Verif.SpecSchurMove
import Verif.Props.SchurBlk

set_option linter.unusedTactic false
set_option linter.unusedSectionVars false
set_option linter.unusedVariables false
set_option linter.unreachableTactic false
set_option linter.unusedSimpArgs false

/-! schur_move for real matrices: block lists. -/

namespace TLA
open Matrix Finset
variable {L : Type} [DecidableEq L] {hp : HhPar}
variable {wantq : Bool} {A Q B V D : MatV L} {μ ν : Store L ℝ} {F G : Nat → Nat → ℝ} {n j e b n1 n2 : Nat} {l l1 l2 p q : List Nat}

/-- `RSchur` for the rows up to `e`. -/
def RTo (n : Nat) (F : Nat → Nat → ℝ) : Nat → List Nat → Nat → Prop
  | j, [], e => j = e
  | j, b :: l, e => (b = 1 ∨ b = 2 ∧ StdBlk F j) ∧ (∀ r k, j + b ≤ r → r < n → j ≤ k → k < j + b → F r k = 0) ∧ RTo n F (j + b) l e

theorem RSchur_iff : ∀ {l j}, RSchur n F j l ↔ RTo n F j l n := by
  intro l
  induction l with
  | nil => intro j; rfl
  | cons b l ih => intro j; unfold RSchur RTo; rw [ih]

theorem RTo.sum : ∀ {l : List Nat} {j}, RTo n F j l e → e = j + l.sum := by
  intro l
  induction l with
  | nil => intro j h; simp only [List.sum_nil]; exact (show j = e from h).symm
  | cons b l ih => intro j h; rw [ih h.2.2, List.sum_cons]; omega

theorem RTo_append : ∀ {l1 l2 : List Nat} {j}, RTo n F j (l1 ++ l2) e ↔ RTo n F j l1 (j + l1.sum) ∧ RTo n F (j + l1.sum) l2 e := by
  intro l1 l2
  induction l1 with
  | nil => intro j; simp [RTo]
  | cons b l ih =>
    intro j
    rw [List.cons_append]
    show (_ ∧ _ ∧ RTo n F (j + b) (l ++ l2) e) ↔ (_ ∧ _ ∧ _) ∧ _
    rw [ih, List.sum_cons, show j + (b + l.sum) = j + b + l.sum by omega]
    exact ⟨fun ⟨a, b, c, d⟩ => ⟨⟨a, b, c⟩, d⟩, fun ⟨⟨a, b, c⟩, d⟩ => ⟨a, b, c, d⟩⟩

theorem RTo.below : ∀ {l : List Nat} {j}, RTo n F j l e → ∀ r k, e ≤ r → r < n → j ≤ k → k < e → F r k = 0 := by
  intro l
  induction l with
  | nil => intro j h r k _ _ h1 h2; have : j = e := h; omega
  | cons b l ih =>
    intro j h r k h1 h2 h3 h4
    have hs := h.2.2.sum
    by_cases hk : k < j + b
    · exact h.2.1 r k (by omega) h2 h3 hk
    · exact ih h.2.2 r k h1 h2 (by omega) h4

theorem RTo.congr : ∀ {l : List Nat} {j}, RTo n F j l e → (∀ r k, j ≤ k → k < e → j ≤ r → r < n → G r k = F r k) → e ≤ n →
    RTo n G j l e ∧ blkPolys G j l = blkPolys F j l := by
  intro l
  induction l with
  | nil => intro j h _ _; exact ⟨h, rfl⟩
  | cons b l ih =>
    intro j h hG he
    have hs := h.2.2.sum
    have hr := ih h.2.2 (fun r k a1 a2 a3 a4 => hG r k (by omega) a2 (by omega) a4) he
    refine ⟨⟨?_, fun r k a1 a2 a3 a4 => ?_, hr.1⟩, ?_⟩
    · refine h.1.imp_right fun w => ⟨w.1, ?_⟩
      have e2 := w.1
      have st := w.2
      unfold StdBlk at st ⊢
      rw [hG _ _ (by omega) (by omega) (by omega) (by omega), hG _ _ (by omega) (by omega) (by omega) (by omega),
        hG _ _ (by omega) (by omega) (by omega) (by omega), hG _ _ (by omega) (by omega) (by omega) (by omega)]
      exact st
    · rw [hG _ _ (by omega) (by omega) (by omega) (by omega), h.2.1 r k a1 a2 a3 a4]
    · unfold blkPolys
      rw [hr.2, blkM_congr fun r k a1 a2 a3 a4 => hG r k (by omega) (by omega) (by omega) (by omega)]

theorem blkPolys_append : ∀ {l1 l2 : List Nat} {j}, blkPolys F j (l1 ++ l2) = blkPolys F j l1 ++ blkPolys F (j + l1.sum) l2 := by
  intro l1 l2
  induction l1 with
  | nil => intro j; simp [blkPolys]
  | cons b l ih =>
    intro j
    rw [List.cons_append]
    show (blkM F j b).charpoly :: blkPolys F (j + b) (l ++ l2) = ((blkM F j b).charpoly :: blkPolys F (j + b) l) ++ _
    rw [ih, List.sum_cons, show j + (b + l.sum) = j + b + l.sum by omega, List.cons_append]

theorem blkPolys_length : ∀ {l : List Nat} {j}, (blkPolys F j l).length = l.length := by
  intro l
  induction l with
  | nil => intro j; rfl
  | cons b l ih => intro j; unfold blkPolys; rw [List.length_cons, ih, List.length_cons]

theorem StdBlk.cplx (h : StdBlk F j) : CplxBlk F j := by
  obtain ⟨h1, h2⟩ := h
  unfold CplxBlk
  rw [Matrix.trace_fin_two, Matrix.det_fin_two]
  change (F j j + F (j + 1) (j + 1)) ^ 2 < 4 * (F j j * F (j + 1) (j + 1) - F j (j + 1) * F (j + 1) j)
  rw [h1]; nlinarith

theorem StdBlk.ne (h : StdBlk F j) : F (j + 1) j ≠ 0 := h.cplx.ne

/-- The hypotheses of C96 at a pair of adjacent blocks. -/
theorem RSchur.win (h : RSchur n F 0 (p ++ n1 :: n2 :: q)) : SwWin n p.sum n1 n2 F ∧ (n1 = 1 ∨ n1 = 2) ∧ (n2 = 1 ∨ n2 = 2) ∧ p.sum + n1 + n2 ≤ n ∧
    (n1 = 2 → StdBlk F p.sum) ∧ (n2 = 2 → StdBlk F (p.sum + n1)) := by
  obtain ⟨hp, h1, z1, h2, z2, hq⟩ := RTo_append.1 (RSchur_iff.1 h)
  rw [Nat.zero_add] at hp h1 z1 h2 z2 hq
  have hs := hq.sum
  refine ⟨⟨fun r k a1 a2 a3 => hp.below r k a1 a2 (by omega) a3, fun r k a1 a2 a3 => ?_, fun r k a1 a2 a3 a4 => z1 r k a1 (by omega) a3 a4⟩,
    h1.imp_right And.left, h2.imp_right And.left, by omega, fun e => ?_, fun e => ?_⟩
  · by_cases b1 : k < p.sum
    · exact hp.below r k (by omega) a2 (by omega) b1
    · by_cases b2 : k < p.sum + n1
      · exact z1 r k (by omega) a2 (by omega) b2
      · exact z2 r k (by omega) a2 (by omega) (by omega)
  · rcases h1 with h1 | h1
    · omega
    · exact h1.2
  · rcases h2 with h2 | h2
    · omega
    · exact h2.2

theorem RSchur.exch (h : RSchur n F 0 (p ++ n1 :: n2 :: q)) (ex : SwExch n p.sum n1 n2 F G) (s2 : n2 = 2 → StdBlk G p.sum)
    (s1 : n1 = 2 → StdBlk G (p.sum + n2)) : RSchur n G 0 (p ++ n2 :: n1 :: q) ∧ ∃ P x y P', P.length = p.length ∧
      blkPolys F 0 (p ++ n1 :: n2 :: q) = P ++ x :: y :: P' ∧ blkPolys G 0 (p ++ n2 :: n1 :: q) = P ++ y :: x :: P' := by
  obtain ⟨w, e1, e2, hj, -, -⟩ := h.win
  obtain ⟨hp, h1, z1, h2, z2, hq⟩ := RTo_append.1 (RSchur_iff.1 h)
  rw [Nat.zero_add] at hp h1 z1 h2 z2 hq
  have hs := hq.sum
  have gp := hp.congr (G := G) (fun r k a1 a2 a3 a4 => by
    by_cases b1 : r < p.sum ∨ p.sum + (n1 + n2) ≤ r
    · exact ex.out r k a4 (by omega) b1 (.inl a2)
    · rw [w.zl r k (by omega) a4 a2, ex.win.zl r k (by omega) a4 a2]) (by omega)
  have gq := hq.congr (G := G) (fun r k a1 a2 a3 a4 => ex.out r k a4 a2 (.inr (by omega)) (.inr (by omega))) (by omega)
  have c1 := ex.c1
  have c2 := ex.c2
  refine ⟨RSchur_iff.2 (RTo_append.2 ?_), blkPolys F 0 p, (blkM F p.sum n1).charpoly, (blkM F (p.sum + n1) n2).charpoly, blkPolys F (p.sum + n1 + n2) q,
    blkPolys_length, ?_, ?_⟩
  · rw [Nat.zero_add]
    refine ⟨gp.1, e2.imp_right fun e => ⟨e, s2 e⟩, fun r k a1 a2 a3 a4 => ?_, e1.imp_right fun e => ⟨e, s1 e⟩, fun r k a1 a2 a3 a4 => ?_, ?_⟩
    · by_cases b1 : r < p.sum + (n2 + n1)
      · exact ex.win.zm r k a1 b1 a3 a4
      · exact ex.win.zb r k (by omega) a2 (by omega)
    · exact ex.win.zb r k (by omega) a2 (by omega)
    · rw [show p.sum + n2 + n1 = p.sum + n1 + n2 by omega]; exact gq.1
  · rw [blkPolys_append, Nat.zero_add]; rfl
  · rw [blkPolys_append, Nat.zero_add]
    show blkPolys G 0 p ++ (blkM G p.sum n2).charpoly :: (blkM G (p.sum + n2) n1).charpoly :: blkPolys G (p.sum + n2 + n1) q = _
    rw [gp.2, c1, c2, show p.sum + n2 + n1 = p.sum + n1 + n2 by omega, gq.2]

/-- Orthogonal similarity between two states, with the frame. -/
def SimTo (wantq : Bool) (A Q B V D : MatV L) (μ ν : Store L ℝ) : Prop :=
  (∃ U : Matrix (Fin A.n) (Fin A.n) ℝ, Uᵀ * U = 1 ∧ mat A.n A.n (entry μ A) = U * mat A.n A.n (entry ν A) * Uᵀ ∧
    (wantq = true → mat A.n A.n (entry ν Q) = mat A.n A.n (entry μ Q) * U)) ∧
  ∀ l, ¬ A.Owns l → ¬ (wantq = true ∧ Q.Owns l) → ¬ scrOwns B V D l → ν l = μ l

theorem SimTo.refl : SimTo wantq A Q B V D μ μ := ⟨⟨1, by simp, by simp, by simp⟩, fun _ _ _ _ => rfl⟩

theorem SimTo.trans {ξ : Store L ℝ} (h : SimTo wantq A Q B V D μ ν) (h' : SimTo wantq A Q B V D ν ξ) : SimTo wantq A Q B V D μ ξ := by
  obtain ⟨⟨U, u1, u2, u3⟩, f⟩ := h
  obtain ⟨⟨W, w1, w2, w3⟩, f'⟩ := h'
  refine ⟨⟨U * W, ?_, ?_, fun w => ?_⟩, fun l a b c => (f' l a b c).trans (f l a b c)⟩
  · rw [Matrix.transpose_mul, Matrix.mul_assoc, ← Matrix.mul_assoc Uᵀ, u1, Matrix.one_mul, w1]
  · rw [u2, w2, Matrix.transpose_mul]; simp only [Matrix.mul_assoc]
  · rw [w3 w, u3 w, Matrix.mul_assoc]

theorem swap_step (hl : HhLaws ℝ hp) {ro : RotOps ℝ} (ho : RotLaws ro) {pr : Kernel.SchurPar} (he : 0 < pr.eps) (hm : 0 < pr.safmn2) {eps small : ℝ}
    (hs : 0 < small) (ok : SchurOK wantq A Q) (sc : SwScr wantq A Q B V D) (h : RSchur A.n (entry μ A) 0 (p ++ n1 :: n2 :: q))
    (st : StepOK hp ro eps small wantq A Q B V D p.sum n1 n2 μ) :
    ∃ ν, schurSwapR (hhOps (𝕜 := ℝ) hp) ro pr eps small wantq A Q B V D p.sum n1 n2 μ = (.ok 0, ν) ∧ RSchur A.n (entry ν A) 0 (p ++ n2 :: n1 :: q) ∧
      SimTo wantq A Q B V D μ ν ∧ ∃ P x y P', P.length = p.length ∧
      blkPolys (entry μ A) 0 (p ++ n1 :: n2 :: q) = P ++ x :: y :: P' ∧ blkPolys (entry ν A) 0 (p ++ n2 :: n1 :: q) = P ++ y :: x :: P' := by
  obtain ⟨w, e1, e2, hj, s1, s2⟩ := h.win
  obtain ⟨ν1, ex1, k⟩ := C96_schur_swap hl ho he hm hs ok sc μ e1 e2 hj w st.1 (fun e => (s1 e).cplx) (fun e => (s2 e).cplx)
  obtain ⟨t2, t1⟩ := st.2 ν1 0 ex1
  obtain ⟨ν, e, ex, hU, b2, b1, fr⟩ := k t2 t1
  exact ⟨ν, e, (h.exch ex b2 b1).1, ⟨hU, fr⟩, (h.exch ex b2 b1).2⟩

end TLA
