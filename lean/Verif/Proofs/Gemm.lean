import Verif.Proofs.Loops
import Verif.Model.Blas3

namespace TLA
set_option linter.unusedTactic false
set_option linter.unreachableTactic false
variable {L T : Type} [DecidableEq L]

/-- rewriting an `if` with one branch equal to the other side -/
theorem ite_self_val {α : Type} {c : Prop} [Decidable c] {a b d : α} (h1 : c → a = d)
    (h2 : ¬ c → b = d) : (if c then a else b) = d := by
  split
  · exact h1 ‹_›
  · exact h2 ‹_›

/-- Law-free value of an entry of `C` after gemm with `transA = NoTrans`. -/
def gemmNVal [Zero T] [Add T] [Mul T] (alpha : T) (a b : Nat → Nat → T) (beta : Coef T)
    (c : Nat → Nat → T) (k i j : Nat) : T :=
  foldUp 0 k (beta.mulAssign (c i j)) (fun l acc => acc + a i l * (alpha * b l j))

/-- Law-free value of an entry of `C` after gemm with `transA ≠ NoTrans`. -/
def gemmTVal [Zero T] [Add T] [Mul T] (g : T → T) (alpha : T) (a b : Nat → Nat → T) (beta : Coef T)
    (c : Nat → Nat → T) (k i j : Nat) : T :=
  beta.addMul (alpha * g (foldUp 0 k 0 (fun l acc => acc + a i l * b l j))) (c i j)

theorem wp_gemmN [Zero T] [Add T] [Mul T] {getB : Nat → Nat → M L T T} {b : Nat → Nat → T}
    {alpha : T} {A C : MatV L} {beta : Coef T} {m n k : Nat} {μ0 μ : Store L T} {G : Nat → Nat → T}
    (hC : C.Inj) (hAm : A.m = m) (hAn : A.n = k) (hCm : C.m = m) (hCn : C.n = n)
    (hA : A.Disj C)
    (hB : ∀ l j ν G', l < k → j < n → MState C μ0 G' ν →
      wp (getB l j) ν (fun v ν' => v = b l j ∧ ν' = ν))
    (h : MState C μ0 G μ) :
    wp (gemmN getB alpha A beta C m n k) μ (fun _ ν => MState C μ0
      (gemmNVal alpha (entry μ0 A) b beta G k) ν) := by
  subst hAm hAn hCn
  refine wp_forUp_ (fun j ν => MState C μ0 (fun i' j' => if j' < j then
      gemmNVal alpha (entry μ0 A) b beta G A.n i' j' else G i' j') ν)
    (Nat.zero_le _) (by simpa using h) ?_ ?_
  · intro j ν _ hj hν
    simp only [wp_bind]
    refine wp_conseq (wp_colLoop (fun i => beta.mulAssign (G i j)) hν hC hj (by omega)
      (Nat.zero_le _) ?_) ?_
    · intro i ν _ hi hν
      simp only [wp_modify]
      refine ⟨⟨by omega, hj⟩, ?_⟩
      rw [hν.val i j (by omega) hj]; simp
    · rintro _ ν hν
      refine wp_forUp_ (fun l ν => MState C μ0 (fun i' j' => if j' < j then
        gemmNVal alpha (entry μ0 A) b beta G A.n i' j' else if j' = j then
          gemmNVal alpha (entry μ0 A) b beta G l i' j' else G i' j') ν)
        (Nat.zero_le _) (hν.congr ?_) ?_ ?_
      · intro i' j' _ _
        unfold gemmNVal
        ifs_eq j' j
      · intro l ν _ hl hν
        simp only [wp_bind]
        refine wp_conseq (hB l j ν _ hl hj hν) ?_
        rintro _ _ ⟨rfl, rfl⟩
        refine wp_conseq (wp_colLoop (fun i => gemmNVal alpha (entry μ0 A) b beta G (l + 1) i j)
          hν hC hj (by omega) (Nat.zero_le _) ?_) ?_
        · intro i ν _ hi hν
          simp only [wp_bind, wp_get, wp_modify]
          refine ⟨⟨hi, hl⟩, ⟨by omega, hj⟩, ?_⟩
          rw [hν.val i j (by omega) hj, hν.read hA hi hl]
          simp [gemmNVal, foldUp_succ, entry]
        · rintro _ ν hν
          refine hν.congr ?_
          intro i' j' _ _
          ifs_eq j' j
      · intro ν hν
        refine hν.congr ?_
        intro i' j' _ _
        ifs_eq j' j
  · intro ν hν
    exact hν.congr (fun i j _ hj => by rw [if_pos hj])

theorem wp_gemmT [Zero T] [Add T] [Mul T] {fA g : T → T} {getB : Nat → Nat → M L T T}
    {b : Nat → Nat → T}
    {alpha : T} {A C : MatV L} {beta : Coef T} {m n k : Nat} {μ0 μ : Store L T} {G : Nat → Nat → T}
    (hC : C.Inj) (hAm : A.n = m) (hAn : A.m = k) (hCm : C.m = m) (hCn : C.n = n)
    (hA : A.Disj C)
    (hB : ∀ l j ν G', l < k → j < n → MState C μ0 G' ν →
      wp (getB l j) ν (fun v ν' => v = b l j ∧ ν' = ν))
    (h : MState C μ0 G μ) :
    wp (gemmT fA g getB alpha A beta C m n k) μ (fun _ ν => MState C μ0
      (gemmTVal g alpha (fun i l => fA (entry μ0 A l i)) b beta G k) ν) := by
  subst hAm hAn hCn
  refine wp_forUp_ (fun j ν => MState C μ0 (fun i' j' => if j' < j then
      gemmTVal g alpha (fun i l => fA (entry μ0 A l i)) b beta G A.m i' j' else G i' j') ν)
    (Nat.zero_le _) (by simpa using h) ?_ ?_
  · intro j ν _ hj hν
    refine wp_conseq (wp_colLoop (fun i =>
      gemmTVal g alpha (fun i l => fA (entry μ0 A l i)) b beta G A.m i j) hν hC hj (by omega)
      (Nat.zero_le _) ?_) ?_
    · intro i ν _ hi hν
      simp only [wp_bind]
      refine wp_conseq (wp_sumLoop (fun l s => s + fA (entry μ0 A l i) * b l j) (Nat.zero_le _) ?_) ?_
      · intro l s _ hl
        simp only [wp_bind, wp_get]
        refine ⟨⟨hl, hi⟩, wp_conseq (hB l j ν _ hl hj hν) ?_⟩
        rintro _ _ ⟨rfl, rfl⟩
        rw [hν.read hA hl hi]
        exact ⟨rfl, rfl⟩
      · rintro _ _ ⟨rfl, rfl⟩
        simp only [wp_modify]
        refine ⟨⟨by omega, hj⟩, ?_⟩
        rw [hν.val i j (by omega) hj]; simp [gemmTVal]
    · rintro _ ν hν
      refine hν.congr ?_
      intro i' j' _ _
      ifs_eq j' j
  · intro ν hν
    exact hν.congr (fun i j _ hj => by rw [if_pos hj])

theorem wp_opGet [Star T] {op : Op} {B C : MatV L} {μ0 ν : Store L T} {G : Nat → Nat → T} {l j k n : Nat}
    (hl : l < k) (hj : j < n)
    (hm : (if op = .NoTrans ∨ op = .Conj then B.m else B.n) = k)
    (hn : (if op = .NoTrans ∨ op = .Conj then B.n else B.m) = n)
    (hB : B.Disj C) (h : MState C μ0 G ν) :
    wp (opGet op B l j) ν (fun v ν' => v = opF op (entry μ0 B) l j ∧ ν' = ν) := by
  cases op <;> simp at hm hn <;> subst hm hn <;>
    simp only [opGet, wp_bind, wp_get, wp_pure, opF, entry] <;>
    refine ⟨⟨by assumption, by assumption⟩, ?_, trivial⟩ <;>
    rw [h.read hB (by assumption) (by assumption)]

/-- Law-free value of entry `(i,j)` of the result of gemm. -/
def gemmVal [Zero T] [Add T] [Mul T] [Star T] (transA transB : Op) (alpha : T)
    (a b : Nat → Nat → T) (beta : Coef T) (c : Nat → Nat → T) (k i j : Nat) : T :=
  match transA, transB with
  | .NoTrans, _ => gemmNVal alpha a (opF transB b) beta c k i j
  | .ConjTrans, .ConjTrans => gemmTVal star alpha (opF .Trans a) (opF .Trans b) beta c k i j
  | _, _ => gemmTVal id alpha (opF transA a) (opF transB b) beta c k i j

theorem wp_gemm [Zero T] [Add T] [Mul T] [Star T] {transA transB : Op} {alpha : T}
    {A B C : MatV L} {beta : Coef T} {m n k : Nat} {μ : Store L T}
    (h : GemmOK transA transB A B C m n k) :
    wp (gemm transA transB alpha A B beta C) μ (fun _ ν => MState C μ
      (gemmVal transA transB alpha (entry μ A) (entry μ B) beta (entry μ C) k) ν) := by
  obtain ⟨h1, h2, h3, h4, h5, h6, h7, h8, hC, hA, hB⟩ := h
  have hst : MState C μ (entry μ C) μ := ⟨fun _ _ _ _ => rfl, fun _ _ => rfl⟩
  unfold gemm
  simp only [h3, h4, h5, h6, h7, h8, wp_bind, wp_check]
  have e1 : (!(decide (transA ≠ .NoTrans) && decide (transA ≠ .Trans) &&
      decide (transA ≠ .ConjTrans))) = true := by
    cases transA <;> simp at h1 ⊢
  have e2 : (!(decide (transB ≠ .NoTrans) && decide (transB ≠ .Trans) &&
      decide (transB ≠ .ConjTrans))) = true := by
    cases transB <;> simp at h2 ⊢
  simp only [e1, e2, if_true]
  simp only [ne_eq, not_true_eq_false, decide_false, Bool.not_false, if_true]
  have hB' : ∀ l j ν G', l < k → j < n → MState C μ G' ν →
      wp (opGet transB B l j) ν (fun v ν' => v = opF transB (entry μ B) l j ∧ ν' = ν) := by
    intro l j ν G' hl hj hν
    refine wp_opGet hl hj ?_ ?_ hB hν <;> cases transB <;> simp_all
  have hB'' : ∀ l j ν G', transB ≠ .NoTrans → l < k → j < n → MState C μ G' ν →
      wp (opGet .Trans B l j) ν (fun v ν' => v = opF .Trans (entry μ B) l j ∧ ν' = ν) := by
    intro l j ν G' hne hl hj hν
    refine wp_opGet hl hj ?_ ?_ hB hν <;> cases transB <;> simp_all
  cases transA with
  | NoTrans =>
    simp at h3 h4
    exact wp_gemmN hC h3 h4 h7 h8 hA hB' hst
  | Trans =>
    simp at h3 h4
    simp only [reduceCtorEq, if_false, if_true]
    exact wp_gemmT hC h3 h4 h7 h8 hA hB' hst
  | ConjTrans =>
    simp at h3 h4
    simp only [reduceCtorEq, if_false]
    cases transB with
    | NoTrans => exact wp_gemmT hC h3 h4 h7 h8 hA hB' hst
    | Trans => exact wp_gemmT hC h3 h4 h7 h8 hA hB' hst
    | ConjTrans => exact wp_gemmT hC h3 h4 h7 h8 hA (fun l j ν G' => hB'' l j ν G' (by simp)) hst
    | Conj => exact absurd rfl h2
  | Conj => exact absurd rfl h1

/-- Exact arithmetic: the fold values are the documented sum. -/
theorem gemmVal_exact [Field T] [StarRing T] (transA transB : Op) (alpha : T)
    (a b : Nat → Nat → T) (beta : Coef T) (c : Nat → Nat → T) (k i j : Nat) (hB : transB ≠ .Conj) :
    gemmVal transA transB alpha a b beta c k i j =
      alpha * (∑ l ∈ Finset.range k, opF transA a i l * opF transB b l j)
        + beta.toVal * c i j := by
  have hb : beta.mulAssign (c i j) = beta.toVal * c i j := by
    cases beta <;> simp [Coef.mulAssign, Coef.toVal, mul_comm]
  have hb2 : ∀ x, beta.addMul x (c i j) = x + beta.toVal * c i j := by
    intro x; cases beta <;> simp [Coef.addMul, Coef.toVal]
  have hN : ∀ a' b', gemmNVal alpha a' b' beta c k i j =
      alpha * (∑ l ∈ Finset.range k, a' i l * b' l j) + beta.toVal * c i j := by
    intro a' b'
    unfold gemmNVal
    rw [foldUp0_add, hb, Finset.mul_sum, add_comm]
    congr 1
    exact Finset.sum_congr rfl (fun l _ => by ring)
  have hT : ∀ a' b', gemmTVal id alpha a' b' beta c k i j =
      alpha * (∑ l ∈ Finset.range k, a' i l * b' l j) + beta.toVal * c i j := by
    intro a' b'
    unfold gemmTVal
    rw [foldUp0_add, hb2, zero_add, id]
  unfold gemmVal
  cases transA <;> cases transB <;> simp only [hN, hT] <;> first | rfl | skip
  · unfold gemmTVal
    rw [foldUp0_add, hb2, zero_add]
    congr 2
    rw [star_sum]
    exact Finset.sum_congr rfl (fun l _ => by simp [opF, mul_comm])

/-- gemm in exact arithmetic, as used by the LAPACK-level proofs. -/
theorem wp_gemm_exact [Field T] [StarRing T] {transA transB : Op} {alpha : T}
    {A B C : MatV L} {beta : Coef T} {m n k : Nat} {μ : Store L T}
    (h : GemmOK transA transB A B C m n k) :
    wp (gemm transA transB alpha A B beta C) μ (fun _ ν => MState C μ
      (fun i j => alpha * (∑ l ∈ Finset.range k,
        opF transA (entry μ A) i l * opF transB (entry μ B) l j) + beta.toVal * entry μ C i j) ν) :=
  wp_conseq (wp_gemm h) (fun _ _ hν => hν.congr (fun i j _ _ =>
    (gemmVal_exact transA transB alpha _ _ beta _ k i j h.opB).symm))

end TLA
