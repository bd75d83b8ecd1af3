import Verif.SpecBlasX
import Verif.Proofs.TrsmTri
import Verif.Proofs.Hemm

set_option linter.unusedTactic false
set_option linter.unreachableTactic false
set_option linter.unusedSectionVars false
set_option linter.unusedVariables false

/-! gemmtr, hemm2 and mult_hehe. -/

namespace TLA
variable {L T : Type} [DecidableEq L]
open Finset

section gemmtr

theorem wp_gemmtrN [Zero T] [Add T] [Mul T] {u : Uplo} (hu : u = .Upper ∨ u = .Lower)
    {getB : Nat → Nat → M L T T} {b : Nat → Nat → T}
    {alpha : T} {A C : MatV L} {beta : Coef T} {n k : Nat} {μ : Store L T}
    (hC : C.Inj) (hAm : A.m = n) (hAn : A.n = k) (hCm : C.m = n) (hCn : C.n = n)
    (hA : A.Disj C)
    (hB : ∀ l j ν G', l < k → j < n → MState C μ G' ν →
      wp (getB l j) ν (fun v ν' => v = b l j ∧ ν' = ν)) :
    wp (gemmtrN u getB alpha A beta C n k) μ (fun _ ν => MState C μ (fun i j => if inTri u i j then
      gemmNVal alpha (entry μ A) b beta (entry μ C) k i j else entry μ C i j) ν) := by
  have tr : ∀ {i j : Nat}, i < n → ((triLo u j ≤ i ∧ i < triHi u n j) ↔ inTri u i j) :=
    fun hi => tri_range hu hi
  have lo : ∀ {j}, j < n → triLo u j ≤ triHi u n j := by
    intro j hj; rcases hu with rfl | rfl <;> simp [triHi, triLo] <;> omega
  have hi' : ∀ {j}, j < n → triHi u n j ≤ n := by
    intro j hj; rcases hu with rfl | rfl <;> simp [triHi] <;> omega
  unfold gemmtrN
  refine wp_forCols _ hCn.symm (MState.start C μ) ?_
  intro j ν hj hν
  rw [hCn] at hj
  simp only [wp_bind]
  refine wp_conseq (wp_colLoop (j := j) (fun i => beta.mulAssign (entry μ C i j)) hν hC (by omega)
    (by rw [hCm]; exact hi' hj) (lo hj) ?_) ?_
  · intro i ν h1 h2 hν
    have := hi' hj
    rw [wp_modify]
    refine ⟨⟨by omega, by omega⟩, ?_⟩
    rw [hν.at i j (by omega) (by omega) ((if_neg (by omega)).trans (if_neg (by omega)))]
  · intro _ ν hν
    refine wp_forUp_ (fun l ν => MState C μ (fun i' j' => if j' < j then
        (if inTri u i' j' then gemmNVal alpha (entry μ A) b beta (entry μ C) k i' j' else entry μ C i' j')
        else if j' = j ∧ inTri u i' j then gemmNVal alpha (entry μ A) b beta (entry μ C) l i' j'
        else entry μ C i' j') ν) (Nat.zero_le _) (hν.congr ?_) ?_ ?_
    · intro i' j' h1 h2
      by_cases e : j' = j
      · subst e
        rw [if_neg (lt_irrefl _)]
        by_cases ht : inTri u i' j'
        · rw [if_pos ⟨rfl, ht⟩, if_pos ⟨rfl, (tr (by omega)).2 ht⟩]
          simp [gemmNVal]
        · rw [if_neg (fun h => ht h.2), if_neg (fun h => ht ((tr (by omega)).1 h.2)), if_neg (lt_irrefl _)]
      · by_cases e2 : j' < j
        · simp [e, e2]
        · simp [e, e2]
    · intro l ν _ hl hν
      simp only [wp_bind]
      refine wp_conseq (hB l j ν _ hl hj hν) ?_
      rintro _ _ ⟨rfl, rfl⟩
      refine wp_conseq (wp_colLoop (j := j) (fun i => gemmNVal alpha (entry μ A) b beta (entry μ C) (l + 1) i j)
        hν hC (by omega) (by rw [hCm]; exact hi' hj) (lo hj) ?_) ?_
      · intro i ν h1 h2 hν
        have := hi' hj
        simp only [wp_bind, wp_get, wp_modify]
        refine ⟨⟨by omega, by omega⟩, ⟨by omega, by omega⟩, ?_⟩
        rw [hν.at i j (by omega) (by omega) ((if_neg (by omega)).trans ((if_neg (lt_irrefl _)).trans
          (if_pos ⟨rfl, (tr (by omega)).1 ⟨h1, h2⟩⟩))), hν.read hA (by omega) (by omega)]
        simp [gemmNVal, foldUp_succ, entry]
      · rintro _ ν hν
        refine hν.congr ?_
        intro i' j' h1 h2
        by_cases e : j' = j
        · subst e
          rw [if_neg (lt_irrefl _)]
          by_cases ht : inTri u i' j'
          · rw [if_pos ⟨rfl, ht⟩, if_pos ⟨rfl, (tr (by omega)).2 ht⟩]
          · rw [if_neg (fun h => ht h.2), if_neg (fun h => ht ((tr (by omega)).1 h.2)), if_neg (lt_irrefl _),
              if_neg (fun h => ht h.2)]
        · by_cases e2 : j' < j
          · simp [e, e2]
          · simp [e, e2]
    · intro ν hν
      refine hν.congr ?_
      intro i' j' h1 h2
      by_cases e : j' = j
      · subst e
        rw [if_pos rfl, if_neg (lt_irrefl _)]
        by_cases ht : inTri u i' j'
        · rw [if_pos ht, if_pos ⟨rfl, ht⟩]
        · rw [if_neg ht, if_neg (fun h => ht h.2)]
      · by_cases e2 : j' < j
        · rw [if_neg e, if_pos e2, if_pos e2]
        · rw [if_neg e, if_neg e2, if_neg e2, if_neg (fun h => e h.1)]

theorem wp_gemmtrT [Zero T] [Add T] [Mul T] {u : Uplo} (hu : u = .Upper ∨ u = .Lower) {fA g : T → T}
    {getB : Nat → Nat → M L T T} {b : Nat → Nat → T}
    {alpha : T} {A C : MatV L} {beta : Coef T} {n k : Nat} {μ : Store L T}
    (hC : C.Inj) (hAm : A.n = n) (hAn : A.m = k) (hCm : C.m = n) (hCn : C.n = n)
    (hA : A.Disj C)
    (hB : ∀ l j ν G', l < k → j < n → MState C μ G' ν →
      wp (getB l j) ν (fun v ν' => v = b l j ∧ ν' = ν)) :
    wp (gemmtrT u fA g getB alpha A beta C n k) μ (fun _ ν => MState C μ (fun i j => if inTri u i j then
      gemmTVal g alpha (fun i l => fA (entry μ A l i)) b beta (entry μ C) k i j else entry μ C i j) ν) := by
  have tr : ∀ {i j : Nat}, i < n → ((triLo u j ≤ i ∧ i < triHi u n j) ↔ inTri u i j) :=
    fun hi => tri_range hu hi
  have lo : ∀ {j}, j < n → triLo u j ≤ triHi u n j := by
    intro j hj; rcases hu with rfl | rfl <;> simp [triHi, triLo] <;> omega
  have hi' : ∀ {j}, j < n → triHi u n j ≤ n := by
    intro j hj; rcases hu with rfl | rfl <;> simp [triHi] <;> omega
  unfold gemmtrT
  refine wp_forCols _ hCn.symm (MState.start C μ) ?_
  intro j ν hj hν
  rw [hCn] at hj
  refine wp_conseq (wp_colLoop (j := j)
    (fun i => gemmTVal g alpha (fun i l => fA (entry μ A l i)) b beta (entry μ C) k i j) hν hC (by omega)
    (by rw [hCm]; exact hi' hj) (lo hj) ?_) ?_
  · intro i ν h1 h2 hν
    have := hi' hj
    simp only [wp_bind]
    refine wp_conseq (wp_sumLoop (fun l s => s + fA (entry μ A l i) * b l j) (Nat.zero_le _) ?_) ?_
    · intro l s _ hl
      simp only [wp_bind, wp_get]
      refine ⟨⟨by omega, by omega⟩, wp_conseq (hB l j ν _ hl hj hν) ?_⟩
      rintro _ _ ⟨rfl, rfl⟩
      rw [hν.read hA (by omega) (by omega)]
      exact ⟨rfl, rfl⟩
    · rintro _ _ ⟨rfl, rfl⟩
      rw [wp_modify]
      refine ⟨⟨by omega, by omega⟩, ?_⟩
      rw [hν.at i j (by omega) (by omega) ((if_neg (by omega)).trans (if_neg (by omega)))]
      rfl
  · intro _ ν hν
    refine hν.congr ?_
    intro i' j' h1 h2
    by_cases e : j' = j
    · subst e
      rw [if_pos rfl]
      by_cases ht : inTri u i' j'
      · rw [if_pos ht, if_pos ⟨rfl, (tr (by omega)).2 ht⟩]
      · rw [if_neg ht, if_neg (fun h => ht ((tr (by omega)).1 h.2)), if_neg (lt_irrefl _)]
    · simp [e]

theorem wp_gemmtr [Field T] [StarRing T] {u : Uplo} (hu : u = .Upper ∨ u = .Lower) {transA transB : Op} {alpha : T}
    {A B C : MatV L} {beta : Coef T} {n k : Nat} {μ : Store L T}
    (h : GemmOK transA transB A B C n n k) :
    wp (gemmtr u transA transB alpha A B beta C) μ (fun _ ν => SameOff C u μ ν ∧
      ∀ i j, i < n → j < n → inTri u i j → entry ν C i j =
        alpha * (∑ l ∈ range k, opF transA (entry μ A) i l * opF transB (entry μ B) l j) +
          beta.toVal * entry μ C i j) := by
  have key : wp (gemmtr u transA transB alpha A B beta C) μ (fun _ ν => MState C μ (fun i j => if inTri u i j then
      gemmVal transA transB alpha (entry μ A) (entry μ B) beta (entry μ C) k i j else entry μ C i j) ν) := by
    obtain ⟨h1, h2, h3, h4, h5, h6, h7, h8, hC, hA, hB⟩ := h
    unfold gemmtr
    simp only [h3, h4, h5, h6, h7, h8, wp_bind, wp_check]
    have e0 : (!(decide (u ≠ .Upper) && decide (u ≠ .Lower))) = true := by
      rcases hu with rfl | rfl <;> rfl
    have e1 : (!(decide (transA ≠ .NoTrans) && decide (transA ≠ .Trans) &&
        decide (transA ≠ .ConjTrans))) = true := by
      cases transA <;> simp at h1 ⊢
    have e2 : (!(decide (transB ≠ .NoTrans) && decide (transB ≠ .Trans) &&
        decide (transB ≠ .ConjTrans))) = true := by
      cases transB <;> simp at h2 ⊢
    simp only [e0, e1, e2, if_true]
    simp only [ne_eq, not_true_eq_false, decide_false, Bool.not_false, if_true, Bool.false_and]
    have hB' : ∀ l j ν G', l < k → j < n → MState C μ G' ν →
        wp (opGet transB B l j) ν (fun v ν' => v = opF transB (entry μ B) l j ∧ ν' = ν) := by
      intro l j ν G' hl hj hν
      refine wp_opGet hl hj ?_ ?_ hB hν <;> cases transB <;> simp_all
    have hB'' : ∀ l j ν G', transB ≠ .NoTrans → l < k → j < n → MState C μ G' ν →
        wp (opGet .Trans B l j) ν (fun v ν' => v = opF .Trans (entry μ B) l j ∧ ν' = ν) := by
      intro l j ν G' hne hl hj hν
      refine wp_opGet hl hj ?_ ?_ hB hν <;> cases transB <;> simp_all
    cases transA with
    | NoTrans =>
      simp at h3 h4
      exact wp_gemmtrN hu hC h3 h4 h7 h8 hA hB'
    | Trans =>
      simp at h3 h4
      simp only [reduceCtorEq, if_false, if_true]
      exact wp_gemmtrT hu hC h3 h4 h7 h8 hA hB'
    | ConjTrans =>
      simp at h3 h4
      simp only [reduceCtorEq, if_false]
      cases transB with
      | NoTrans => exact wp_gemmtrT hu hC h3 h4 h7 h8 hA hB'
      | Trans => exact wp_gemmtrT hu hC h3 h4 h7 h8 hA hB'
      | ConjTrans => exact wp_gemmtrT hu hC h3 h4 h7 h8 hA (fun l j ν G' => hB'' l j ν G' (by simp))
      | Conj => exact absurd rfl h2
    | Conj => exact absurd rfl h1
  refine wp_conseq key ?_
  intro _ ν hν
  refine ⟨hν.sameOffP (fun i j _ _ ht => if_neg ht), fun i j hi hj ht => ?_⟩
  have := hν.val i j (by rw [h.Cm]; exact hi) (by rw [h.Cn]; exact hj)
  rw [if_pos ht, gemmVal_exact _ _ _ _ _ _ _ _ _ _ h.opB] at this
  exact this

end gemmtr

section hemm2
variable [Field T] [StarRing T] [ReIm T]

theorem hermF_inT {u : Uplo} {a : Nat → Nat → T} {i j : Nat} (h : i ≠ j) (ht : inTri u i j) :
    hermF u a i j = a i j := by unfold hermF; rw [if_neg h, if_pos ht]
theorem hermF_off {u : Uplo} {a : Nat → Nat → T} {i j : Nat} (h : i ≠ j) (ht : ¬ inTri u i j) :
    hermF u a i j = star (a j i) := by unfold hermF; rw [if_neg h, if_neg ht]

theorem wp_hemm2Row {u : Uplo} (hu : u = .Upper ∨ u = .Lower) {A C : MatV L} {n j : Nat}
    {x : Nat → M L T T} {X : Nat → T} {μ ν : Store L T} {G : Nat → Nat → T} (hm : A.m = n) (hn : A.n = n)
    (hj : j < n) (hA : A.Disj C) (hν : MState C μ G ν)
    (hx : ∀ i, i < n → wp (x i) ν (fun v ν' => v = X i ∧ ν' = ν)) :
    wp (hemm2Row u A n j x) ν (fun s ν' => s = ∑ i ∈ range n, hermF u (entry μ A) j i * X i ∧ ν' = ν) := by
  unfold hemm2Row
  simp only [wp_bind]
  refine wp_conseq (wp_sumLoop (fun i s => s + hermF u (entry μ A) j i * X i) (Nat.zero_le _) ?_) ?_
  · intro i s _ hi
    rcases hu with rfl | rfl
    · simp only [reduceIte, wp_bind]
      refine wp_getE ⟨by omega, by omega⟩ ?_
      refine wp_conseq (hx i (by omega)) ?_
      rintro _ _ ⟨rfl, rfl⟩
      rw [wp_pure, hν.read hA (by omega) (by omega)]
      rw [hermF_off (by omega) (by simp only [inTri]; omega)]
      exact ⟨rfl, rfl⟩
    · simp only [reduceCtorEq, reduceIte, wp_bind]
      refine wp_getE ⟨by omega, by omega⟩ ?_
      refine wp_conseq (hx i (by omega)) ?_
      rintro _ _ ⟨rfl, rfl⟩
      rw [wp_pure, hν.read hA (by omega) (by omega)]
      rw [hermF_inT (by omega) (by simp only [inTri]; omega)]
      exact ⟨rfl, rfl⟩
  rintro _ _ ⟨rfl, rfl⟩
  refine wp_getE ⟨by omega, by omega⟩ ?_
  refine wp_conseq (hx j hj) ?_
  rintro _ _ ⟨rfl, rfl⟩
  refine wp_conseq (wp_sumLoop (fun i s => s + hermF u (entry μ A) j i * X i) (by omega) ?_) ?_
  · intro i s h1 hi
    rcases hu with rfl | rfl
    · simp only [reduceIte, wp_bind]
      refine wp_getE ⟨by omega, by omega⟩ ?_
      refine wp_conseq (hx i (by omega)) ?_
      rintro _ _ ⟨rfl, rfl⟩
      rw [wp_pure, hν.read hA (by omega) (by omega)]
      rw [hermF_inT (by omega) (by simp only [inTri]; omega)]
      exact ⟨rfl, rfl⟩
    · simp only [reduceCtorEq, reduceIte, wp_bind]
      refine wp_getE ⟨by omega, by omega⟩ ?_
      refine wp_conseq (hx i (by omega)) ?_
      rintro _ _ ⟨rfl, rfl⟩
      rw [wp_pure, hν.read hA (by omega) (by omega)]
      rw [hermF_off (by omega) (by simp only [inTri]; omega)]
      exact ⟨rfl, rfl⟩
  rintro _ _ ⟨rfl, rfl⟩
  refine ⟨?_, rfl⟩
  rw [foldUp_add (by omega), foldUp0_add, zero_add, hν.read hA (by omega) (by omega), sum_split_at hj]
  simp only [hermF, if_pos, entry, add_assoc]

variable [ExactScalar T]

theorem wp_hemm2Col {u : Uplo} (hu : u = .Upper ∨ u = .Lower) {A C : MatV L} {n j : Nat}
    {x : Nat → M L T T} {X : Nat → T} {μ ν : Store L T} {G : Nat → Nat → T} (hm : A.m = n) (hn : A.n = n)
    (hj : j < n) (hA : A.Disj C) (hν : MState C μ G ν)
    (hx : ∀ i, i < n → wp (x i) ν (fun v ν' => v = X i ∧ ν' = ν)) :
    wp (hemm2Col u A n j x) ν (fun s ν' => s = ∑ i ∈ range n, X i * hermF u (entry μ A) i j ∧ ν' = ν) := by
  unfold hemm2Col
  simp only [wp_bind]
  refine wp_conseq (wp_sumLoop (fun i s => s + X i * hermF u (entry μ A) i j) (Nat.zero_le _) ?_) ?_
  · intro i s _ hi
    simp only [wp_bind]
    refine wp_conseq (hx i (by omega)) ?_
    rintro _ _ ⟨rfl, rfl⟩
    rcases hu with rfl | rfl
    · simp only [reduceIte, wp_bind]
      refine wp_getE ⟨by omega, by omega⟩ ?_
      rw [wp_pure, hν.read hA (by omega) (by omega)]
      rw [hermF_inT (by omega) (by simp only [inTri]; omega)]
      exact ⟨rfl, rfl⟩
    · simp only [reduceCtorEq, reduceIte, wp_bind]
      refine wp_getE ⟨by omega, by omega⟩ ?_
      rw [wp_pure, hν.read hA (by omega) (by omega)]
      rw [hermF_off (by omega) (by simp only [inTri]; omega)]
      exact ⟨rfl, rfl⟩
  rintro _ _ ⟨rfl, rfl⟩
  refine wp_conseq (hx j hj) ?_
  rintro _ _ ⟨rfl, rfl⟩
  refine wp_getE ⟨by omega, by omega⟩ ?_
  refine wp_conseq (wp_sumLoop (fun i s => s + X i * hermF u (entry μ A) i j) (by omega) ?_) ?_
  · intro i s h1 hi
    simp only [wp_bind]
    refine wp_conseq (hx i (by omega)) ?_
    rintro _ _ ⟨rfl, rfl⟩
    rcases hu with rfl | rfl
    · simp only [reduceIte, wp_bind]
      refine wp_getE ⟨by omega, by omega⟩ ?_
      rw [wp_pure, hν.read hA (by omega) (by omega)]
      rw [hermF_off (by omega) (by simp only [inTri]; omega)]
      exact ⟨rfl, rfl⟩
    · simp only [reduceCtorEq, reduceIte, wp_bind]
      refine wp_getE ⟨by omega, by omega⟩ ?_
      rw [wp_pure, hν.read hA (by omega) (by omega)]
      rw [hermF_inT (by omega) (by simp only [inTri]; omega)]
      exact ⟨rfl, rfl⟩
  rintro _ _ ⟨rfl, rfl⟩
  refine ⟨?_, rfl⟩
  rw [foldUp_add (by omega), foldUp0_add, zero_add, hν.read hA (by omega) (by omega), sum_split_at hj]
  have : re (if u = .Upper then star (μ (A.cell j j)) else μ (A.cell j j)) = re (μ (A.cell j j)) := by
    split
    · rw [ExactScalar.re_star]
    · rfl
  rw [this]
  simp only [hermF, if_pos, entry, add_assoc]

theorem addMul_toVal (beta : Coef T) (x c : T) : beta.addMul x c = x + beta.toVal * c := by
  cases beta <;> simp [Coef.addMul, Coef.toVal]

/-- hemm2 with a transposed `B`, either side: a loop nest storing row by row. -/
theorem wp_hemm2Loop {C : MatV L} {alpha : T} {beta : Coef T} {m n : Nat} {μ : Store L T}
    {s : Nat → Nat → M L T T} {S : Nat → Nat → T} (hC : C.Inj) (hCm : C.m = n) (hCn : C.n = m)
    (hs : ∀ j k ν G, j < n → k < m → MState C μ G ν → wp (s j k) ν (fun v ν' => v = S j k ∧ ν' = ν)) :
    wp (forUp_ 0 n fun j => forUp_ 0 m fun k => do
      let sum ← s j k
      C.modify j k (fun c => beta.addMul (alpha * sum) c)) μ (fun _ ν => MState C μ (fun i j =>
        alpha * S i j + beta.toVal * entry μ C i j) ν) := by
  refine wp_forUp_ (fun r ν => MState C μ (fun i j => if i < r then
      alpha * S i j + beta.toVal * entry μ C i j else entry μ C i j) ν) (Nat.zero_le _)
    ((MState.start C μ).congr (fun i j _ _ => by simp)) ?_
    (fun ν hν => hν.congr (fun i j hi _ => by rw [if_pos (by omega)]))
  intro r ν _ hr hν
  refine wp_conseq (wp_rowLoop (i := r) (fun j => alpha * S r j + beta.toVal * entry μ C r j) hν hC (by omega)
    (by omega) (Nat.zero_le m) ?_) ?_
  · intro j ν _ hj hν
    simp only [wp_bind]
    refine wp_conseq (hs r j ν _ hr hj hν) ?_
    rintro _ _ ⟨rfl, rfl⟩
    rw [wp_modify]
    refine ⟨⟨by omega, by omega⟩, ?_⟩
    rw [hν.at r j (by omega) (by omega) ((if_neg (by omega)).trans (if_neg (by omega))), addMul_toVal]
  · intro _ ν hν
    refine hν.congr (fun i j hi hj => ?_)
    ifs_eq i r

/-- The triangle hemm2 reads. -/
def hemm2Tri (side : Side) (transB : Op) (uplo : Uplo) : Uplo :=
  if side = .Right ∧ transB = .NoTrans then (if uplo = .Lower then .Lower else .Upper)
  else (if uplo = .Upper then .Upper else .Lower)

theorem wp_hemm2_left {u : Uplo} (hu : u = .Upper ∨ u = .Lower ∨ u = .General) {transB : Op} {alpha : T} {A B C : MatV L}
    {beta : Coef T} {m n : Nat} {μ : Store L T} (h : Hemm2OK .Left transB A B C m n) :
    wp (hemm2 .Left u transB alpha A B beta C) μ (fun _ ν => Only C μ ν ∧ mat m n (entry ν C) =
      alpha • (mat m m (hermF (hemm2Tri .Left transB u) (entry μ A)) * mat m n (opF transB (entry μ B))) +
        beta.toVal • mat m n (entry μ C)) := by
  obtain ⟨h1, h2, h3, h4, h5, h6, h7, hC, hA, hB⟩ := h
  simp only [reduceIte] at h4 h5
  have hn : notTriGen u = false := by rcases hu with rfl | rfl | rfl <;> rfl
  have fin : ∀ (u' : Uplo) ν, MState C μ (fun i j => alpha * (∑ l ∈ range m, hermF u' (entry μ A) i l *
        opF transB (entry μ B) l j) + beta.toVal * entry μ C i j) ν → Only C μ ν ∧ mat m n (entry ν C) =
      alpha • (mat m m (hermF u' (entry μ A)) * mat m n (opF transB (entry μ B))) +
        beta.toVal • mat m n (entry μ C) := by
    intro u' ν hν
    refine ⟨hν.frame, ?_⟩
    rw [mat_mul, mat_smul, mat_smul, mat_add, mat_ext_iff]
    exact fun i j hi hj => hν.val i j (by omega) (by omega)
  unfold hemm2 hemm2Tri
  simp only [wp_bind, wp_check, hn]
  rw [if_pos (by decide), if_pos (by rfl), if_pos (by simp; omega)]
  rw [if_neg (show ¬ (Side.Left = .Right ∧ transB = .NoTrans) by simp)]
  have hu' : (if u = .Upper then Uplo.Upper else .Lower) = .Upper ∨
      (if u = .Upper then Uplo.Upper else .Lower) = .Lower := by split <;> simp
  generalize (if u = .Upper then Uplo.Upper else .Lower) = u' at hu'
  have hlow : (if u' = .Lower then Uplo.Lower else .Upper) = u' := by
    rcases hu' with rfl | rfl <;> rfl
  cases transB with
  | Conj => exact absurd rfl h1
  | NoTrans =>
    simp only [reduceIte] at h2 h3
    subst h2 h3
    simp only [reduceCtorEq, true_and, false_and, or_false, reduceIte, wp_check, wp_bind]
    rw [if_pos (by simp; omega), if_pos (by simp; omega), if_pos (by simp; omega)]
    refine wp_conseq (wp_hemmL hC hA hB h4 h5 h6 h7) (fun _ ν hν => fin u' ν (hν.congr ?_))
    intro i j hi hj
    have := hemmVal_exact (side := .Left) (uplo := u') star re alpha (entry μ A) (entry μ B) beta (entry μ C)
      (k := B.m) (i := i) (j := j) (Or.inl rfl) (by simp; omega)
    simp only [hemmVal, reduceIte] at this
    rw [this, hlow]
    rfl
  | Trans =>
    simp only [reduceCtorEq, reduceIte] at h2 h3
    subst h2 h3
    simp only [reduceCtorEq, and_false, false_and, or_false, reduceIte, wp_check, wp_bind]
    rw [if_pos (by simp; omega), if_pos (by simp; omega), if_pos (by simp; omega)]
    refine wp_conseq (wp_hemm2Loop hC h6 h7 (S := fun i j => ∑ l ∈ range B.n, hermF u' (entry μ A) i l *
      opF .Trans (entry μ B) l j) ?_) (fun _ ν hν => fin u' ν hν)
    intro j k ν G hj hk hν
    refine wp_hemm2Row hu' h4 h5 hj hA hν ?_
    intro i hi
    simp only [wp_bind]
    refine wp_getE ⟨by omega, by omega⟩ ?_
    rw [wp_pure, hν.read hB (by omega) (by omega)]
    exact ⟨rfl, rfl⟩
  | ConjTrans =>
    simp only [reduceCtorEq, reduceIte] at h2 h3
    subst h2 h3
    simp only [reduceCtorEq, and_false, false_and, or_false, reduceIte, wp_check, wp_bind]
    rw [if_pos (by simp; omega), if_pos (by simp; omega), if_pos (by simp; omega)]
    refine wp_conseq (wp_hemm2Loop hC h6 h7 (S := fun i j => ∑ l ∈ range B.n, hermF u' (entry μ A) i l *
      opF .ConjTrans (entry μ B) l j) ?_) (fun _ ν hν => fin u' ν hν)
    intro j k ν G hj hk hν
    refine wp_hemm2Row hu' h4 h5 hj hA hν ?_
    intro i hi
    simp only [wp_bind]
    refine wp_getE ⟨by omega, by omega⟩ ?_
    rw [wp_pure, hν.read hB (by omega) (by omega)]
    exact ⟨rfl, rfl⟩

theorem wp_hemm2_right {u : Uplo} (hu : u = .Upper ∨ u = .Lower ∨ u = .General) {transB : Op} {alpha : T} {A B C : MatV L}
    {beta : Coef T} {m n : Nat} {μ : Store L T} (h : Hemm2OK .Right transB A B C m n) :
    wp (hemm2 .Right u transB alpha A B beta C) μ (fun _ ν => Only C μ ν ∧ mat m n (entry ν C) =
      alpha • (mat m n (opF transB (entry μ B)) * mat n n (hermF (hemm2Tri .Right transB u) (entry μ A))) +
        beta.toVal • mat m n (entry μ C)) := by
  obtain ⟨h1, h2, h3, h4, h5, h6, h7, hC, hA, hB⟩ := h
  simp only [reduceCtorEq, reduceIte] at h4 h5
  have hn : notTriGen u = false := by rcases hu with rfl | rfl | rfl <;> rfl
  have fin : ∀ (u' : Uplo) ν, MState C μ (fun i j => alpha * (∑ l ∈ range n, opF transB (entry μ B) i l *
        hermF u' (entry μ A) l j) + beta.toVal * entry μ C i j) ν → Only C μ ν ∧ mat m n (entry ν C) =
      alpha • (mat m n (opF transB (entry μ B)) * mat n n (hermF u' (entry μ A))) +
        beta.toVal • mat m n (entry μ C) := by
    intro u' ν hν
    refine ⟨hν.frame, ?_⟩
    rw [mat_mul, mat_smul, mat_smul, mat_add, mat_ext_iff]
    exact fun i j hi hj => hν.val i j (by omega) (by omega)
  unfold hemm2 hemm2Tri
  simp only [wp_bind, wp_check, hn]
  rw [if_pos (by decide), if_pos (by rfl), if_pos (by simp; omega)]
  have hu' : (if u = .Upper then Uplo.Upper else .Lower) = .Upper ∨
      (if u = .Upper then Uplo.Upper else .Lower) = .Lower := by split <;> simp
  cases transB with
  | Conj => exact absurd rfl h1
  | NoTrans =>
    simp only [reduceIte] at h2 h3
    subst h2 h3
    simp only [reduceCtorEq, and_false, false_and, or_false, reduceIte, wp_check, wp_bind, and_self]
    rw [if_pos (by simp; omega), if_pos (by simp; omega), if_pos (by simp; omega)]
    refine wp_conseq (wp_hemmR hC hA hB h4 h5 h6 h7) (fun _ ν hν => fin _ ν (hν.congr ?_))
    intro i j hi hj
    have := hemmVal_exact (side := .Right) (uplo := u) star re alpha (entry μ A) (entry μ B) beta (entry μ C)
      (k := B.n) (i := i) (j := j) (Or.inr rfl) (by simp; omega)
    simp only [hemmVal, reduceCtorEq, reduceIte] at this
    rw [this]
    rfl
  | Trans =>
    simp only [reduceCtorEq, reduceIte] at h2 h3
    subst h2 h3
    simp only [reduceCtorEq, and_false, false_and, or_false, true_and, true_or, or_true, reduceIte, wp_check, wp_bind]
    generalize (if u = .Upper then Uplo.Upper else .Lower) = u' at hu'
    rw [if_pos (by simp; omega), if_pos (by simp; omega), if_pos (by simp; omega)]
    refine wp_conseq (wp_hemm2Loop hC h6 h7 (S := fun i j => ∑ l ∈ range B.m, opF .Trans (entry μ B) i l *
      hermF u' (entry μ A) l j) ?_) (fun _ ν hν => fin u' ν hν)
    intro j k ν G hj hk hν
    refine wp_hemm2Col hu' h4 h5 hk hA hν ?_
    intro i hi
    simp only [wp_bind]
    refine wp_getE ⟨by omega, by omega⟩ ?_
    rw [wp_pure, hν.read hB (by omega) (by omega)]
    exact ⟨rfl, rfl⟩
  | ConjTrans =>
    simp only [reduceCtorEq, reduceIte] at h2 h3
    subst h2 h3
    simp only [reduceCtorEq, and_false, false_and, or_false, true_and, true_or, or_true, reduceIte, wp_check, wp_bind]
    generalize (if u = .Upper then Uplo.Upper else .Lower) = u' at hu'
    rw [if_pos (by simp; omega), if_pos (by simp; omega), if_pos (by simp; omega)]
    refine wp_conseq (wp_hemm2Loop hC h6 h7 (S := fun i j => ∑ l ∈ range B.m, opF .ConjTrans (entry μ B) i l *
      hermF u' (entry μ A) l j) ?_) (fun _ ν hν => fin u' ν hν)
    intro j k ν G hj hk hν
    refine wp_hemm2Col hu' h4 h5 hk hA hν ?_
    intro i hi
    simp only [wp_bind]
    refine wp_getE ⟨by omega, by omega⟩ ?_
    rw [wp_pure, hν.read hB (by omega) (by omega)]
    exact ⟨rfl, rfl⟩

theorem hermU_10' (a b : Nat) (g : Nat → Nat → T) :
    mat b a (sh a 0 (hermF .Upper g)) = mat b a (opF .ConjTrans (sh 0 a g)) := by
  rw [mat_ext_iff]
  intro i j hi hj
  exact hermF_off (by omega) (by simp only [inTri]; omega)

theorem hermL_01' (a b : Nat) (g : Nat → Nat → T) :
    mat a b (sh 0 a (hermF .Lower g)) = mat a b (opF .ConjTrans (sh a 0 g)) := by
  rw [mat_ext_iff]
  intro i j hi hj
  exact hermF_off (by omega) (by simp only [inTri]; omega)

theorem mat_herm_keep {u : Uplo} {B : MatV L} {μ ν : Store L T} {p : Nat}
    (hp : B.m = p) (hq : B.n = p)
    (hk : ∀ i j, i < B.m → j < B.n → entry ν B i j = entry μ B i j) :
    mat p p (hermF u (entry ν B)) = mat p p (hermF u (entry μ B)) := by
  rw [mat_ext_iff]
  intro i j hi hj
  unfold hermF
  rw [hk _ _ (by omega) (by omega), hk _ _ (by omega) (by omega), hk _ _ (by omega) (by omega)]

/-- `G = α P Q + β C` by blocks. -/
theorem mat_ax4 {a b : Nat} {g p q c : Nat → Nat → T} {al be : T}
    (h00 : mat a a g = al • (mat a a p * mat a a q + mat a b (sh 0 a p) * mat b a (sh a 0 q)) + be • mat a a c)
    (h01 : mat a b (sh 0 a g) = al • (mat a a p * mat a b (sh 0 a q) + mat a b (sh 0 a p) * mat b b (sh a a q)) +
      be • mat a b (sh 0 a c))
    (h10 : mat b a (sh a 0 g) = al • (mat b a (sh a 0 p) * mat a a q + mat b b (sh a a p) * mat b a (sh a 0 q)) +
      be • mat b a (sh a 0 c))
    (h11 : mat b b (sh a a g) = al • (mat b a (sh a 0 p) * mat a b (sh 0 a q) +
      mat b b (sh a a p) * mat b b (sh a a q)) + be • mat b b (sh a a c)) :
    mat (a + b) (a + b) g = al • (mat (a + b) (a + b) p * mat (a + b) (a + b) q) + be • mat (a + b) (a + b) c := by
  have sp : ∀ (r s : Nat) (m n : Nat), mat m n (sh r s (fun i j => al * mulF (a + b) p q i j + be * c i j)) =
      al • (mat m a (sh r 0 p) * mat a n (sh 0 s q) + mat m b (sh r a p) * mat b n (sh a s q)) +
        be • mat m n (sh r s c) := by
    intro r s m n
    have e := mat_mul_block m (a + b) n r s p q
    rw [mat_mul_inner] at e
    simp only [sh_sh, Nat.zero_add, Nat.add_zero] at e
    rw [← e, mat_smul, mat_smul, mat_add]
    rfl
  rw [mat_mulF, mat_smul, mat_smul, mat_add]
  refine mat_ext4 ?_ ?_ ?_ ?_
  · have := sp 0 0 a a
    simp only [sh_zero] at this
    rw [this, h00]
  · have := sp 0 a a b
    simp only [sh_zero] at this
    rw [this, h01]
  · have := sp a 0 b a
    simp only [sh_zero] at this
    rw [this, h10]
  · rw [sp, h11]

set_option maxHeartbeats 2000000 in
theorem wp_multHehe {u : Uplo} (hu : u = .Upper ∨ u = .Lower) {alpha : T} :
    ∀ (n : Nat) {A B C : MatV L} {beta : Coef T} {μ : Store L T}, 0 < n → A.m = n → A.n = n → B.m = n → B.n = n →
    C.m = n → C.n = n → C.Inj → A.Disj C → B.Disj C →
    wp (multHehe u alpha A B beta C) μ (fun _ ν => Only C μ ν ∧ mat n n (entry ν C) =
      alpha • (mat n n (hermF u (entry μ A)) * mat n n (hermF u (entry μ B))) +
        beta.toVal • mat n n (entry μ C)) := by
  intro n
  induction n using Nat.strong_induction_on with
  | _ n ih =>
    intro A B C beta μ h0 ham han hbm hbn hcm hcn hC hA hB
    rw [multHehe]
    rw [if_neg (by omega)]
    by_cases h1 : n = 1
    · subst h1
      rw [dif_pos (by omega)]
      simp only [wp_bind]
      refine wp_getE ⟨by omega, by omega⟩ ?_
      refine wp_getE ⟨by omega, by omega⟩ ?_
      rw [wp_modify]
      refine ⟨⟨by omega, by omega⟩, ?_⟩
      have hs := MState.start C μ
      have hs' := hs.upd hC (i := 0) (j := 0) (G' := fun i j => alpha * (re (entry μ A 0 0) * re (entry μ B 0 0)) +
        beta.toVal * entry μ C i j) (v := beta.addMul (alpha * re (μ (A.cell 0 0)) * re (μ (B.cell 0 0)))
          (μ (C.cell 0 0))) (by omega) (by omega) (fun r c hr hc => by
          obtain rfl : r = 0 := by omega
          obtain rfl : c = 0 := by omega
          rw [if_pos ⟨rfl, rfl⟩, addMul_toVal]
          simp only [entry, mul_assoc])
      refine ⟨hs'.frame, ?_⟩
      rw [mat_mul, mat_smul, mat_smul, mat_add, mat_ext_iff]
      intro i j hi hj
      obtain rfl : i = 0 := by omega
      obtain rfl : j = 0 := by omega
      have := hs'.val 0 0 (by omega) (by omega)
      rw [entry, this]
      simp [hermF]
    rw [dif_neg (by omega)]
    obtain ⟨a, b, ha, hb, hab, hdiv⟩ : ∃ a b, 0 < a ∧ 0 < b ∧ n = a + b ∧ A.n / 2 = a :=
      ⟨A.n / 2, n - A.n / 2, by omega, by omega, by omega, rfl⟩
    simp only [hdiv, wp_bind]
    simp only [han]
    subst hab
    have hC00 : (C.sub 0 a 0 a).Inj := hC.sub (by omega) (by omega)
    have hC01 : (C.sub 0 a a (a + b)).Inj := hC.sub (by omega) (by omega)
    have hC10 : (C.sub a (a + b) 0 a).Inj := hC.sub (by omega) (by omega)
    have hC11 : (C.sub a (a + b) a (a + b)).Inj := hC.sub (by omega) (by omega)
    have dA : ∀ r0 r1 c0 c1 r0' r1' c0' c1', r1 ≤ a + b → c1 ≤ a + b → r1' ≤ a + b → c1' ≤ a + b →
        (A.sub r0 r1 c0 c1).Disj (C.sub r0' r1' c0' c1') := fun r0 r1 c0 c1 r0' r1' c0' c1' h1 h2 h3 h4 =>
      (hA.sub_left (by omega) (by omega)).sub_right (by omega) (by omega)
    have dB : ∀ r0 r1 c0 c1 r0' r1' c0' c1', r1 ≤ a + b → c1 ≤ a + b → r1' ≤ a + b → c1' ≤ a + b →
        (B.sub r0 r1 c0 c1).Disj (C.sub r0' r1' c0' c1') := fun r0 r1 c0 c1 r0' r1' c0' c1' h1 h2 h3 h4 =>
      (hB.sub_left (by omega) (by omega)).sub_right (by omega) (by omega)
    have kA : ∀ {ν}, Only C μ ν → ∀ r0 r1 c0 c1, r1 ≤ a + b → c1 ≤ a + b → ∀ i j, i < (A.sub r0 r1 c0 c1).m →
        j < (A.sub r0 r1 c0 c1).n → entry ν (A.sub r0 r1 c0 c1) i j = entry μ (A.sub r0 r1 c0 c1) i j :=
      fun o r0 r1 c0 c1 h1 h2 => o.keep (hA.sub_left (by omega) (by omega))
    have kB : ∀ {ν}, Only C μ ν → ∀ r0 r1 c0 c1, r1 ≤ a + b → c1 ≤ a + b → ∀ i j, i < (B.sub r0 r1 c0 c1).m →
        j < (B.sub r0 r1 c0 c1).n → entry ν (B.sub r0 r1 c0 c1) i j = entry μ (B.sub r0 r1 c0 c1) i j :=
      fun o r0 r1 c0 c1 h1 h2 => o.keep (hB.sub_left (by omega) (by omega))
    rcases hu with rfl | rfl
    · simp only [reduceIte, wp_bind]
      refine wp_sliceChk (by omega) (by omega) (by omega) (by omega) ?_
      refine wp_slice (by omega) (by omega) (by omega) (by omega) ?_
      refine wp_sliceChk (by omega) (by omega) (by omega) (by omega) ?_
      refine wp_sliceChk (by omega) (by omega) (by omega) (by omega) ?_
      refine wp_slice (by omega) (by omega) (by omega) (by omega) ?_
      refine wp_sliceChk (by omega) (by omega) (by omega) (by omega) ?_
      refine wp_sliceChk (by omega) (by omega) (by omega) (by omega) ?_
      refine wp_slice (by omega) (by omega) (by omega) (by omega) ?_
      refine wp_slice (by omega) (by omega) (by omega) (by omega) ?_
      refine wp_sliceChk (by omega) (by omega) (by omega) (by omega) ?_
      refine wp_conseq (ih a (by omega) ha (by simp [MatV.sub]) (by simp [MatV.sub]) (by simp [MatV.sub])
        (by simp [MatV.sub]) (by simp [MatV.sub]) (by simp [MatV.sub]) hC00
        (dA _ _ _ _ _ _ _ _ (by omega) (by omega) (by omega) (by omega))
        (dB _ _ _ _ _ _ _ _ (by omega) (by omega) (by omega) (by omega))) ?_
      rintro _ ν1 ⟨o1, e1⟩
      have O1 : Only C μ ν1 := o1.sub (by omega) (by omega)
      refine wp_conseq (wp_gemm_m (m := a) (n := a) (k := b) ⟨by decide, by decide, by simp [MatV.sub],
        by simp [MatV.sub], by simp [MatV.sub], by simp [MatV.sub], by simp [MatV.sub], by simp [MatV.sub],
        hC00, dA _ _ _ _ _ _ _ _ (by omega) (by omega) (by omega) (by omega),
        dB _ _ _ _ _ _ _ _ (by omega) (by omega) (by omega) (by omega)⟩) ?_
      rintro _ ν2 ⟨o2, e2⟩
      have O2 : Only C μ ν2 := O1.trans (o2.sub (by omega) (by omega))
      refine wp_conseq (wp_hemm2_left (m := a) (n := b) (Or.inl rfl) ⟨by decide, by simp [MatV.sub],
        by simp [MatV.sub], by simp [MatV.sub], by simp [MatV.sub], by simp [MatV.sub], by simp [MatV.sub], hC01,
        dA _ _ _ _ _ _ _ _ (by omega) (by omega) (by omega) (by omega),
        dB _ _ _ _ _ _ _ _ (by omega) (by omega) (by omega) (by omega)⟩) ?_
      rintro _ ν3 ⟨o3, e3⟩
      have O3 : Only C μ ν3 := O2.trans (o3.sub (by omega) (by omega))
      refine wp_conseq (wp_hemm2_right (m := a) (n := b) (Or.inl rfl) ⟨by decide, by simp [MatV.sub],
        by simp [MatV.sub], by simp [MatV.sub], by simp [MatV.sub], by simp [MatV.sub], by simp [MatV.sub], hC01,
        dB _ _ _ _ _ _ _ _ (by omega) (by omega) (by omega) (by omega),
        dA _ _ _ _ _ _ _ _ (by omega) (by omega) (by omega) (by omega)⟩) ?_
      rintro _ ν4 ⟨o4, e4⟩
      have O4 : Only C μ ν4 := O3.trans (o4.sub (by omega) (by omega))
      refine wp_conseq (wp_hemm2_left (m := b) (n := a) (Or.inl rfl) ⟨by decide, by simp [MatV.sub],
        by simp [MatV.sub], by simp [MatV.sub], by simp [MatV.sub], by simp [MatV.sub], by simp [MatV.sub], hC10,
        dA _ _ _ _ _ _ _ _ (by omega) (by omega) (by omega) (by omega),
        dB _ _ _ _ _ _ _ _ (by omega) (by omega) (by omega) (by omega)⟩) ?_
      rintro _ ν5 ⟨o5, e5⟩
      have O5 : Only C μ ν5 := O4.trans (o5.sub (by omega) (by omega))
      refine wp_conseq (wp_hemm2_right (m := b) (n := a) (Or.inl rfl) ⟨by decide, by simp [MatV.sub],
        by simp [MatV.sub], by simp [MatV.sub], by simp [MatV.sub], by simp [MatV.sub], by simp [MatV.sub], hC10,
        dB _ _ _ _ _ _ _ _ (by omega) (by omega) (by omega) (by omega),
        dA _ _ _ _ _ _ _ _ (by omega) (by omega) (by omega) (by omega)⟩) ?_
      rintro _ ν6 ⟨o6, e6⟩
      have O6 : Only C μ ν6 := O5.trans (o6.sub (by omega) (by omega))
      refine wp_conseq (ih b (by omega) hb (by simp [MatV.sub]) (by simp [MatV.sub]) (by simp [MatV.sub])
        (by simp [MatV.sub]) (by simp [MatV.sub]) (by simp [MatV.sub]) hC11
        (dA _ _ _ _ _ _ _ _ (by omega) (by omega) (by omega) (by omega))
        (dB _ _ _ _ _ _ _ _ (by omega) (by omega) (by omega) (by omega))) ?_
      rintro _ ν7 ⟨o7, e7⟩
      have O7 : Only C μ ν7 := O6.trans (o7.sub (by omega) (by omega))
      refine wp_conseq (wp_gemm_m (m := b) (n := b) (k := a) ⟨by decide, by decide, by simp [MatV.sub],
        by simp [MatV.sub], by simp [MatV.sub], by simp [MatV.sub], by simp [MatV.sub], by simp [MatV.sub],
        hC11, dA _ _ _ _ _ _ _ _ (by omega) (by omega) (by omega) (by omega),
        dB _ _ _ _ _ _ _ _ (by omega) (by omega) (by omega) (by omega)⟩) ?_
      rintro _ ν8 ⟨o8, e8⟩
      refine ⟨O7.trans (o8.sub (by omega) (by omega)), ?_⟩
      rw [mat_opF_keep (by decide) (by simp [MatV.sub, opRows]) (by simp [MatV.sub, opCols])
          (kA O1 _ _ _ _ (by omega) (by omega)),
        mat_opF_keep (by decide) (by simp [MatV.sub, opRows]) (by simp [MatV.sub, opCols])
          (kB O1 _ _ _ _ (by omega) (by omega)), e1] at e2
      rw [mat_herm_keep (by simp [MatV.sub]) (by simp [MatV.sub]) (kA O2 _ _ _ _ (by omega) (by omega)),
        mat_opF_keep (by decide) (by simp [MatV.sub, opRows]) (by simp [MatV.sub, opCols])
          (kB O2 _ _ _ _ (by omega) (by omega))] at e3
      rw [mat_herm_keep (by simp [MatV.sub]) (by simp [MatV.sub]) (kB O3 _ _ _ _ (by omega) (by omega)),
        mat_opF_keep (by decide) (by simp [MatV.sub, opRows]) (by simp [MatV.sub, opCols])
          (kA O3 _ _ _ _ (by omega) (by omega)), e3] at e4
      rw [mat_herm_keep (by simp [MatV.sub]) (by simp [MatV.sub]) (kA O4 _ _ _ _ (by omega) (by omega)),
        mat_opF_keep (by decide) (by simp [MatV.sub, opRows]) (by simp [MatV.sub, opCols])
          (kB O4 _ _ _ _ (by omega) (by omega))] at e5
      rw [mat_herm_keep (by simp [MatV.sub]) (by simp [MatV.sub]) (kB O5 _ _ _ _ (by omega) (by omega)),
        mat_opF_keep (by decide) (by simp [MatV.sub, opRows]) (by simp [MatV.sub, opCols])
          (kA O5 _ _ _ _ (by omega) (by omega)), e5] at e6
      rw [mat_herm_keep (by simp [MatV.sub]) (by simp [MatV.sub]) (kA O6 _ _ _ _ (by omega) (by omega)),
        mat_herm_keep (by simp [MatV.sub]) (by simp [MatV.sub]) (kB O6 _ _ _ _ (by omega) (by omega))] at e7
      rw [mat_opF_keep (by decide) (by simp [MatV.sub, opRows]) (by simp [MatV.sub, opCols])
          (kA O7 _ _ _ _ (by omega) (by omega)),
        mat_opF_keep (by decide) (by simp [MatV.sub, opRows]) (by simp [MatV.sub, opCols])
          (kB O7 _ _ _ _ (by omega) (by omega)), e7] at e8
      have nt : ∀ g : Nat → Nat → T, opF .NoTrans g = g := fun g => rfl
      simp only [nt, sh_entry, sh_zero, hemm2Tri, reduceCtorEq, reduceIte, false_and, and_self, and_false,
        Coef.toVal, one_smul] at e2 e4 e6 e8
      -- blocks not written
      have f00 : mat a a (entry ν8 C) = mat a a (entry ν2 C) := by
        have g3 := o3.blk hC (by omega) (by omega) (p := a) (q := a) (r := 0) (c := 0) (by omega) (by omega) (by omega)
        have g4 := o4.blk hC (by omega) (by omega) (p := a) (q := a) (r := 0) (c := 0) (by omega) (by omega) (by omega)
        have g5 := o5.blk hC (by omega) (by omega) (p := a) (q := a) (r := 0) (c := 0) (by omega) (by omega) (by omega)
        have g6 := o6.blk hC (by omega) (by omega) (p := a) (q := a) (r := 0) (c := 0) (by omega) (by omega) (by omega)
        have g7 := o7.blk hC (by omega) (by omega) (p := a) (q := a) (r := 0) (c := 0) (by omega) (by omega) (by omega)
        have g8 := o8.blk hC (by omega) (by omega) (p := a) (q := a) (r := 0) (c := 0) (by omega) (by omega) (by omega)
        simp only [sh_zero] at g3 g4 g5 g6 g7 g8
        rw [g8, g7, g6, g5, g4, g3]
      have f01 : mat a b (sh 0 a (entry ν8 C)) = mat a b (sh 0 a (entry ν4 C)) := by
        rw [o8.blk hC (by omega) (by omega) (by omega) (by omega) (by omega),
          o7.blk hC (by omega) (by omega) (by omega) (by omega) (by omega),
          o6.blk hC (by omega) (by omega) (by omega) (by omega) (by omega),
          o5.blk hC (by omega) (by omega) (by omega) (by omega) (by omega)]
      have f01' : mat a b (sh 0 a (entry ν2 C)) = mat a b (sh 0 a (entry μ C)) := by
        rw [o2.blk hC (by omega) (by omega) (by omega) (by omega) (by omega),
          o1.blk hC (by omega) (by omega) (by omega) (by omega) (by omega)]
      have f10 : mat b a (sh a 0 (entry ν8 C)) = mat b a (sh a 0 (entry ν6 C)) := by
        rw [o8.blk hC (by omega) (by omega) (by omega) (by omega) (by omega),
          o7.blk hC (by omega) (by omega) (by omega) (by omega) (by omega)]
      have f10' : mat b a (sh a 0 (entry ν4 C)) = mat b a (sh a 0 (entry μ C)) := by
        rw [o4.blk hC (by omega) (by omega) (by omega) (by omega) (by omega),
          o3.blk hC (by omega) (by omega) (by omega) (by omega) (by omega),
          o2.blk hC (by omega) (by omega) (by omega) (by omega) (by omega),
          o1.blk hC (by omega) (by omega) (by omega) (by omega) (by omega)]
      have f11' : mat b b (sh a a (entry ν6 C)) = mat b b (sh a a (entry μ C)) := by
        rw [o6.blk hC (by omega) (by omega) (by omega) (by omega) (by omega),
          o5.blk hC (by omega) (by omega) (by omega) (by omega) (by omega),
          o4.blk hC (by omega) (by omega) (by omega) (by omega) (by omega),
          o3.blk hC (by omega) (by omega) (by omega) (by omega) (by omega),
          o2.blk hC (by omega) (by omega) (by omega) (by omega) (by omega),
          o1.blk hC (by omega) (by omega) (by omega) (by omega) (by omega)]
      refine mat_ax4 ?_ ?_ ?_ ?_
      · rw [f00, e2, hermU_01, hermU_10']
        simp only [smul_add]
        abel
      · rw [f01, e4, f01', hermU_01, hermU_01, hermF_sh (Or.inl rfl)]
        simp only [smul_add]
        abel
      · rw [f10, e6, f10', hermU_10', hermU_10', hermF_sh (Or.inl rfl)]
        simp only [smul_add]
        abel
      · rw [e8, f11', hermU_10', hermU_01, hermF_sh (Or.inl rfl), hermF_sh (Or.inl rfl)]
        simp only [smul_add]
        abel
    · simp only [reduceCtorEq, reduceIte, wp_bind]
      refine wp_sliceChk (by omega) (by omega) (by omega) (by omega) ?_
      refine wp_slice (by omega) (by omega) (by omega) (by omega) ?_
      refine wp_sliceChk (by omega) (by omega) (by omega) (by omega) ?_
      refine wp_sliceChk (by omega) (by omega) (by omega) (by omega) ?_
      refine wp_slice (by omega) (by omega) (by omega) (by omega) ?_
      refine wp_sliceChk (by omega) (by omega) (by omega) (by omega) ?_
      refine wp_sliceChk (by omega) (by omega) (by omega) (by omega) ?_
      refine wp_slice (by omega) (by omega) (by omega) (by omega) ?_
      refine wp_slice (by omega) (by omega) (by omega) (by omega) ?_
      refine wp_sliceChk (by omega) (by omega) (by omega) (by omega) ?_
      refine wp_conseq (ih a (by omega) ha (by simp [MatV.sub]) (by simp [MatV.sub]) (by simp [MatV.sub])
        (by simp [MatV.sub]) (by simp [MatV.sub]) (by simp [MatV.sub]) hC00
        (dA _ _ _ _ _ _ _ _ (by omega) (by omega) (by omega) (by omega))
        (dB _ _ _ _ _ _ _ _ (by omega) (by omega) (by omega) (by omega))) ?_
      rintro _ ν1 ⟨o1, e1⟩
      have O1 : Only C μ ν1 := o1.sub (by omega) (by omega)
      refine wp_conseq (wp_gemm_m (m := a) (n := a) (k := b) ⟨by decide, by decide, by simp [MatV.sub],
        by simp [MatV.sub], by simp [MatV.sub], by simp [MatV.sub], by simp [MatV.sub], by simp [MatV.sub],
        hC00, dA _ _ _ _ _ _ _ _ (by omega) (by omega) (by omega) (by omega),
        dB _ _ _ _ _ _ _ _ (by omega) (by omega) (by omega) (by omega)⟩) ?_
      rintro _ ν2 ⟨o2, e2⟩
      have O2 : Only C μ ν2 := O1.trans (o2.sub (by omega) (by omega))
      refine wp_conseq (wp_hemm2_right (m := b) (n := a) (Or.inr (Or.inl rfl)) ⟨by decide, by simp [MatV.sub],
        by simp [MatV.sub], by simp [MatV.sub], by simp [MatV.sub], by simp [MatV.sub], by simp [MatV.sub], hC10,
        dB _ _ _ _ _ _ _ _ (by omega) (by omega) (by omega) (by omega),
        dA _ _ _ _ _ _ _ _ (by omega) (by omega) (by omega) (by omega)⟩) ?_
      rintro _ ν3 ⟨o3, e3⟩
      have O3 : Only C μ ν3 := O2.trans (o3.sub (by omega) (by omega))
      refine wp_conseq (wp_hemm2_left (m := b) (n := a) (Or.inr (Or.inl rfl)) ⟨by decide, by simp [MatV.sub],
        by simp [MatV.sub], by simp [MatV.sub], by simp [MatV.sub], by simp [MatV.sub], by simp [MatV.sub], hC10,
        dA _ _ _ _ _ _ _ _ (by omega) (by omega) (by omega) (by omega),
        dB _ _ _ _ _ _ _ _ (by omega) (by omega) (by omega) (by omega)⟩) ?_
      rintro _ ν4 ⟨o4, e4⟩
      have O4 : Only C μ ν4 := O3.trans (o4.sub (by omega) (by omega))
      refine wp_conseq (wp_hemm2_left (m := a) (n := b) (Or.inr (Or.inl rfl)) ⟨by decide, by simp [MatV.sub],
        by simp [MatV.sub], by simp [MatV.sub], by simp [MatV.sub], by simp [MatV.sub], by simp [MatV.sub], hC01,
        dA _ _ _ _ _ _ _ _ (by omega) (by omega) (by omega) (by omega),
        dB _ _ _ _ _ _ _ _ (by omega) (by omega) (by omega) (by omega)⟩) ?_
      rintro _ ν5 ⟨o5, e5⟩
      have O5 : Only C μ ν5 := O4.trans (o5.sub (by omega) (by omega))
      refine wp_conseq (wp_hemm2_right (m := a) (n := b) (Or.inr (Or.inl rfl)) ⟨by decide, by simp [MatV.sub],
        by simp [MatV.sub], by simp [MatV.sub], by simp [MatV.sub], by simp [MatV.sub], by simp [MatV.sub], hC01,
        dB _ _ _ _ _ _ _ _ (by omega) (by omega) (by omega) (by omega),
        dA _ _ _ _ _ _ _ _ (by omega) (by omega) (by omega) (by omega)⟩) ?_
      rintro _ ν6 ⟨o6, e6⟩
      have O6 : Only C μ ν6 := O5.trans (o6.sub (by omega) (by omega))
      refine wp_conseq (ih b (by omega) hb (by simp [MatV.sub]) (by simp [MatV.sub]) (by simp [MatV.sub])
        (by simp [MatV.sub]) (by simp [MatV.sub]) (by simp [MatV.sub]) hC11
        (dA _ _ _ _ _ _ _ _ (by omega) (by omega) (by omega) (by omega))
        (dB _ _ _ _ _ _ _ _ (by omega) (by omega) (by omega) (by omega))) ?_
      rintro _ ν7 ⟨o7, e7⟩
      have O7 : Only C μ ν7 := O6.trans (o7.sub (by omega) (by omega))
      refine wp_conseq (wp_gemm_m (m := b) (n := b) (k := a) ⟨by decide, by decide, by simp [MatV.sub],
        by simp [MatV.sub], by simp [MatV.sub], by simp [MatV.sub], by simp [MatV.sub], by simp [MatV.sub],
        hC11, dA _ _ _ _ _ _ _ _ (by omega) (by omega) (by omega) (by omega),
        dB _ _ _ _ _ _ _ _ (by omega) (by omega) (by omega) (by omega)⟩) ?_
      rintro _ ν8 ⟨o8, e8⟩
      refine ⟨O7.trans (o8.sub (by omega) (by omega)), ?_⟩
      rw [mat_opF_keep (by decide) (by simp [MatV.sub, opRows]) (by simp [MatV.sub, opCols])
          (kA O1 _ _ _ _ (by omega) (by omega)),
        mat_opF_keep (by decide) (by simp [MatV.sub, opRows]) (by simp [MatV.sub, opCols])
          (kB O1 _ _ _ _ (by omega) (by omega)), e1] at e2
      rw [mat_herm_keep (by simp [MatV.sub]) (by simp [MatV.sub]) (kB O2 _ _ _ _ (by omega) (by omega)),
        mat_opF_keep (by decide) (by simp [MatV.sub, opRows]) (by simp [MatV.sub, opCols])
          (kA O2 _ _ _ _ (by omega) (by omega))] at e3
      rw [mat_herm_keep (by simp [MatV.sub]) (by simp [MatV.sub]) (kA O3 _ _ _ _ (by omega) (by omega)),
        mat_opF_keep (by decide) (by simp [MatV.sub, opRows]) (by simp [MatV.sub, opCols])
          (kB O3 _ _ _ _ (by omega) (by omega)), e3] at e4
      rw [mat_herm_keep (by simp [MatV.sub]) (by simp [MatV.sub]) (kA O4 _ _ _ _ (by omega) (by omega)),
        mat_opF_keep (by decide) (by simp [MatV.sub, opRows]) (by simp [MatV.sub, opCols])
          (kB O4 _ _ _ _ (by omega) (by omega))] at e5
      rw [mat_herm_keep (by simp [MatV.sub]) (by simp [MatV.sub]) (kB O5 _ _ _ _ (by omega) (by omega)),
        mat_opF_keep (by decide) (by simp [MatV.sub, opRows]) (by simp [MatV.sub, opCols])
          (kA O5 _ _ _ _ (by omega) (by omega)), e5] at e6
      rw [mat_herm_keep (by simp [MatV.sub]) (by simp [MatV.sub]) (kA O6 _ _ _ _ (by omega) (by omega)),
        mat_herm_keep (by simp [MatV.sub]) (by simp [MatV.sub]) (kB O6 _ _ _ _ (by omega) (by omega))] at e7
      rw [mat_opF_keep (by decide) (by simp [MatV.sub, opRows]) (by simp [MatV.sub, opCols])
          (kA O7 _ _ _ _ (by omega) (by omega)),
        mat_opF_keep (by decide) (by simp [MatV.sub, opRows]) (by simp [MatV.sub, opCols])
          (kB O7 _ _ _ _ (by omega) (by omega)), e7] at e8
      have nt : ∀ g : Nat → Nat → T, opF .NoTrans g = g := fun g => rfl
      simp only [nt, sh_entry, sh_zero, hemm2Tri, reduceCtorEq, reduceIte, false_and, and_self, and_false,
        Coef.toVal, one_smul] at e2 e4 e6 e8
      -- blocks not written
      have f00 : mat a a (entry ν8 C) = mat a a (entry ν2 C) := by
        have g3 := o3.blk hC (by omega) (by omega) (p := a) (q := a) (r := 0) (c := 0) (by omega) (by omega) (by omega)
        have g4 := o4.blk hC (by omega) (by omega) (p := a) (q := a) (r := 0) (c := 0) (by omega) (by omega) (by omega)
        have g5 := o5.blk hC (by omega) (by omega) (p := a) (q := a) (r := 0) (c := 0) (by omega) (by omega) (by omega)
        have g6 := o6.blk hC (by omega) (by omega) (p := a) (q := a) (r := 0) (c := 0) (by omega) (by omega) (by omega)
        have g7 := o7.blk hC (by omega) (by omega) (p := a) (q := a) (r := 0) (c := 0) (by omega) (by omega) (by omega)
        have g8 := o8.blk hC (by omega) (by omega) (p := a) (q := a) (r := 0) (c := 0) (by omega) (by omega) (by omega)
        simp only [sh_zero] at g3 g4 g5 g6 g7 g8
        rw [g8, g7, g6, g5, g4, g3]
      have f10 : mat b a (sh a 0 (entry ν8 C)) = mat b a (sh a 0 (entry ν4 C)) := by
        rw [o8.blk hC (by omega) (by omega) (by omega) (by omega) (by omega),
          o7.blk hC (by omega) (by omega) (by omega) (by omega) (by omega),
          o6.blk hC (by omega) (by omega) (by omega) (by omega) (by omega),
          o5.blk hC (by omega) (by omega) (by omega) (by omega) (by omega)]
      have f10' : mat b a (sh a 0 (entry ν2 C)) = mat b a (sh a 0 (entry μ C)) := by
        rw [o2.blk hC (by omega) (by omega) (by omega) (by omega) (by omega),
          o1.blk hC (by omega) (by omega) (by omega) (by omega) (by omega)]
      have f01 : mat a b (sh 0 a (entry ν8 C)) = mat a b (sh 0 a (entry ν6 C)) := by
        rw [o8.blk hC (by omega) (by omega) (by omega) (by omega) (by omega),
          o7.blk hC (by omega) (by omega) (by omega) (by omega) (by omega)]
      have f01' : mat a b (sh 0 a (entry ν4 C)) = mat a b (sh 0 a (entry μ C)) := by
        rw [o4.blk hC (by omega) (by omega) (by omega) (by omega) (by omega),
          o3.blk hC (by omega) (by omega) (by omega) (by omega) (by omega),
          o2.blk hC (by omega) (by omega) (by omega) (by omega) (by omega),
          o1.blk hC (by omega) (by omega) (by omega) (by omega) (by omega)]
      have f11' : mat b b (sh a a (entry ν6 C)) = mat b b (sh a a (entry μ C)) := by
        rw [o6.blk hC (by omega) (by omega) (by omega) (by omega) (by omega),
          o5.blk hC (by omega) (by omega) (by omega) (by omega) (by omega),
          o4.blk hC (by omega) (by omega) (by omega) (by omega) (by omega),
          o3.blk hC (by omega) (by omega) (by omega) (by omega) (by omega),
          o2.blk hC (by omega) (by omega) (by omega) (by omega) (by omega),
          o1.blk hC (by omega) (by omega) (by omega) (by omega) (by omega)]
      refine mat_ax4 ?_ ?_ ?_ ?_
      · rw [f00, e2, hermL_01', hermL_10]
        simp only [smul_add]
        abel
      · rw [f01, e6, f01', hermL_01', hermL_01', hermF_sh (Or.inr rfl)]
        simp only [smul_add]
        abel
      · rw [f10, e4, f10', hermL_10, hermL_10, hermF_sh (Or.inr rfl)]
        simp only [smul_add]
        abel
      · rw [e8, f11', hermL_10, hermL_01', hermF_sh (Or.inr rfl), hermF_sh (Or.inr rfl)]
        simp only [smul_add]
        abel

end hemm2
end TLA
