import Verif.Proofs.Trsm

namespace TLA
set_option linter.unusedTactic false
set_option linter.unreachableTactic false
variable {L T : Type} [DecidableEq L]

section
variable {f : T → T} {uplo : Uplo} {diag : Diag} {A B : MatV L} {alpha : T} {μ0 μ : Store L T}

/-- `d * v` unless the diagonal is unit. -/
def dMul [Mul T] (diag : Diag) (d v : T) : T := if diag = .NonUnit then d * v else v

/-- `B(k,j) = A(k,k) * v` (or `v`). -/
theorem wp_setStep [Mul T] {G : Nat → Nat → T} {k j : Nat} {v : T} (hB : B.Inj) (hA : A.Disj B)
    (hk : k < B.m) (hj : j < B.n) (hk1 : k < A.m) (hk2 : k < A.n) (h : MState B μ0 G μ) :
    wp (if diag = .NonUnit then do
          let a ← A.get k k
          B.set k j (a * v) else B.set k j v) μ
      (fun _ ν => MState B μ0 (fun i' j' => if i' = k ∧ j' = j then
            dMul diag (entry μ0 A k k) v else G i' j') ν) := by
  rw [wp_ite]
  split
  · rename_i hd
    simp only [wp_bind, wp_get, wp_set]
    refine ⟨⟨hk1, hk2⟩, ⟨hk, hj⟩, h.upd hB hk hj ?_⟩
    intro i' j' _ _
    rw [h.read hA hk1 hk2]
    simp only [dMul, hd, if_true, entry]
  · rename_i hd
    simp only [wp_set]
    refine ⟨⟨hk, hj⟩, h.upd hB hk hj ?_⟩
    intro i' j' _ _
    simp only [dMul, hd, if_false]

/-- The continuation-duplicated form of `wp_setStep`. -/
theorem wp_setStep' {c : Prop} [Decidable c] {α β γ : Type} {x : M L T α} {y : α → M L T γ}
    {z : M L T γ} {r : M L T β} {Q E} :
    wp (if c then (x >>= fun a => (y a >>= fun _ => r)) else (z >>= fun _ => r)) μ Q E ↔
      wp (if c then (x >>= y) else z) μ (fun _ ν => wp r ν Q E) E := by
  split <;> simp

theorem wp_trmmLN [Add T] [Mul T] (hu : uplo = .Upper ∨ uplo = .Lower)
    (hB : B.Inj) (hA : A.Disj B) (hAm : A.m = B.m) (hAn : A.n = B.m) :
    wp (trmmLN uplo diag alpha A B B.m B.n) μ (fun _ ν => MState B μ (fun i j => if uplo = .Upper
        then foldUp (i + 1) B.m (dMul diag (entry μ A i i) (alpha * entry μ B i j))
          (fun l acc => acc + entry μ A i l * (alpha * entry μ B l j))
        else foldDown 0 i (dMul diag (entry μ A i i) (alpha * entry μ B i j))
          (fun l acc => acc + entry μ A i l * (alpha * entry μ B l j))) ν) := by
  unfold trmmLN
  rcases hu with rfl | rfl
  · simp only [if_true]
    refine wp_forCols _ rfl (MState.start B μ) ?_
    intro j ν hj hν
    refine wp_forUp_ (fun k ν => MState B μ (fun i' j' => if j' = j ∧ i' < k then
        foldUp (i' + 1) k (dMul diag (entry μ A i' i') (alpha * entry μ B i' j))
          (fun l acc => acc + entry μ A i' l * (alpha * entry μ B l j)) else
        if j' < j then foldUp (i' + 1) B.m (dMul diag (entry μ A i' i') (alpha * entry μ B i' j'))
          (fun l acc => acc + entry μ A i' l * (alpha * entry μ B l j')) else entry μ B i' j') ν)
      (Nat.zero_le _) (by simpa using hν) ?_ ?_
    · intro k ν _ hk hν
      simp only [wp_bind, wp_get]
      refine ⟨⟨hk, hj⟩, ?_⟩
      rw [hν.at k j hk hj ((if_neg (by omega)).trans (if_neg (by omega)))]
      refine wp_conseq (wp_colLoop (j := j) (fun i =>
          foldUp (i + 1) (k + 1) (dMul diag (entry μ A i i) (alpha * entry μ B i j))
          (fun l acc => acc + entry μ A i l * (alpha * entry μ B l j))) hν hB hj (by omega)
          (Nat.zero_le _) ?_) ?_
      · intro i ν _ hi hν
        simp only [wp_bind, wp_get, wp_modify]
        refine ⟨⟨by omega, by omega⟩, ⟨by omega, by omega⟩, ?_⟩
        rw [hν.at i j (by omega) hj ((if_neg (by omega)).trans (if_pos ⟨rfl, hi⟩)),
          hν.read hA (by omega) (by omega), foldUp_succ (by omega)]
        rfl
      · intro _ ν hν
        refine wp_conseq (wp_setStep hB hA hk hj (by omega) (by omega) hν) ?_
        intro _ ν hν
        refine hν.congr (fun i' j' _ _ => ?_)
        by_cases e : j' = j
        · subst e
          by_cases e' : i' = k
          · subst e'; simp
          · ifs
        · ifs
    · intro ν hν
      refine hν.congr (fun i' j' _ _ => ?_)
      ifs
  · simp only [reduceCtorEq, if_false]
    refine wp_forCols _ rfl (MState.start B μ) ?_
    intro j ν hj hν
    refine wp_forDown_ (fun k ν => MState B μ (fun i' j' => if j' = j ∧ k ≤ i' then
        foldDown k i' (dMul diag (entry μ A i' i') (alpha * entry μ B i' j))
          (fun l acc => acc + entry μ A i' l * (alpha * entry μ B l j)) else
        if j' < j then foldDown 0 i' (dMul diag (entry μ A i' i') (alpha * entry μ B i' j'))
          (fun l acc => acc + entry μ A i' l * (alpha * entry μ B l j')) else entry μ B i' j') ν)
      (Nat.zero_le _) (hν.congr (fun i' j' _ _ => by rw [if_neg (by omega)])) ?_ ?_
    · intro k ν _ hk hν
      simp only [wp_bind, wp_get]
      refine ⟨⟨hk, hj⟩, ?_⟩
      rw [hν.at k j hk hj ((if_neg (by omega)).trans (if_neg (by omega))), wp_setStep']
      refine wp_conseq (wp_setStep hB hA hk hj (by omega) (by omega) hν) ?_
      intro _ ν hν
      refine wp_conseq (wp_colLoop (j := j) (fun i =>
          foldDown k i (dMul diag (entry μ A i i) (alpha * entry μ B i j))
          (fun l acc => acc + entry μ A i l * (alpha * entry μ B l j))) hν hB hj (by omega)
          (by omega) ?_) ?_
      · intro i ν h1 hi hν
        simp only [wp_bind, wp_get, wp_modify]
        refine ⟨⟨by omega, by omega⟩, ⟨by omega, by omega⟩, ?_⟩
        rw [hν.at i j (by omega) hj ((if_neg (by omega)).trans ((if_neg (by omega)).trans
            (if_pos ⟨rfl, by omega⟩))),
          hν.read hA (by omega) (by omega), foldDown_bot (by omega : k < i)]
        rfl
      · intro _ ν hν
        refine hν.congr (fun i' j' _ _ => ?_)
        by_cases e : j' = j
        · subst e
          by_cases e' : i' = k
          · subst e'; simp
          · ifs
        · ifs
    · intro ν hν
      refine hν.congr (fun i' j' _ _ => ?_)
      ifs

/-- `sum = f(A(k,k)) * v` (or `v`). -/
theorem wp_valStep [Mul T] {G : Nat → Nat → T} {k : Nat} {v : T} (hA : A.Disj B)
    (hk1 : k < A.m) (hk2 : k < A.n) (h : MState B μ0 G μ) {Q : T → Store L T → Prop}
    (hQ : Q (dMul diag (f (entry μ0 A k k)) v) μ) :
    wp (if diag = .NonUnit then do
          let a ← A.get k k
          pure (f a * v) else pure v) μ Q := by
  rw [wp_ite]
  split
  · rename_i hd
    simp only [wp_bind, wp_get, wp_pure]
    refine ⟨⟨hk1, hk2⟩, ?_⟩
    rw [h.read hA hk1 hk2]
    simpa only [dMul, hd, if_true, entry] using hQ
  · rename_i hd
    simp only [wp_pure]
    simpa only [dMul, hd, if_false] using hQ

theorem wp_trmmLT [Add T] [Mul T] (hu : uplo = .Upper ∨ uplo = .Lower)
    (hB : B.Inj) (hA : A.Disj B) (hAm : A.m = B.m) (hAn : A.n = B.m) :
    wp (trmmLT f uplo diag alpha A B B.m B.n) μ (fun _ ν => MState B μ (fun i j => if uplo = .Upper
        then alpha * foldUp 0 i (dMul diag (f (entry μ A i i)) (entry μ B i j))
          (fun l acc => acc + f (entry μ A l i) * entry μ B l j)
        else alpha * foldUp (i + 1) B.m (dMul diag (f (entry μ A i i)) (entry μ B i j))
          (fun l acc => acc + f (entry μ A l i) * entry μ B l j)) ν) := by
  unfold trmmLT
  rcases hu with rfl | rfl
  · simp only [if_true]
    refine wp_forCols _ rfl (MState.start B μ) ?_
    intro j ν hj hν
    refine wp_forDown_ (fun k ν => MState B μ (fun i' j' => if j' = j ∧ k ≤ i' then
        alpha * foldUp 0 i' (dMul diag (f (entry μ A i' i')) (entry μ B i' j))
          (fun l acc => acc + f (entry μ A l i') * entry μ B l j) else
        if j' < j then alpha * foldUp 0 i' (dMul diag (f (entry μ A i' i')) (entry μ B i' j'))
          (fun l acc => acc + f (entry μ A l i') * entry μ B l j') else entry μ B i' j') ν)
      (Nat.zero_le _) (hν.congr (fun i' j' _ _ => by rw [if_neg (by omega)])) ?_ ?_
    · intro k ν _ hk hν
      simp only [wp_bind, wp_get]
      refine ⟨⟨hk, hj⟩, ?_⟩
      rw [hν.at k j hk hj ((if_neg (by omega)).trans (if_neg (by omega))), wp_optVal]
      refine wp_valStep hA (by omega) (by omega) hν ?_
      simp only [wp_bind]
      refine wp_conseq (wp_sumLoop (fun l acc => acc + f (entry μ A l k) * entry μ B l j)
        (Nat.zero_le _) ?_) ?_
      · intro i s _ hi
        simp only [wp_bind, wp_get, wp_pure]
        refine ⟨⟨by omega, by omega⟩, ⟨by omega, by omega⟩, ?_, trivial⟩
        rw [hν.read hA (by omega) (by omega),
          hν.at i j (by omega) hj ((if_neg (by omega)).trans (if_neg (by omega)))]
        rfl
      · rintro _ _ ⟨rfl, rfl⟩
        simp only [wp_set]
        refine ⟨⟨hk, hj⟩, hν.upd hB hk hj ?_⟩
        intro i' j' _ _
        by_cases e : j' = j
        · subst e; ifs_eq i' k
        · ifs
    · intro ν hν
      refine hν.congr (fun i' j' _ _ => ?_)
      ifs
  · simp only [reduceCtorEq, if_false]
    refine wp_forCols _ rfl (MState.start B μ) ?_
    intro j ν hj hν
    refine wp_forUp_ (fun k ν => MState B μ (fun i' j' => if j' = j ∧ i' < k then
        alpha * foldUp (i' + 1) B.m (dMul diag (f (entry μ A i' i')) (entry μ B i' j))
          (fun l acc => acc + f (entry μ A l i') * entry μ B l j) else
        if j' < j then alpha * foldUp (i' + 1) B.m (dMul diag (f (entry μ A i' i')) (entry μ B i' j'))
          (fun l acc => acc + f (entry μ A l i') * entry μ B l j') else entry μ B i' j') ν)
      (Nat.zero_le _) (by simpa using hν) ?_ ?_
    · intro k ν _ hk hν
      simp only [wp_bind, wp_get]
      refine ⟨⟨hk, hj⟩, ?_⟩
      rw [hν.at k j hk hj ((if_neg (by omega)).trans (if_neg (by omega))), wp_optVal]
      refine wp_valStep hA (by omega) (by omega) hν ?_
      simp only [wp_bind]
      refine wp_conseq (wp_sumLoop (fun l acc => acc + f (entry μ A l k) * entry μ B l j)
        (by omega) ?_) ?_
      · intro i s h1 hi
        simp only [wp_bind, wp_get, wp_pure]
        refine ⟨⟨by omega, by omega⟩, ⟨by omega, by omega⟩, ?_, trivial⟩
        rw [hν.read hA (by omega) (by omega),
          hν.at i j (by omega) hj ((if_neg (by omega)).trans (if_neg (by omega)))]
        rfl
      · rintro _ _ ⟨rfl, rfl⟩
        simp only [wp_set]
        refine ⟨⟨hk, hj⟩, hν.upd hB hk hj ?_⟩
        intro i' j' _ _
        by_cases e : j' = j
        · subst e; ifs_eq i' k
        · ifs
    · intro ν hν
      refine hν.congr (fun i' j' _ _ => ?_)
      ifs

/-- `alpha * f(A(k,k))` (or `alpha`). -/
def mulDiag [Mul T] (diag : Diag) (alpha d : T) : T := if diag = .NonUnit then alpha * d else alpha

theorem wp_diagStep [Mul T] {G : Nat → Nat → T} {k : Nat} (hA : A.Disj B)
    (hk1 : k < A.m) (hk2 : k < A.n) (h : MState B μ0 G μ) {Q : T → Store L T → Prop}
    (hQ : Q (mulDiag diag alpha (f (entry μ0 A k k))) μ) :
    wp (if diag = .NonUnit then do
          let a ← A.get k k
          pure (alpha * f a) else pure alpha) μ Q := by
  rw [wp_ite]
  split
  · rename_i hd
    simp only [wp_bind, wp_get, wp_pure]
    refine ⟨⟨hk1, hk2⟩, ?_⟩
    rw [h.read hA hk1 hk2]
    simpa only [mulDiag, hd, if_true, entry] using hQ
  · rename_i hd
    simp only [wp_pure]
    simpa only [mulDiag, hd, if_false] using hQ

theorem wp_trmmRN [Add T] [Mul T] (hu : uplo = .Upper ∨ uplo = .Lower)
    (hB : B.Inj) (hA : A.Disj B) (hAm : A.m = B.n) (hAn : A.n = B.n) :
    wp (trmmRN uplo diag alpha A B B.m B.n) μ (fun _ ν => MState B μ (fun i j => if uplo = .Upper
        then foldUp 0 j (entry μ B i j * mulDiag diag alpha (entry μ A j j))
          (fun l acc => acc + entry μ B i l * (alpha * entry μ A l j))
        else foldUp (j + 1) B.n (entry μ B i j * mulDiag diag alpha (entry μ A j j))
          (fun l acc => acc + entry μ B i l * (alpha * entry μ A l j))) ν) := by
  unfold trmmRN
  rcases hu with rfl | rfl
  · simp only [if_true]
    refine wp_forColsD _ rfl (MState.start B μ) ?_
    intro j ν hj hν
    rw [wp_optVal]
    refine wp_diagStep (f := id) hA (by omega) (by omega) hν ?_
    simp only [wp_bind, id]
    refine wp_conseq (wp_colLoop (j := j) (fun i => entry μ B i j * mulDiag diag alpha (entry μ A j j))
      hν hB hj (le_refl _) (Nat.zero_le _) ?_) ?_
    · intro i ν _ hi hν
      simp only [wp_modify]
      refine ⟨⟨hi, hj⟩, ?_⟩
      rw [hν.at i j hi hj ((if_neg (by omega)).trans (if_neg (by omega)))]
    intro _ ν hν
    refine wp_forUp_ (fun k ν => MState B μ (fun i' j' => if j' = j then
        foldUp 0 k (entry μ B i' j * mulDiag diag alpha (entry μ A j j)) (fun l acc => acc + entry μ B i' l * (alpha * entry μ A l j)) else
        if j < j' then foldUp 0 j' (entry μ B i' j' * mulDiag diag alpha (entry μ A j' j')) (fun l acc => acc + entry μ B i' l * (alpha * entry μ A l j')) else entry μ B i' j') ν)
      (by omega) (hν.congr ?_) ?_ (fun ν hν => hν.congr (fun i' j' _ _ => by
        by_cases e : j' = j
        · subst e; ifs
        · ifs))
    · intro i' j' hi' _
      by_cases e : j' = j
      · subst e; rw [if_pos rfl, foldUp_self]; ifs
      · ifs
    · intro k ν h1 hk hν
      simp only [wp_bind, wp_get]
      refine ⟨⟨by omega, by omega⟩, ?_⟩
      rw [hν.read hA (by omega) (by omega)]
      refine wp_conseq (wp_colLoop (j := j) (fun i => foldUp 0 (k + 1) (entry μ B i j * mulDiag diag alpha (entry μ A j j)) (fun l acc => acc + entry μ B i l * (alpha * entry μ A l j)))
        hν hB hj (le_refl _) (Nat.zero_le _) ?_) ?_
      · intro i ν _ hi hν
        simp only [wp_bind, wp_get, wp_modify]
        refine ⟨⟨by omega, by omega⟩, ⟨by omega, by omega⟩, ?_⟩
        rw [hν.at i k hi (by omega) ((if_neg (by omega)).trans ((if_neg (by omega)).trans
            (if_neg (by omega)))),
          hν.at i j hi hj ((if_neg (by omega)).trans (if_pos rfl)), foldUp_succ h1]
        rfl
      · intro _ ν hν
        refine hν.congr (fun i' j' _ _ => ?_)
        by_cases e : j' = j
        · subst e; ifs
        · ifs
  · simp only [reduceCtorEq, if_false]
    refine wp_forCols _ rfl (MState.start B μ) ?_
    intro j ν hj hν
    rw [wp_optVal]
    refine wp_diagStep (f := id) hA (by omega) (by omega) hν ?_
    simp only [wp_bind, id]
    refine wp_conseq (wp_colLoop (j := j) (fun i => entry μ B i j * mulDiag diag alpha (entry μ A j j))
      hν hB hj (le_refl _) (Nat.zero_le _) ?_) ?_
    · intro i ν _ hi hν
      simp only [wp_modify]
      refine ⟨⟨hi, hj⟩, ?_⟩
      rw [hν.at i j hi hj ((if_neg (by omega)).trans (if_neg (by omega)))]
    intro _ ν hν
    refine wp_forUp_ (fun k ν => MState B μ (fun i' j' => if j' = j then
        foldUp (j + 1) k (entry μ B i' j * mulDiag diag alpha (entry μ A j j)) (fun l acc => acc + entry μ B i' l * (alpha * entry μ A l j)) else
        if j' < j then foldUp (j' + 1) B.n (entry μ B i' j' * mulDiag diag alpha (entry μ A j' j')) (fun l acc => acc + entry μ B i' l * (alpha * entry μ A l j')) else entry μ B i' j') ν)
      (by omega) (hν.congr ?_) ?_ (fun ν hν => hν.congr (fun i' j' _ _ => by
        by_cases e : j' = j
        · subst e; ifs
        · ifs))
    · intro i' j' hi' _
      by_cases e : j' = j
      · subst e; rw [if_pos rfl, foldUp_self]; ifs
      · ifs
    · intro k ν h1 hk hν
      simp only [wp_bind, wp_get]
      refine ⟨⟨by omega, by omega⟩, ?_⟩
      rw [hν.read hA (by omega) (by omega)]
      refine wp_conseq (wp_colLoop (j := j) (fun i => foldUp (j + 1) (k + 1) (entry μ B i j * mulDiag diag alpha (entry μ A j j)) (fun l acc => acc + entry μ B i l * (alpha * entry μ A l j)))
        hν hB hj (le_refl _) (Nat.zero_le _) ?_) ?_
      · intro i ν _ hi hν
        simp only [wp_bind, wp_get, wp_modify]
        refine ⟨⟨by omega, by omega⟩, ⟨by omega, by omega⟩, ?_⟩
        rw [hν.at i k hi (by omega) ((if_neg (by omega)).trans ((if_neg (by omega)).trans
            (if_neg (by omega)))),
          hν.at i j hi hj ((if_neg (by omega)).trans (if_pos rfl)), foldUp_succ h1]
        rfl
      · intro _ ν hν
        refine hν.congr (fun i' j' _ _ => ?_)
        by_cases e : j' = j
        · subst e; ifs
        · ifs

theorem wp_trmmRT [Add T] [Mul T] (hu : uplo = .Upper ∨ uplo = .Lower)
    (hB : B.Inj) (hA : A.Disj B) (hAm : A.m = B.n) (hAn : A.n = B.n) :
    wp (trmmRT f uplo diag alpha A B B.m B.n) μ (fun _ ν => MState B μ (fun i j => if uplo = .Upper
        then foldUp (j + 1) B.n (entry μ B i j * mulDiag diag alpha (f (entry μ A j j)))
          (fun l acc => acc + entry μ B i l * (alpha * f (entry μ A j l)))
        else foldDown 0 j (entry μ B i j * mulDiag diag alpha (f (entry μ A j j)))
          (fun l acc => acc + entry μ B i l * (alpha * f (entry μ A j l)))) ν) := by
  unfold trmmRT
  rcases hu with rfl | rfl
  · simp only [if_true]
    refine wp_forUp_ (fun k ν => MState B μ (fun i' j' => if j' < k then
        foldUp (j' + 1) k (entry μ B i' j' * mulDiag diag alpha (f (entry μ A j' j'))) (fun l acc => acc + entry μ B i' l * (alpha * f (entry μ A j' l))) else entry μ B i' j') ν)
      (Nat.zero_le _) ((MState.start B μ).congr (by simp)) ?_
      (fun ν hν => hν.congr (fun i' j' _ _ => by rw [if_pos (by omega)]))
    intro k ν _ hk hν
    simp only [wp_bind]
    refine wp_conseq (Q := fun _ ν => MState B μ (fun i' j' => if j' < k then
        foldUp (j' + 1) (k + 1) (entry μ B i' j' * mulDiag diag alpha (f (entry μ A j' j'))) (fun l acc => acc + entry μ B i' l * (alpha * f (entry μ A j' l))) else entry μ B i' j') ν)
      (wp_forUp_ (fun j ν => MState B μ (fun i' j' => if j' < k then if j' < j then
        foldUp (j' + 1) (k + 1) (entry μ B i' j' * mulDiag diag alpha (f (entry μ A j' j'))) (fun l acc => acc + entry μ B i' l * (alpha * f (entry μ A j' l))) else
        foldUp (j' + 1) k (entry μ B i' j' * mulDiag diag alpha (f (entry μ A j' j'))) (fun l acc => acc + entry μ B i' l * (alpha * f (entry μ A j' l))) else entry μ B i' j') ν)
        (by omega) (hν.congr (fun i' j' _ _ => by ifs)) ?_
        (fun ν hν => hν.congr (fun i' j' _ _ => by ifs))) ?_
    · intro j ν h1 h2 hν
      simp only [wp_bind, wp_get]
      refine ⟨⟨by omega, by omega⟩, ?_⟩
      rw [hν.read hA (by omega) (by omega)]
      refine wp_conseq (wp_colLoop (j := j) (fun i =>
        foldUp (j + 1) (k + 1) (entry μ B i j * mulDiag diag alpha (f (entry μ A j j))) (fun l acc => acc + entry μ B i l * (alpha * f (entry μ A j l)))) hν hB
        (by omega) (le_refl _) (Nat.zero_le _) ?_) ?_
      · intro i ν _ hi hν
        simp only [wp_bind, wp_get, wp_modify]
        refine ⟨⟨by omega, by omega⟩, ⟨by omega, by omega⟩, ?_⟩
        rw [hν.at i k hi hk ((if_neg (by omega)).trans (if_neg (by omega))),
          hν.at i j hi (by omega) ((if_neg (by omega)).trans ((if_pos (by omega)).trans
            (if_neg (by omega)))), foldUp_succ (by omega)]
        rfl
      · intro _ ν hν
        refine hν.congr (fun i' j' _ _ => ?_)
        by_cases e : j' = j
        · subst e; ifs
        · ifs
    · intro _ ν hν
      rw [wp_optVal]
      refine wp_diagStep hA (by omega) (by omega) hν ?_
      refine wp_conseq (wp_colLoop (j := k) (fun i => entry μ B i k * mulDiag diag alpha (f (entry μ A k k)))
        hν hB hk (le_refl _) (Nat.zero_le _) ?_) ?_
      · intro i ν _ hi hν
        simp only [wp_modify]
        refine ⟨⟨hi, hk⟩, ?_⟩
        rw [hν.at i k hi hk ((if_neg (by omega)).trans (if_neg (by omega)))]
      · intro _ ν hν
        refine hν.congr (fun i' j' _ _ => ?_)
        by_cases e : j' = k
        · subst e; rw [if_pos (by omega), if_pos (by omega)]; simp
        · ifs
  · simp only [reduceCtorEq, if_false]
    refine wp_forDown_ (fun k ν => MState B μ (fun i' j' => if k ≤ j' then
        foldDown k j' (entry μ B i' j' * mulDiag diag alpha (f (entry μ A j' j'))) (fun l acc => acc + entry μ B i' l * (alpha * f (entry μ A j' l))) else entry μ B i' j') ν)
      (Nat.zero_le _) ((MState.start B μ).congr (fun i' j' _ _ => by rw [if_neg (by omega)])) ?_
      (fun ν hν => hν.congr (fun i' j' _ _ => by rw [if_pos (by omega)]))
    intro k ν _ hk hν
    simp only [wp_bind]
    refine wp_conseq (Q := fun _ ν => MState B μ (fun i' j' => if k < j' then
        foldDown k j' (entry μ B i' j' * mulDiag diag alpha (f (entry μ A j' j'))) (fun l acc => acc + entry μ B i' l * (alpha * f (entry μ A j' l))) else entry μ B i' j') ν)
      (wp_forUp_ (fun j ν => MState B μ (fun i' j' => if k < j' then if j' < j then
        foldDown k j' (entry μ B i' j' * mulDiag diag alpha (f (entry μ A j' j'))) (fun l acc => acc + entry μ B i' l * (alpha * f (entry μ A j' l))) else
        foldDown (k + 1) j' (entry μ B i' j' * mulDiag diag alpha (f (entry μ A j' j'))) (fun l acc => acc + entry μ B i' l * (alpha * f (entry μ A j' l))) else entry μ B i' j') ν)
        (by omega) (hν.congr (fun i' j' _ _ => by ifs)) ?_
        (fun ν hν => hν.congr (fun i' j' _ _ => by ifs))) ?_
    · intro j ν h1 h2 hν
      simp only [wp_bind, wp_get]
      refine ⟨⟨by omega, by omega⟩, ?_⟩
      rw [hν.read hA (by omega) (by omega)]
      refine wp_conseq (wp_colLoop (j := j) (fun i =>
        foldDown k j (entry μ B i j * mulDiag diag alpha (f (entry μ A j j))) (fun l acc => acc + entry μ B i l * (alpha * f (entry μ A j l)))) hν hB
        (by omega) (le_refl _) (Nat.zero_le _) ?_) ?_
      · intro i ν _ hi hν
        simp only [wp_bind, wp_get, wp_modify]
        refine ⟨⟨by omega, by omega⟩, ⟨by omega, by omega⟩, ?_⟩
        rw [hν.at i k hi hk ((if_neg (by omega)).trans (if_neg (by omega))),
          hν.at i j hi (by omega) ((if_neg (by omega)).trans ((if_pos (by omega)).trans
            (if_neg (by omega)))), foldDown_bot (by omega : k < j)]
        rfl
      · intro _ ν hν
        refine hν.congr (fun i' j' _ _ => ?_)
        by_cases e : j' = j
        · subst e; ifs
        · ifs
    · intro _ ν hν
      rw [wp_optVal]
      refine wp_diagStep hA (by omega) (by omega) hν ?_
      refine wp_conseq (wp_colLoop (j := k) (fun i => entry μ B i k * mulDiag diag alpha (f (entry μ A k k)))
        hν hB hk (le_refl _) (Nat.zero_le _) ?_) ?_
      · intro i ν _ hi hν
        simp only [wp_modify]
        refine ⟨⟨hi, hk⟩, ?_⟩
        rw [hν.at i k hi hk ((if_neg (by omega)).trans (if_neg (by omega)))]
      · intro _ ν hν
        refine hν.congr (fun i' j' _ _ => ?_)
        by_cases e : j' = k
        · subst e; rw [if_pos (by omega), if_pos (by omega)]; simp
        · ifs

/-- trmm in exact arithmetic. -/
theorem wp_trmm_exact [Field T] [StarRing T] {side : Side} {trans : Op}
    (h : TrmOK side uplo trans A B) :
    wp (trmm side uplo trans diag alpha A B) μ (fun _ ν => MState B μ (fun i j => alpha *
        (match side with
          | .Left => ∑ l ∈ Finset.range A.m, opF trans (triF uplo diag (entry μ A)) i l * entry μ B l j
          | _ => ∑ l ∈ Finset.range A.m, entry μ B i l * opF trans (triF uplo diag (entry μ A)) l j)) ν) := by
  unfold trmm
  simp only [wp_bind]
  refine wp_conseq (wp_trmmChecks h) ?_
  intro _ ν hν
  rw [hν]
  have hu := h.tri
  have hop := h.hop
  have hsq := h.Am
  have hAB := h.AB
  rcases h.hside with rfl | rfl
  · simp only [if_true] at hAB ⊢
    have hAm : A.m = B.m := hAB
    cases trans
    · refine wp_conseq (wp_trmmLN hu h.inj h.disj (by omega) (by omega))
        (fun _ ν hν => hν.congr (fun i j hi hj => ?_))
      rw [tri_row_sum (x := fun l => entry μ B l j) hu (by omega : i < A.m), mul_add, Finset.mul_sum]
      rcases hu with rfl | rfl
      · rw [if_pos rfl, foldUp_add (by omega)]
        simp only [offCols_UNoTrans, offCols_LNoTrans, offCols_UTrans, offCols_LTrans, offCols_UConjTrans, offCols_LConjTrans, offCols_UConj, offCols_LConj, hAm, opF, id, mulD, dMul]
        congr 1
        · split_ifs <;> ring
        · exact Finset.sum_congr rfl (fun l _ => by ring)
      · rw [if_neg (by simp), foldDown_add (by omega)]
        simp only [offCols_UNoTrans, offCols_LNoTrans, offCols_UTrans, offCols_LTrans, offCols_UConjTrans, offCols_LConjTrans, offCols_UConj, offCols_LConj, hAm, opF, id, mulD, dMul]
        congr 1
        · split_ifs <;> ring
        · exact Finset.sum_congr rfl (fun l _ => by ring)
    · refine wp_conseq (wp_trmmLT hu h.inj h.disj (by omega) (by omega))
        (fun _ ν hν => hν.congr (fun i j hi hj => ?_))
      rw [tri_row_sum (x := fun l => entry μ B l j) hu (by omega : i < A.m), mul_add]
      rcases hu with rfl | rfl
      · rw [if_pos rfl, foldUp_add (by omega)]
        simp only [offCols_UNoTrans, offCols_LNoTrans, offCols_UTrans, offCols_LTrans, offCols_UConjTrans, offCols_LConjTrans, offCols_UConj, offCols_LConj, hAm, opF, id, mulD, dMul]
        rw [mul_add]; congr 2; split_ifs <;> ring
      · rw [if_neg (by simp), foldUp_add (by omega)]
        simp only [offCols_UNoTrans, offCols_LNoTrans, offCols_UTrans, offCols_LTrans, offCols_UConjTrans, offCols_LConjTrans, offCols_UConj, offCols_LConj, hAm, opF, id, mulD, dMul]
        rw [mul_add]; congr 2; split_ifs <;> ring
    · refine wp_conseq (wp_trmmLT hu h.inj h.disj (by omega) (by omega))
        (fun _ ν hν => hν.congr (fun i j hi hj => ?_))
      rw [tri_row_sum (x := fun l => entry μ B l j) hu (by omega : i < A.m), mul_add]
      rcases hu with rfl | rfl
      · rw [if_pos rfl, foldUp_add (by omega)]
        simp only [offCols_UNoTrans, offCols_LNoTrans, offCols_UTrans, offCols_LTrans, offCols_UConjTrans, offCols_LConjTrans, offCols_UConj, offCols_LConj, hAm, opF, id, mulD, dMul]
        rw [mul_add]; congr 2; split_ifs <;> ring
      · rw [if_neg (by simp), foldUp_add (by omega)]
        simp only [offCols_UNoTrans, offCols_LNoTrans, offCols_UTrans, offCols_LTrans, offCols_UConjTrans, offCols_LConjTrans, offCols_UConj, offCols_LConj, hAm, opF, id, mulD, dMul]
        rw [mul_add]; congr 2; split_ifs <;> ring
    · exact absurd rfl hop
  · simp only [reduceCtorEq, if_false] at hAB ⊢
    have hAm : A.m = B.n := hAB
    cases trans
    · refine wp_conseq (wp_trmmRN hu h.inj h.disj (by omega) (by omega))
        (fun _ ν hν => hν.congr (fun i j hi hj => ?_))
      rw [tri_col_sum (x := fun l => entry μ B i l) hu (by omega : j < A.m), mul_add, Finset.mul_sum]
      rcases hu with rfl | rfl
      · rw [if_pos rfl, foldUp_add (by omega)]
        simp only [flipOp, offCols_UNoTrans, offCols_LNoTrans, offCols_UTrans, offCols_LTrans, offCols_UConjTrans, offCols_LConjTrans, offCols_UConj, offCols_LConj, hAm, opF, id, mulD, mulDiag]
        congr 1
        · split_ifs <;> ring
        · exact Finset.sum_congr rfl (fun l _ => by ring)
      · rw [if_neg (by simp), foldUp_add (by omega)]
        simp only [flipOp, offCols_UNoTrans, offCols_LNoTrans, offCols_UTrans, offCols_LTrans, offCols_UConjTrans, offCols_LConjTrans, offCols_UConj, offCols_LConj, hAm, opF, id, mulD, mulDiag]
        congr 1
        · split_ifs <;> ring
        · exact Finset.sum_congr rfl (fun l _ => by ring)
    · refine wp_conseq (wp_trmmRT hu h.inj h.disj (by omega) (by omega))
        (fun _ ν hν => hν.congr (fun i j hi hj => ?_))
      rw [tri_col_sum (x := fun l => entry μ B i l) hu (by omega : j < A.m), mul_add, Finset.mul_sum]
      rcases hu with rfl | rfl
      · rw [if_pos rfl, foldUp_add (by omega)]
        simp only [flipOp, offCols_UNoTrans, offCols_LNoTrans, offCols_UTrans, offCols_LTrans, offCols_UConjTrans, offCols_LConjTrans, offCols_UConj, offCols_LConj, hAm, opF, id, mulD, mulDiag]
        congr 1
        · split_ifs <;> ring
        · exact Finset.sum_congr rfl (fun l _ => by ring)
      · rw [if_neg (by simp), foldDown_add (by omega)]
        simp only [flipOp, offCols_UNoTrans, offCols_LNoTrans, offCols_UTrans, offCols_LTrans, offCols_UConjTrans, offCols_LConjTrans, offCols_UConj, offCols_LConj, hAm, opF, id, mulD, mulDiag]
        congr 1
        · split_ifs <;> ring
        · exact Finset.sum_congr rfl (fun l _ => by ring)
    · refine wp_conseq (wp_trmmRT hu h.inj h.disj (by omega) (by omega))
        (fun _ ν hν => hν.congr (fun i j hi hj => ?_))
      rw [tri_col_sum (x := fun l => entry μ B i l) hu (by omega : j < A.m), mul_add, Finset.mul_sum]
      rcases hu with rfl | rfl
      · rw [if_pos rfl, foldUp_add (by omega)]
        simp only [flipOp, offCols_UNoTrans, offCols_LNoTrans, offCols_UTrans, offCols_LTrans, offCols_UConjTrans, offCols_LConjTrans, offCols_UConj, offCols_LConj, hAm, opF, id, mulD, mulDiag]
        congr 1
        · split_ifs <;> ring
        · exact Finset.sum_congr rfl (fun l _ => by ring)
      · rw [if_neg (by simp), foldDown_add (by omega)]
        simp only [flipOp, offCols_UNoTrans, offCols_LNoTrans, offCols_UTrans, offCols_LTrans, offCols_UConjTrans, offCols_LConjTrans, offCols_UConj, offCols_LConj, hAm, opF, id, mulD, mulDiag]
        congr 1
        · split_ifs <;> ring
        · exact Finset.sum_congr rfl (fun l _ => by ring)
    · exact absurd rfl hop
end
end TLA
