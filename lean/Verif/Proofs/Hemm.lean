import Verif.Proofs.Rank
import Verif.Model.Blas3

namespace TLA
set_option linter.unusedTactic false
set_option linter.unreachableTactic false
variable {L T : Type} [DecidableEq L]

theorem upd_off {μ : Store L T} {l l' : L} {v : T} (h : l' ≠ l) : upd μ l v l' = μ l' := by
  unfold upd; rw [if_neg h]

/-- Law-free value of an entry of the result of hemm/symm from the left. -/
def hemmLVal [Zero T] [Add T] [Mul T] (f g : T → T) (uplo : Uplo) (alpha : T)
    (a b : Nat → Nat → T) (beta : Coef T) (c : Nat → Nat → T) (m i j : Nat) : T :=
  if uplo ≠ .Lower then
    foldUp (i + 1) m (beta.mulAdd (c i j) (g (a i i) * (alpha * b i j)) +
      alpha * foldUp 0 i 0 (fun k s => s + f (a k i) * b k j))
      (fun l acc => acc + a i l * (alpha * b l j))
  else
    foldDown 0 i (beta.mulAdd (c i j) (g (a i i) * (alpha * b i j)) +
      alpha * foldUp (i + 1) m 0 (fun k s => s + f (a k i) * b k j))
      (fun l acc => acc + a i l * (alpha * b l j))

/-- Law-free value of an entry of the result of hemm/symm from the right. -/
def hemmRVal [Add T] [Mul T] (f g : T → T) (uplo : Uplo) (alpha : T)
    (a b : Nat → Nat → T) (beta : Coef T) (c : Nat → Nat → T) (n i j : Nat) : T :=
  if uplo ≠ .Lower then
    foldUp (j + 1) n (foldUp 0 j (beta.mulAdd (c i j) (b i j * (alpha * g (a j j))))
      (fun l acc => acc + b i l * (alpha * a l j)))
      (fun l acc => acc + b i l * (alpha * f (a j l)))
  else
    foldUp (j + 1) n (foldUp 0 j (beta.mulAdd (c i j) (b i j * (alpha * g (a j j))))
      (fun l acc => acc + b i l * (alpha * f (a j l))))
      (fun l acc => acc + b i l * (alpha * a l j))

section
variable {f g : T → T} {uplo : Uplo} {A B C : MatV L} {alpha : T} {beta : Coef T} {μ : Store L T}

theorem wp_hemmL [Zero T] [Add T] [Mul T] (hC : C.Inj) (hA : A.Disj C) (hB : B.Disj C)
    (hAm : A.m = B.m) (hAn : A.n = B.m) (hCm : C.m = B.m) (hCn : C.n = B.n) :
    wp (hemmL f g uplo alpha A B beta C B.m B.n) μ (fun _ ν => MState C μ
      (hemmLVal f g uplo alpha (entry μ A) (entry μ B) beta (entry μ C) B.m) ν) := by
  unfold hemmL
  by_cases hu : uplo ≠ .Lower
  · rw [if_pos hu]
    unfold hemmLVal
    simp only [if_pos hu]
    refine wp_conseq (wp_forCols (fun i' j' => foldUp (i' + 1) B.m (beta.mulAdd (entry μ C i' j') (g (entry μ A i' i') * (alpha * entry μ B i' j')) + alpha * foldUp 0 i' 0 (fun k s => s + f (entry μ A k i') * entry μ B k j')) (fun l acc => acc + entry μ A i' l * (alpha * entry μ B l j'))) hCn.symm (MState.start C μ) ?_)
      (fun _ ν hν => hν)
    intro j ν hj hν
    refine wp_forUp_ (fun k ν => MState C μ (fun i' j' => if j' = j ∧ i' < k then
        foldUp (i' + 1) k (beta.mulAdd (entry μ C i' j) (g (entry μ A i' i') * (alpha * entry μ B i' j)) + alpha * foldUp 0 i' 0 (fun k s => s + f (entry μ A k i') * entry μ B k j)) (fun l acc => acc + entry μ A i' l * (alpha * entry μ B l j)) else
        if j' < j then foldUp (i' + 1) B.m (beta.mulAdd (entry μ C i' j') (g (entry μ A i' i') * (alpha * entry μ B i' j')) + alpha * foldUp 0 i' 0 (fun k s => s + f (entry μ A k i') * entry μ B k j')) (fun l acc => acc + entry μ A i' l * (alpha * entry μ B l j')) else entry μ C i' j') ν)
      (Nat.zero_le _) (hν.congr (fun i' j' _ _ => by rw [if_neg (by omega)])) ?_ (fun ν hν => hν.congr (fun i' j' _ _ => by ifs))
    intro k ν _ hk hν
    simp only [wp_bind, wp_get]
    refine ⟨⟨hk, by omega⟩, ?_⟩
    rw [hν.read hB (by omega) (by omega)]
    refine wp_conseq (wp_colLoopS (j := j) (fun i => foldUp (i + 1) (k + 1) (beta.mulAdd (entry μ C i j) (g (entry μ A i i) * (alpha * entry μ B i j)) + alpha * foldUp 0 i 0 (fun k s => s + f (entry μ A k i) * entry μ B k j)) (fun l acc => acc + entry μ A i l * (alpha * entry μ B l j)))
      (fun i s => s + f (entry μ A i k) * entry μ B i j) hν hC hj (by omega) (by omega) ?_) ?_
    · intro i s ν h1 hi hν
      simp only [wp_bind, wp_get, wp_modify, wp_pure]
      refine ⟨⟨by omega, by omega⟩, ⟨by omega, by omega⟩, ⟨by omega, by omega⟩, ?_, ?_⟩
      · rw [upd_off (fun e => hB i j (by omega) (by omega) ⟨i, j, by omega, hj, e.symm⟩),
          hν.read hB (by omega) (by omega), hν.read hA (by omega) (by omega)]
        rfl
      · rw [hν.read hA (by omega) (by omega),
          hν.at i j (by omega) hj ((if_neg (by omega)).trans (if_pos ⟨rfl, by omega⟩)), foldUp_succ (by omega)]
        rfl
    · rintro s ν ⟨rfl, hν⟩
      simp only [wp_get, wp_modify]
      refine ⟨⟨by omega, by omega⟩, ⟨by omega, hj⟩, hν.upd hC (by omega) hj ?_⟩
      intro i' j' _ _
      rw [hν.read hA (by omega) (by omega),
        hν.at k j (by omega) hj ((if_neg (by omega)).trans ((if_neg (by omega)).trans (if_neg (by omega))))]
      by_cases e : j' = j
      · subst e
        by_cases e' : i' = k
        · subst e'; simp [entry]
        · ifs
      · ifs
  · rw [if_neg hu]
    unfold hemmLVal
    simp only [if_neg hu]
    refine wp_conseq (wp_forCols (fun i' j' => foldDown 0 i' (beta.mulAdd (entry μ C i' j') (g (entry μ A i' i') * (alpha * entry μ B i' j')) + alpha * foldUp (i' + 1) B.m 0 (fun k s => s + f (entry μ A k i') * entry μ B k j')) (fun l acc => acc + entry μ A i' l * (alpha * entry μ B l j'))) hCn.symm (MState.start C μ) ?_)
      (fun _ ν hν => hν)
    intro j ν hj hν
    refine wp_forDown_ (fun k ν => MState C μ (fun i' j' => if j' = j ∧ k ≤ i' then
        foldDown k i' (beta.mulAdd (entry μ C i' j) (g (entry μ A i' i') * (alpha * entry μ B i' j)) + alpha * foldUp (i' + 1) B.m 0 (fun k s => s + f (entry μ A k i') * entry μ B k j)) (fun l acc => acc + entry μ A i' l * (alpha * entry μ B l j)) else
        if j' < j then foldDown 0 i' (beta.mulAdd (entry μ C i' j') (g (entry μ A i' i') * (alpha * entry μ B i' j')) + alpha * foldUp (i' + 1) B.m 0 (fun k s => s + f (entry μ A k i') * entry μ B k j')) (fun l acc => acc + entry μ A i' l * (alpha * entry μ B l j')) else entry μ C i' j') ν)
      (Nat.zero_le _) (hν.congr (fun i' j' _ _ => by rw [if_neg (by omega)])) ?_ (fun ν hν => hν.congr (fun i' j' _ _ => by ifs))
    intro k ν _ hk hν
    simp only [wp_bind, wp_get]
    refine ⟨⟨hk, by omega⟩, ?_⟩
    rw [hν.read hB (by omega) (by omega)]
    refine wp_conseq (wp_colLoopS (j := j) (fun i => foldDown k i (beta.mulAdd (entry μ C i j) (g (entry μ A i i) * (alpha * entry μ B i j)) + alpha * foldUp (i + 1) B.m 0 (fun k s => s + f (entry μ A k i) * entry μ B k j)) (fun l acc => acc + entry μ A i l * (alpha * entry μ B l j)))
      (fun i s => s + f (entry μ A i k) * entry μ B i j) hν hC hj (by omega) (by omega) ?_) ?_
    · intro i s ν h1 hi hν
      simp only [wp_bind, wp_get, wp_modify, wp_pure]
      refine ⟨⟨by omega, by omega⟩, ⟨by omega, by omega⟩, ⟨by omega, by omega⟩, ?_, ?_⟩
      · rw [upd_off (fun e => hB i j (by omega) (by omega) ⟨i, j, by omega, hj, e.symm⟩),
          hν.read hB (by omega) (by omega), hν.read hA (by omega) (by omega)]
        rfl
      · rw [hν.read hA (by omega) (by omega),
          hν.at i j (by omega) hj ((if_neg (by omega)).trans (if_pos ⟨rfl, by omega⟩)), foldDown_bot (by omega : k < i)]
        rfl
    · rintro s ν ⟨rfl, hν⟩
      simp only [wp_get, wp_modify]
      refine ⟨⟨by omega, by omega⟩, ⟨by omega, hj⟩, hν.upd hC (by omega) hj ?_⟩
      intro i' j' _ _
      rw [hν.read hA (by omega) (by omega),
        hν.at k j (by omega) hj ((if_neg (by omega)).trans ((if_neg (by omega)).trans (if_neg (by omega))))]
      by_cases e : j' = j
      · subst e
        by_cases e' : i' = k
        · subst e'; simp [entry]
        · ifs
      · ifs

theorem wp_hemmR [Add T] [Mul T] (hC : C.Inj) (hA : A.Disj C) (hB : B.Disj C)
    (hAm : A.m = B.n) (hAn : A.n = B.n) (hCm : C.m = B.m) (hCn : C.n = B.n) :
    wp (hemmR f g uplo alpha A B beta C B.m B.n) μ (fun _ ν => MState C μ
      (hemmRVal f g uplo alpha (entry μ A) (entry μ B) beta (entry μ C) B.n) ν) := by
  unfold hemmR
  by_cases hu : uplo ≠ .Lower
  · rw [if_pos hu]
    unfold hemmRVal
    simp only [if_pos hu]
    refine wp_conseq (wp_forCols (fun i' j' => (foldUp (j' + 1) B.n (foldUp 0 j' (beta.mulAdd (entry μ C i' j') (entry μ B i' j' * (alpha * g (entry μ A j' j')))) (fun l acc => acc + entry μ B i' l * (alpha * entry μ A l j'))) (fun l acc => acc + entry μ B i' l * (alpha * f (entry μ A j' l))))) hCn.symm (MState.start C μ) ?_)
      (fun _ ν hν => hν)
    intro j ν hj hν
    simp only [wp_bind, wp_get]
    refine ⟨⟨by omega, by omega⟩, ?_⟩
    rw [hν.read hA (by omega) (by omega)]
    refine wp_conseq (wp_colLoop (j := j) (fun i => (beta.mulAdd (entry μ C i j) (entry μ B i j * (alpha * g (entry μ A j j)))))
      hν hC hj (by omega) (Nat.zero_le _) ?_) ?_
    · intro i ν _ hi hν
      simp only [wp_bind, wp_get, wp_modify]
      refine ⟨⟨by omega, by omega⟩, ⟨by omega, by omega⟩, ?_⟩
      rw [hν.at i j (by omega) hj ((if_neg (by omega)).trans (if_neg (by omega))),
        hν.read hB (by omega) (by omega)]
      rfl
    intro _ ν hν
    refine wp_conseq (Q := fun _ ν => MState C μ (fun i' j' => if j' = j then
        (foldUp 0 j (beta.mulAdd (entry μ C i' j) (entry μ B i' j * (alpha * g (entry μ A j j)))) (fun l acc => acc + entry μ B i' l * (alpha * entry μ A l j))) else
        if j' < j then (foldUp (j' + 1) B.n (foldUp 0 j' (beta.mulAdd (entry μ C i' j') (entry μ B i' j' * (alpha * g (entry μ A j' j')))) (fun l acc => acc + entry μ B i' l * (alpha * entry μ A l j'))) (fun l acc => acc + entry μ B i' l * (alpha * f (entry μ A j' l)))) else entry μ C i' j') ν)
      (wp_forUp_ (fun k ν => MState C μ (fun i' j' => if j' = j then
        (foldUp 0 k (beta.mulAdd (entry μ C i' j) (entry μ B i' j * (alpha * g (entry μ A j j)))) (fun l acc => acc + entry μ B i' l * (alpha * entry μ A l j))) else
        if j' < j then (foldUp (j' + 1) B.n (foldUp 0 j' (beta.mulAdd (entry μ C i' j') (entry μ B i' j' * (alpha * g (entry μ A j' j')))) (fun l acc => acc + entry μ B i' l * (alpha * entry μ A l j'))) (fun l acc => acc + entry μ B i' l * (alpha * f (entry μ A j' l)))) else entry μ C i' j') ν)
        (by omega) (hν.congr ?_) ?_ (fun ν hν => hν)) ?_
    · intro i' j' hi' _
      by_cases e : j' = j
      · subst e; rw [if_pos rfl, foldUp_self]; ifs
      · ifs
    · intro k ν h1 hk hν
      simp only [wp_bind, wp_get]
      refine ⟨⟨by omega, by omega⟩, ?_⟩
      rw [hν.read hA (by omega) (by omega)]
      refine wp_conseq (wp_colLoop (j := j) (fun i => (foldUp 0 (k + 1) (beta.mulAdd (entry μ C i j) (entry μ B i j * (alpha * g (entry μ A j j)))) (fun l acc => acc + entry μ B i l * (alpha * entry μ A l j))))
        hν hC hj (by omega) (Nat.zero_le _) ?_) ?_
      · intro i ν _ hi hν
        simp only [wp_bind, wp_get, wp_modify]
        refine ⟨⟨by omega, by omega⟩, ⟨by omega, by omega⟩, ?_⟩
        rw [hν.at i j (by omega) hj ((if_neg (by omega)).trans (if_pos rfl)),
          hν.read hB (by omega) (by omega), foldUp_succ h1]
        rfl
      · intro _ ν hν
        refine hν.congr (fun i' j' _ _ => ?_)
        by_cases e : j' = j
        · subst e; ifs
        · ifs
    intro _ ν hν
    refine wp_forUp_ (fun k ν => MState C μ (fun i' j' => if j' = j then
        (foldUp (j + 1) k (foldUp 0 j (beta.mulAdd (entry μ C i' j) (entry μ B i' j * (alpha * g (entry μ A j j)))) (fun l acc => acc + entry μ B i' l * (alpha * entry μ A l j))) (fun l acc => acc + entry μ B i' l * (alpha * f (entry μ A j l)))) else
        if j' < j then (foldUp (j' + 1) B.n (foldUp 0 j' (beta.mulAdd (entry μ C i' j') (entry μ B i' j' * (alpha * g (entry μ A j' j')))) (fun l acc => acc + entry μ B i' l * (alpha * entry μ A l j'))) (fun l acc => acc + entry μ B i' l * (alpha * f (entry μ A j' l)))) else entry μ C i' j') ν)
        (by omega) (hν.congr ?_) ?_ (fun ν hν => hν.congr (fun i' j' _ _ => by
          by_cases e : j' = j
          · subst e; ifs
          · ifs))
    · intro i' j' hi' _
      by_cases e : j' = j
      · subst e; rw [if_pos rfl, foldUp_self]; ifs
      · ifs
    · intro k ν h1 hk hν
      simp only [wp_bind, wp_get]
      refine ⟨⟨by omega, by omega⟩, ?_⟩
      rw [hν.read hA (by omega) (by omega)]
      refine wp_conseq (wp_colLoop (j := j) (fun i => (foldUp (j + 1) (k + 1) (foldUp 0 j (beta.mulAdd (entry μ C i j) (entry μ B i j * (alpha * g (entry μ A j j)))) (fun l acc => acc + entry μ B i l * (alpha * entry μ A l j))) (fun l acc => acc + entry μ B i l * (alpha * f (entry μ A j l)))))
        hν hC hj (by omega) (Nat.zero_le _) ?_) ?_
      · intro i ν _ hi hν
        simp only [wp_bind, wp_get, wp_modify]
        refine ⟨⟨by omega, by omega⟩, ⟨by omega, by omega⟩, ?_⟩
        rw [hν.at i j (by omega) hj ((if_neg (by omega)).trans (if_pos rfl)),
          hν.read hB (by omega) (by omega), foldUp_succ h1]
        rfl
      · intro _ ν hν
        refine hν.congr (fun i' j' _ _ => ?_)
        by_cases e : j' = j
        · subst e; ifs
        · ifs
  · rw [if_neg hu]
    unfold hemmRVal
    simp only [if_neg hu]
    refine wp_conseq (wp_forCols (fun i' j' => (foldUp (j' + 1) B.n (foldUp 0 j' (beta.mulAdd (entry μ C i' j') (entry μ B i' j' * (alpha * g (entry μ A j' j')))) (fun l acc => acc + entry μ B i' l * (alpha * f (entry μ A j' l)))) (fun l acc => acc + entry μ B i' l * (alpha * entry μ A l j')))) hCn.symm (MState.start C μ) ?_)
      (fun _ ν hν => hν)
    intro j ν hj hν
    simp only [wp_bind, wp_get]
    refine ⟨⟨by omega, by omega⟩, ?_⟩
    rw [hν.read hA (by omega) (by omega)]
    refine wp_conseq (wp_colLoop (j := j) (fun i => (beta.mulAdd (entry μ C i j) (entry μ B i j * (alpha * g (entry μ A j j)))))
      hν hC hj (by omega) (Nat.zero_le _) ?_) ?_
    · intro i ν _ hi hν
      simp only [wp_bind, wp_get, wp_modify]
      refine ⟨⟨by omega, by omega⟩, ⟨by omega, by omega⟩, ?_⟩
      rw [hν.at i j (by omega) hj ((if_neg (by omega)).trans (if_neg (by omega))),
        hν.read hB (by omega) (by omega)]
      rfl
    intro _ ν hν
    refine wp_conseq (Q := fun _ ν => MState C μ (fun i' j' => if j' = j then
        (foldUp 0 j (beta.mulAdd (entry μ C i' j) (entry μ B i' j * (alpha * g (entry μ A j j)))) (fun l acc => acc + entry μ B i' l * (alpha * f (entry μ A j l)))) else
        if j' < j then (foldUp (j' + 1) B.n (foldUp 0 j' (beta.mulAdd (entry μ C i' j') (entry μ B i' j' * (alpha * g (entry μ A j' j')))) (fun l acc => acc + entry μ B i' l * (alpha * f (entry μ A j' l)))) (fun l acc => acc + entry μ B i' l * (alpha * entry μ A l j'))) else entry μ C i' j') ν)
      (wp_forUp_ (fun k ν => MState C μ (fun i' j' => if j' = j then
        (foldUp 0 k (beta.mulAdd (entry μ C i' j) (entry μ B i' j * (alpha * g (entry μ A j j)))) (fun l acc => acc + entry μ B i' l * (alpha * f (entry μ A j l)))) else
        if j' < j then (foldUp (j' + 1) B.n (foldUp 0 j' (beta.mulAdd (entry μ C i' j') (entry μ B i' j' * (alpha * g (entry μ A j' j')))) (fun l acc => acc + entry μ B i' l * (alpha * f (entry μ A j' l)))) (fun l acc => acc + entry μ B i' l * (alpha * entry μ A l j'))) else entry μ C i' j') ν)
        (by omega) (hν.congr ?_) ?_ (fun ν hν => hν)) ?_
    · intro i' j' hi' _
      by_cases e : j' = j
      · subst e; rw [if_pos rfl, foldUp_self]; ifs
      · ifs
    · intro k ν h1 hk hν
      simp only [wp_bind, wp_get]
      refine ⟨⟨by omega, by omega⟩, ?_⟩
      rw [hν.read hA (by omega) (by omega)]
      refine wp_conseq (wp_colLoop (j := j) (fun i => (foldUp 0 (k + 1) (beta.mulAdd (entry μ C i j) (entry μ B i j * (alpha * g (entry μ A j j)))) (fun l acc => acc + entry μ B i l * (alpha * f (entry μ A j l)))))
        hν hC hj (by omega) (Nat.zero_le _) ?_) ?_
      · intro i ν _ hi hν
        simp only [wp_bind, wp_get, wp_modify]
        refine ⟨⟨by omega, by omega⟩, ⟨by omega, by omega⟩, ?_⟩
        rw [hν.at i j (by omega) hj ((if_neg (by omega)).trans (if_pos rfl)),
          hν.read hB (by omega) (by omega), foldUp_succ h1]
        rfl
      · intro _ ν hν
        refine hν.congr (fun i' j' _ _ => ?_)
        by_cases e : j' = j
        · subst e; ifs
        · ifs
    intro _ ν hν
    refine wp_forUp_ (fun k ν => MState C μ (fun i' j' => if j' = j then
        (foldUp (j + 1) k (foldUp 0 j (beta.mulAdd (entry μ C i' j) (entry μ B i' j * (alpha * g (entry μ A j j)))) (fun l acc => acc + entry μ B i' l * (alpha * f (entry μ A j l)))) (fun l acc => acc + entry μ B i' l * (alpha * entry μ A l j))) else
        if j' < j then (foldUp (j' + 1) B.n (foldUp 0 j' (beta.mulAdd (entry μ C i' j') (entry μ B i' j' * (alpha * g (entry μ A j' j')))) (fun l acc => acc + entry μ B i' l * (alpha * f (entry μ A j' l)))) (fun l acc => acc + entry μ B i' l * (alpha * entry μ A l j'))) else entry μ C i' j') ν)
        (by omega) (hν.congr ?_) ?_ (fun ν hν => hν.congr (fun i' j' _ _ => by
          by_cases e : j' = j
          · subst e; ifs
          · ifs))
    · intro i' j' hi' _
      by_cases e : j' = j
      · subst e; rw [if_pos rfl, foldUp_self]; ifs
      · ifs
    · intro k ν h1 hk hν
      simp only [wp_bind, wp_get]
      refine ⟨⟨by omega, by omega⟩, ?_⟩
      rw [hν.read hA (by omega) (by omega)]
      refine wp_conseq (wp_colLoop (j := j) (fun i => (foldUp (j + 1) (k + 1) (foldUp 0 j (beta.mulAdd (entry μ C i j) (entry μ B i j * (alpha * g (entry μ A j j)))) (fun l acc => acc + entry μ B i l * (alpha * f (entry μ A j l)))) (fun l acc => acc + entry μ B i l * (alpha * entry μ A l j))))
        hν hC hj (by omega) (Nat.zero_le _) ?_) ?_
      · intro i ν _ hi hν
        simp only [wp_bind, wp_get, wp_modify]
        refine ⟨⟨by omega, by omega⟩, ⟨by omega, by omega⟩, ?_⟩
        rw [hν.at i j (by omega) hj ((if_neg (by omega)).trans (if_pos rfl)),
          hν.read hB (by omega) (by omega), foldUp_succ h1]
        rfl
      · intro _ ν hν
        refine hν.congr (fun i' j' _ _ => ?_)
        by_cases e : j' = j
        · subst e; ifs
        · ifs

end

theorem wp_hemmChecks {side : Side} {uplo : Uplo} {A B C : MatV L} {μ : Store L T}
    (h : HemmOK side uplo A B C) :
    wp (hemmChecks side uplo A B C) μ (fun _ ν => ν = μ) := by
  obtain ⟨h1, h2, h4, h5, h6, h7, _, _, _⟩ := h
  unfold hemmChecks
  simp only [wp_bind, wp_check, h4, h5, h6, h7, ne_eq, not_true_eq_false, decide_false,
    Bool.not_false, if_true]
  rw [if_pos (by rcases h1 with rfl | rfl <;> rfl),
    if_pos (by rcases h2 with rfl | rfl | rfl <;> rfl), if_pos (by rw [← h5, h4]; simp)]
  trivial

/-- Law-free value of an entry of the result of hemm/symm. -/
def hemmVal [Zero T] [Add T] [Mul T] (f g : T → T) (side : Side) (uplo : Uplo) (alpha : T)
    (a b : Nat → Nat → T) (beta : Coef T) (c : Nat → Nat → T) (k i j : Nat) : T :=
  if side = .Left then hemmLVal f g uplo alpha a b beta c k i j
  else hemmRVal f g uplo alpha a b beta c k i j

theorem wp_hemm [Zero T] [Add T] [Mul T] [Star T] [ReIm T] {side : Side} {uplo : Uplo}
    {A B C : MatV L} {alpha : T} {beta : Coef T} {μ : Store L T} (h : HemmOK side uplo A B C) :
    wp (hemm side uplo alpha A B beta C) μ (fun _ ν => MState C μ
      (hemmVal star re side uplo alpha (entry μ A) (entry μ B) beta (entry μ C) A.m) ν) := by
  unfold hemm hemmVal
  simp only [wp_bind]
  refine wp_conseq (wp_hemmChecks h) ?_
  intro _ ν hν
  rw [hν]
  have hsq := h.Am
  have hAB := h.AB
  rcases h.hside with rfl | rfl
  · simp only [if_true] at hAB ⊢
    rw [hAB]
    exact wp_hemmL h.inj h.AC h.BC (by omega) (by omega) h.Cm h.Cn
  · simp only [reduceCtorEq, if_false] at hAB ⊢
    rw [hAB]
    exact wp_hemmR h.inj h.AC h.BC (by omega) (by omega) h.Cm h.Cn

theorem wp_symm [Zero T] [Add T] [Mul T] {side : Side} {uplo : Uplo}
    {A B C : MatV L} {alpha : T} {beta : Coef T} {μ : Store L T} (h : HemmOK side uplo A B C) :
    wp (symm side uplo alpha A B beta C) μ (fun _ ν => MState C μ
      (hemmVal id id side uplo alpha (entry μ A) (entry μ B) beta (entry μ C) A.m) ν) := by
  unfold symm hemmVal
  simp only [wp_bind]
  refine wp_conseq (wp_hemmChecks h) ?_
  intro _ ν hν
  rw [hν]
  have hsq := h.Am
  have hAB := h.AB
  rcases h.hside with rfl | rfl
  · simp only [if_true] at hAB ⊢
    rw [hAB]
    exact wp_hemmL h.inj h.AC h.BC (by omega) (by omega) h.Cm h.Cn
  · simp only [reduceCtorEq, if_false] at hAB ⊢
    rw [hAB]
    exact wp_hemmR h.inj h.AC h.BC (by omega) (by omega) h.Cm h.Cn

omit [DecidableEq L] in
theorem mulAdd_exact [Field T] (beta : Coef T) (c x : T) :
    beta.mulAdd c x = x + beta.toVal * c := by
  cases beta <;> simp [Coef.mulAdd, Coef.toVal, add_comm]

omit [DecidableEq L] in
theorem hemmVal_exact [Field T] (f g : T → T) {side : Side} {uplo : Uplo} (alpha : T)
    (a b : Nat → Nat → T) (beta : Coef T) (c : Nat → Nat → T) {k i j : Nat}
    (hside : side = .Left ∨ side = .Right) (hk : (if side = .Left then i else j) < k) :
    hemmVal f g side uplo alpha a b beta c k i j = alpha *
      (match side with
        | .Left => ∑ l ∈ Finset.range k,
            foldedF f g (if uplo = .Lower then .Lower else .Upper) a i l * b l j
        | _ => ∑ l ∈ Finset.range k,
            b i l * foldedF f g (if uplo = .Lower then .Lower else .Upper) a l j)
      + beta.toVal * c i j := by
  unfold hemmVal hemmLVal hemmRVal
  rcases hside with rfl | rfl
  · simp only [if_true] at hk ⊢
    rw [sum_split_at hk]
    have ed : ∀ u, foldedF f g u a i i = g (a i i) := fun u => by simp [foldedF]
    by_cases hu : uplo = .Lower
    · subst hu
      simp only [ne_eq, not_true_eq_false, if_true, if_false, ed]
      rw [foldDown_add (Nat.zero_le _), foldUp_add (by omega), mulAdd_exact, ← Finset.range_eq_Ico]
      have e1 : ∑ l ∈ Finset.range i, foldedF f g .Lower a i l * b l j =
          ∑ l ∈ Finset.range i, a i l * b l j := by
        refine Finset.sum_congr rfl (fun l hl => ?_)
        have := Finset.mem_range.1 hl
        rw [foldedF, if_neg (by omega), ite_lower, if_pos (by omega)]
      have e2 : ∑ l ∈ Finset.Ico (i + 1) k, foldedF f g .Lower a i l * b l j =
          ∑ l ∈ Finset.Ico (i + 1) k, f (a l i) * b l j := by
        refine Finset.sum_congr rfl (fun l hl => ?_)
        have := Finset.mem_Ico.1 hl
        rw [foldedF, if_neg (by omega), ite_lower, if_neg (by omega)]
      have e3 : ∑ l ∈ Finset.range i, a i l * (alpha * b l j) =
          alpha * ∑ l ∈ Finset.range i, a i l * b l j := by
        rw [Finset.mul_sum]; exact Finset.sum_congr rfl (fun l _ => by ring)
      rw [e1, e2, e3]; ring
    · simp only [ne_eq, hu, not_false_eq_true, if_true, if_false, ed]
      rw [foldUp0_add, foldUp_add (by omega), mulAdd_exact]
      have e1 : ∑ l ∈ Finset.range i, foldedF f g .Upper a i l * b l j =
          ∑ l ∈ Finset.range i, f (a l i) * b l j := by
        refine Finset.sum_congr rfl (fun l hl => ?_)
        have := Finset.mem_range.1 hl
        rw [foldedF, if_neg (by omega), ite_upper, if_neg (by omega)]
      have e2 : ∑ l ∈ Finset.Ico (i + 1) k, foldedF f g .Upper a i l * b l j =
          ∑ l ∈ Finset.Ico (i + 1) k, a i l * b l j := by
        refine Finset.sum_congr rfl (fun l hl => ?_)
        have := Finset.mem_Ico.1 hl
        rw [foldedF, if_neg (by omega), ite_upper, if_pos (by omega)]
      have e3 : ∑ l ∈ Finset.Ico (i + 1) k, a i l * (alpha * b l j) =
          alpha * ∑ l ∈ Finset.Ico (i + 1) k, a i l * b l j := by
        rw [Finset.mul_sum]; exact Finset.sum_congr rfl (fun l _ => by ring)
      rw [e1, e2, e3]; ring
  · simp only [reduceCtorEq, if_false] at hk ⊢
    rw [sum_split_at hk]
    have ed : ∀ u, foldedF f g u a j j = g (a j j) := fun u => by simp [foldedF]
    have e3 : ∀ (s : Finset Nat) (F : Nat → T), ∑ l ∈ s, b i l * (alpha * F l) =
          alpha * ∑ l ∈ s, b i l * F l := by
        intro s F
        rw [Finset.mul_sum]; exact Finset.sum_congr rfl (fun l _ => by ring)
    by_cases hu : uplo = .Lower
    · subst hu
      simp only [ne_eq, not_true_eq_false, if_true, if_false, ed]
      rw [foldUp0_add, foldUp_add (by omega), mulAdd_exact]
      have e1 : ∑ l ∈ Finset.range j, b i l * foldedF f g .Lower a l j =
          ∑ l ∈ Finset.range j, b i l * f (a j l) := by
        refine Finset.sum_congr rfl (fun l hl => ?_)
        have := Finset.mem_range.1 hl
        rw [foldedF, if_neg (by omega), ite_lower, if_neg (by omega)]
      have e2 : ∑ l ∈ Finset.Ico (j + 1) k, b i l * foldedF f g .Lower a l j =
          ∑ l ∈ Finset.Ico (j + 1) k, b i l * a l j := by
        refine Finset.sum_congr rfl (fun l hl => ?_)
        have := Finset.mem_Ico.1 hl
        rw [foldedF, if_neg (by omega), ite_lower, if_pos (by omega)]
      rw [e1, e2, e3, e3]; ring
    · simp only [ne_eq, hu, not_false_eq_true, if_true, if_false, ed]
      rw [foldUp0_add, foldUp_add (by omega), mulAdd_exact]
      have e1 : ∑ l ∈ Finset.range j, b i l * foldedF f g .Upper a l j =
          ∑ l ∈ Finset.range j, b i l * a l j := by
        refine Finset.sum_congr rfl (fun l hl => ?_)
        have := Finset.mem_range.1 hl
        rw [foldedF, if_neg (by omega), ite_upper, if_pos (by omega)]
      have e2 : ∑ l ∈ Finset.Ico (j + 1) k, b i l * foldedF f g .Upper a l j =
          ∑ l ∈ Finset.Ico (j + 1) k, b i l * f (a j l) := by
        refine Finset.sum_congr rfl (fun l hl => ?_)
        have := Finset.mem_Ico.1 hl
        rw [foldedF, if_neg (by omega), ite_upper, if_neg (by omega)]
      rw [e1, e2, e3, e3]; ring

end TLA
