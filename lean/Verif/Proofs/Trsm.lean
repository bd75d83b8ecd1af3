import Verif.Proofs.TriAlg
import Verif.Proofs.Blas1
import Verif.Model.Blas3

namespace TLA
set_option linter.unusedTactic false
set_option linter.unreachableTactic false
variable {L T : Type} [DecidableEq L]

theorem wp_trmmChecks {side : Side} {uplo : Uplo} {trans : Op} {A B : MatV L} {μ : Store L T}
    (h : TrmOK side uplo trans A B) :
    wp (trmmChecks side uplo trans A B) μ (fun _ ν => ν = μ) := by
  obtain ⟨h1, h2, h3, h4, h5, _, _⟩ := h
  unfold trmmChecks
  simp only [wp_bind, wp_check, h4, h5, ne_eq, not_true_eq_false, decide_false,
    Bool.not_false, if_true]
  rw [if_pos (by rcases h1 with rfl | rfl <;> rfl), if_pos (by rcases h2 with rfl | rfl <;> rfl),
    if_pos (by cases trans <;> first | rfl | exact absurd rfl h3), if_pos (by rw [← h5, h4]; simp)]
  trivial

section
variable {f : T → T} {uplo : Uplo} {diag : Diag} {A B : MatV L} {alpha : T} {μ0 μ : Store L T}

/-- The optional division `B(k,j) /= f(A(k,k))`. -/
theorem wp_divStep [Div T] {G : Nat → Nat → T} {k j : Nat} {γ : Type} (hB : B.Inj) (hA : A.Disj B)
    (hk : k < B.m) (hj : j < B.n) (hk1 : k < A.m) (hk2 : k < A.n)
    (h : MState B μ0 G μ) :
    wp (if diag = .NonUnit then do
          let a ← A.get k k
          B.modify k j (· / f a)
          pure () else pure ()) μ (fun _ ν => MState B μ0 (fun i' j' => if i' = k ∧ j' = j then
            divD diag (G k j) (f (entry μ0 A k k)) else G i' j') ν) := by
  rw [wp_ite]
  split
  · rename_i hd
    simp only [wp_bind, wp_get, wp_modify, wp_pure]
    refine ⟨⟨hk1, hk2⟩, ⟨hk, hj⟩, h.upd hB hk hj ?_⟩
    intro i' j' _ _
    rw [h.val k j hk hj, h.read hA hk1 hk2]
    simp only [divD, hd, if_true, entry]
  · rename_i hd
    simp only [wp_pure]
    refine h.congr (fun i' j' _ _ => ?_)
    simp only [divD, hd, if_false]
    ifs

theorem wp_trsmLN [Mul T] [Sub T] [Div T] (hu : uplo = .Upper ∨ uplo = .Lower)
    (hB : B.Inj) (hA : A.Disj B) (hAm : A.m = B.m) (hAn : A.n = B.m) :
    wp (trsmLN uplo diag alpha A B B.m B.n) μ (fun _ ν => ∃ X, MState B μ X ν ∧
      ∀ i j, i < B.m → j < B.n →
      X i j = divD diag (if uplo = .Upper
        then foldDown (i + 1) B.m (entry μ B i j * alpha) (fun l acc => acc - entry μ A i l * X l j)
        else foldUp 0 i (entry μ B i j * alpha) (fun l acc => acc - entry μ A i l * X l j))
        (entry μ A i i)) := by
  haveI : Nonempty T := ⟨entry μ B 0 0⟩
  unfold trsmLN
  rcases hu with rfl | rfl
  · simp only [if_true]
    have hex : ∀ j, ∃ X : Nat → T, ∀ i, i < B.m → X i = divD diag
        (foldDown (i + 1) B.m (entry μ B i j * alpha) (fun l acc => acc - entry μ A i l * X l))
        (entry μ A i i) := fun j => exists_bwd (T := T) B.m (fun X i => divD diag
        (foldDown (i + 1) B.m (entry μ B i j * alpha) (fun l acc => acc - entry μ A i l * X l))
        (entry μ A i i)) (by
        intro x y i _ hxy
        show divD _ _ _ = divD _ _ _
        congr 1
        exact foldDown_congr (fun l s h1 h2 => by rw [hxy l (by omega) h2]))
    choose Y hY using hex
    refine wp_conseq (wp_forCols (fun i j => Y j i) rfl (MState.start B μ) ?_)
      (fun _ ν hν => ⟨_, hν, fun i j hi _ => hY j i hi⟩)
    intro j ν hj hν
    simp only [wp_bind]
    refine wp_conseq (wp_colLoop (j := j) (fun i => entry μ B i j * alpha) hν hB hj (le_refl _)
      (Nat.zero_le _) ?_) ?_
    · intro i ν _ hi hν
      simp only [wp_modify]
      refine ⟨⟨hi, hj⟩, ?_⟩
      rw [hν.at i j hi hj ((if_neg (by omega)).trans (if_neg (by omega)))]
    intro _ ν hν
    refine wp_forDown_ (fun k ν => MState B μ (fun i' j' => if j' = j then
        (if k ≤ i' then Y j i' else foldDown k B.m (entry μ B i' j * alpha)
          (fun l acc => acc - entry μ A i' l * Y j l)) else
        if j' < j then Y j' i' else entry μ B i' j') ν)
      (Nat.zero_le _) (hν.congr ?_) ?_ ?_
    · intro i' j' hi' _
      by_cases e : j' = j
      · subst e; rw [if_pos rfl, if_neg (by omega), foldDown_self]; ifs
      · ifs
    · intro k ν _ hk hν
      rw [wp_optStep]
      refine wp_conseq (wp_divStep (f := id) (γ := Unit) hB hA hk hj (by omega) (by omega) hν) ?_
      intro _ ν hν
      rw [if_pos rfl, if_neg (by omega)] at hν
      have e2 := hY j k hk
      simp only [id] at hν
      rw [← e2] at hν
      refine wp_conseq (wp_colLoop (j := j) (fun i => foldDown k B.m (entry μ B i j * alpha)
          (fun l acc => acc - entry μ A i l * Y j l)) hν hB hj (by omega) (Nat.zero_le _) ?_) ?_
      · intro i ν _ hi hν
        simp only [wp_bind, wp_get, wp_modify]
        refine ⟨⟨by omega, by omega⟩, ⟨by omega, by omega⟩, ⟨by omega, by omega⟩, ?_⟩
        rw [hν.at k j hk hj ((if_neg (by omega)).trans (if_pos ⟨rfl, rfl⟩)),
          hν.at i j (by omega) hj ((if_neg (by omega)).trans ((if_neg (by omega)).trans
            ((if_pos rfl).trans (if_neg (by omega))))), hν.read hA (by omega) (by omega),
          foldDown_bot hk]
        rfl
      · intro _ ν hν
        refine hν.congr (fun i' j' _ _ => ?_)
        by_cases e : j' = j
        · subst e; ifs
        · ifs
    · intro ν hν
      exact hν.congr (fun i' j' _ _ => by simp)
  · simp only [reduceCtorEq, if_false]
    have hex : ∀ j, ∃ X : Nat → T, ∀ i, X i = divD diag
        (foldUp 0 i (entry μ B i j * alpha) (fun l acc => acc - entry μ A i l * X l))
        (entry μ A i i) := fun j => exists_fwd (T := T) (fun X i => divD diag
        (foldUp 0 i (entry μ B i j * alpha) (fun l acc => acc - entry μ A i l * X l))
        (entry μ A i i)) (by
        intro x y i hxy
        show divD _ _ _ = divD _ _ _
        congr 1
        exact foldUp_congr (fun l s h1 h2 => by rw [hxy l (by omega)]))
    choose Y hY using hex
    refine wp_conseq (wp_forCols (fun i j => Y j i) rfl (MState.start B μ) ?_)
      (fun _ ν hν => ⟨_, hν, fun i j hi _ => hY j i⟩)
    intro j ν hj hν
    simp only [wp_bind]
    refine wp_conseq (wp_colLoop (j := j) (fun i => entry μ B i j * alpha) hν hB hj (le_refl _)
      (Nat.zero_le _) ?_) ?_
    · intro i ν _ hi hν
      simp only [wp_modify]
      refine ⟨⟨hi, hj⟩, ?_⟩
      rw [hν.at i j hi hj ((if_neg (by omega)).trans (if_neg (by omega)))]
    intro _ ν hν
    refine wp_forUp_ (fun k ν => MState B μ (fun i' j' => if j' = j then
        (if i' < k then Y j i' else foldUp 0 k (entry μ B i' j * alpha)
          (fun l acc => acc - entry μ A i' l * Y j l)) else
        if j' < j then Y j' i' else entry μ B i' j') ν)
      (Nat.zero_le _) (hν.congr ?_) ?_ ?_
    · intro i' j' hi' _
      by_cases e : j' = j
      · subst e; rw [if_pos rfl, if_neg (by omega), foldUp_self]; ifs
      · ifs
    · intro k ν _ hk hν
      rw [wp_optStep]
      refine wp_conseq (wp_divStep (f := id) (γ := Unit) hB hA hk hj (by omega) (by omega) hν) ?_
      intro _ ν hν
      rw [if_pos rfl, if_neg (by omega)] at hν
      have e2 := hY j k
      simp only [id] at hν
      rw [← e2] at hν
      refine wp_conseq (wp_colLoop (j := j) (fun i => foldUp 0 (k + 1) (entry μ B i j * alpha)
          (fun l acc => acc - entry μ A i l * Y j l)) hν hB hj (by omega) (by omega) ?_) ?_
      · intro i ν _ hi hν
        simp only [wp_bind, wp_get, wp_modify]
        refine ⟨⟨by omega, by omega⟩, ⟨by omega, by omega⟩, ⟨by omega, by omega⟩, ?_⟩
        rw [hν.at k j hk hj ((if_neg (by omega)).trans (if_pos ⟨rfl, rfl⟩)),
          hν.at i j (by omega) hj ((if_neg (by omega)).trans ((if_neg (by omega)).trans
            ((if_pos rfl).trans (if_neg (by omega))))), hν.read hA (by omega) (by omega),
          foldUp_succ (Nat.zero_le _)]
        rfl
      · intro _ ν hν
        refine hν.congr (fun i' j' _ _ => ?_)
        by_cases e : j' = j
        · subst e; ifs_eq i' k
        · ifs
    · intro ν hν
      exact hν.congr (fun i' j' hi _ => by rw [if_pos (show i' < B.m by omega)])

theorem wp_trsmLT [Mul T] [Sub T] [Div T] (hu : uplo = .Upper ∨ uplo = .Lower)
    (hB : B.Inj) (hA : A.Disj B) (hAm : A.m = B.m) (hAn : A.n = B.m) :
    wp (trsmLT f uplo diag alpha A B B.m B.n) μ (fun _ ν => ∃ X, MState B μ X ν ∧
      ∀ i j, i < B.m → j < B.n →
      X i j = divD diag (if uplo = .Upper
        then foldUp 0 i (alpha * entry μ B i j) (fun l acc => acc - f (entry μ A l i) * X l j)
        else foldUp (i + 1) B.m (alpha * entry μ B i j) (fun l acc => acc - f (entry μ A l i) * X l j))
        (f (entry μ A i i))) := by
  haveI : Nonempty T := ⟨entry μ B 0 0⟩
  unfold trsmLT
  have fin : ∀ (k j : Nat) (t v : T) (G : Nat → Nat → T) (ν : Store L T), k < B.m → j < B.n →
      MState B μ G ν → v = divD diag t (f (entry μ A k k)) →
      wp (if diag = .NonUnit then do
          let a ← A.get k k
          B.set k j (t / f a) else B.set k j t) ν
        (fun _ ν => MState B μ (fun i' j' => if i' = k ∧ j' = j then v else G i' j') ν) := by
    rintro k j t _ G ν hk hj hν rfl
    rw [wp_ite]
    split
    · rename_i hd
      simp only [wp_bind, wp_get, wp_set]
      refine ⟨⟨by omega, by omega⟩, ⟨hk, hj⟩, hν.upd hB hk hj ?_⟩
      intro i' j' _ _
      rw [hν.read hA (by omega) (by omega)]
      simp only [divD, hd, if_true, entry]
    · rename_i hd
      simp only [wp_set]
      refine ⟨⟨hk, hj⟩, hν.upd hB hk hj ?_⟩
      intro i' j' _ _
      simp only [divD, hd, if_false]
  rcases hu with rfl | rfl
  · simp only [if_true]
    have hex : ∀ j, ∃ X : Nat → T, ∀ i, X i = divD diag
        (foldUp 0 i (alpha * entry μ B i j) (fun l acc => acc - f (entry μ A l i) * X l))
        (f (entry μ A i i)) := fun j => exists_fwd (T := T) (fun X i => divD diag
        (foldUp 0 i (alpha * entry μ B i j) (fun l acc => acc - f (entry μ A l i) * X l))
        (f (entry μ A i i))) (by
        intro x y i hxy
        show divD _ _ _ = divD _ _ _
        congr 1
        exact foldUp_congr (fun l s h1 h2 => by rw [hxy l (by omega)]))
    choose Y hY using hex
    refine wp_conseq (wp_forCols (fun i j => Y j i) rfl (MState.start B μ) ?_)
      (fun _ ν hν => ⟨_, hν, fun i j hi _ => hY j i⟩)
    intro j ν hj hν
    refine wp_forUp_ (fun k ν => MState B μ (fun i' j' => if j' = j ∧ i' < k then Y j i' else
        if j' < j then Y j' i' else entry μ B i' j') ν)
      (Nat.zero_le _) (by simpa using hν) ?_ ?_
    · intro k ν _ hk hν
      simp only [wp_bind, wp_get]
      refine ⟨⟨hk, hj⟩, ?_⟩
      rw [hν.at k j hk hj ((if_neg (by omega)).trans (if_neg (by omega)))]
      refine wp_conseq (wp_sumLoop (fun l acc => acc - f (entry μ A l k) * Y j l) (Nat.zero_le _) ?_) ?_
      · intro i s _ hi
        simp only [wp_bind, wp_get, wp_pure]
        refine ⟨⟨by omega, by omega⟩, ⟨by omega, by omega⟩, ?_, trivial⟩
        rw [hν.read hA (by omega) (by omega), hν.at i j (by omega) hj (if_pos ⟨rfl, hi⟩)]
        rfl
      · rintro _ _ ⟨rfl, rfl⟩
        refine wp_conseq (fin k j _ _ _ _ hk hj hν (hY j k)) ?_
        intro _ ν hν
        refine hν.congr (fun i' j' _ _ => ?_)
        by_cases e : j' = j
        · subst e; ifs_eq i' k
        · ifs
    · intro ν hν
      exact hν.congr (fun i' j' _ _ => by ifs)
  · simp only [reduceCtorEq, if_false]
    have hex : ∀ j, ∃ X : Nat → T, ∀ i, i < B.m → X i = divD diag
        (foldUp (i + 1) B.m (alpha * entry μ B i j) (fun l acc => acc - f (entry μ A l i) * X l))
        (f (entry μ A i i)) := fun j => exists_bwd (T := T) B.m (fun X i => divD diag
        (foldUp (i + 1) B.m (alpha * entry μ B i j) (fun l acc => acc - f (entry μ A l i) * X l))
        (f (entry μ A i i))) (by
        intro x y i _ hxy
        show divD _ _ _ = divD _ _ _
        congr 1
        exact foldUp_congr (fun l s h1 h2 => by rw [hxy l (by omega) h2]))
    choose Y hY using hex
    refine wp_conseq (wp_forCols (fun i j => Y j i) rfl (MState.start B μ) ?_)
      (fun _ ν hν => ⟨_, hν, fun i j hi _ => hY j i hi⟩)
    intro j ν hj hν
    refine wp_forDown_ (fun k ν => MState B μ (fun i' j' => if j' = j ∧ k ≤ i' then Y j i' else
        if j' < j then Y j' i' else entry μ B i' j') ν)
      (Nat.zero_le _) (hν.congr (fun i' j' _ _ => by rw [if_neg (by omega)])) ?_ ?_
    · intro k ν _ hk hν
      simp only [wp_bind, wp_get]
      refine ⟨⟨hk, hj⟩, ?_⟩
      rw [hν.at k j hk hj ((if_neg (by omega)).trans (if_neg (by omega)))]
      refine wp_conseq (wp_sumLoop (fun l acc => acc - f (entry μ A l k) * Y j l) (by omega) ?_) ?_
      · intro i s h1 hi
        simp only [wp_bind, wp_get, wp_pure]
        refine ⟨⟨by omega, by omega⟩, ⟨by omega, by omega⟩, ?_, trivial⟩
        rw [hν.read hA (by omega) (by omega), hν.at i j (by omega) hj (if_pos ⟨rfl, h1⟩)]
        rfl
      · rintro _ _ ⟨rfl, rfl⟩
        refine wp_conseq (fin k j _ _ _ _ hk hj hν (hY j k hk)) ?_
        intro _ ν hν
        refine hν.congr (fun i' j' _ _ => ?_)
        by_cases e : j' = j
        · subst e; ifs_eq i' k
        · ifs
    · intro ν hν
      exact hν.congr (fun i' j' _ _ => by ifs)


/-- The optional division of a column. -/
theorem wp_divCol [Div T] {G : Nat → Nat → T} {k : Nat} (hB : B.Inj) (hA : A.Disj B)
    (hk : k < B.n) (hk1 : k < A.m) (hk2 : k < A.n) (h : MState B μ0 G μ) :
    wp (if diag = .NonUnit then
          forUp_ 0 B.m (fun i => do
            let a ← A.get k k
            B.modify i k (· / f a)) else pure ()) μ
      (fun _ ν => MState B μ0 (fun i' j' => if j' = k then
            divD diag (G i' k) (f (entry μ0 A k k)) else G i' j') ν) := by
  rw [wp_ite]
  split
  · rename_i hd
    refine wp_conseq (wp_colLoop (j := k) (fun i => G i k / f (entry μ0 A k k)) h hB hk
      (le_refl _) (Nat.zero_le _) ?_) ?_
    · intro i ν _ hi hν
      simp only [wp_bind, wp_get, wp_modify]
      refine ⟨⟨hk1, hk2⟩, ⟨hi, hk⟩, ?_⟩
      rw [hν.at i k hi hk (if_neg (by omega)), hν.read hA hk1 hk2]
      rfl
    · intro _ ν hν
      refine hν.congr (fun i' j' _ _ => ?_)
      simp only [divD, hd, if_true]
      ifs
  · rename_i hd
    simp only [wp_pure]
    refine h.congr (fun i' j' _ _ => ?_)
    simp only [divD, hd, if_false]
    ifs

theorem wp_trsmRN [Mul T] [Sub T] [Div T] (hu : uplo = .Upper ∨ uplo = .Lower)
    (hB : B.Inj) (hA : A.Disj B) (hAm : A.m = B.n) (hAn : A.n = B.n) :
    wp (trsmRN uplo diag alpha A B B.m B.n) μ (fun _ ν => ∃ X, MState B μ X ν ∧
      ∀ i j, i < B.m → j < B.n →
      X i j = divD diag (if uplo = .Upper
        then foldUp 0 j (entry μ B i j * alpha) (fun l acc => acc - X i l * entry μ A l j)
        else foldUp (j + 1) B.n (entry μ B i j * alpha) (fun l acc => acc - X i l * entry μ A l j))
        (entry μ A j j)) := by
  unfold trsmRN
  have divCol := fun (j : Nat) (hj : j < B.n) (G : Nat → Nat → T) (ν : Store L T)
    (hν : MState B μ G ν) =>
    wp_divCol (f := id) (diag := diag) hB hA hj (by omega : j < A.m) (by omega : j < A.n) hν
  simp only [id] at divCol
  rcases hu with rfl | rfl
  · simp only [if_true]
    haveI : Nonempty (Nat → T) := ⟨fun _ => entry μ B 0 0⟩
    obtain ⟨Y, hY⟩ := exists_fwd (T := Nat → T) (fun Y j => fun i => divD diag
        (foldUp 0 j (entry μ B i j * alpha) (fun l acc => acc - Y l i * entry μ A l j))
        (entry μ A j j)) (by
        intro x y j hxy
        funext i
        show divD _ _ _ = divD _ _ _
        congr 1
        exact foldUp_congr (fun l s h1 h2 => by rw [hxy l (by omega)]))
    refine wp_conseq (wp_forCols (fun i j => Y j i) rfl (MState.start B μ) ?_)
      (fun _ ν hν => ⟨_, hν, fun i j _ hj => congrFun (hY j) i⟩)
    intro j ν hj hν
    simp only [wp_bind]
    refine wp_conseq (wp_colLoop (j := j) (fun i => entry μ B i j * alpha) hν hB hj (le_refl _)
      (Nat.zero_le _) ?_) ?_
    · intro i ν _ hi hν
      simp only [wp_modify]
      refine ⟨⟨hi, hj⟩, ?_⟩
      rw [hν.at i j hi hj ((if_neg (by omega)).trans (if_neg (by omega)))]
    intro _ ν hν
    refine wp_forUp_ (fun k ν => MState B μ (fun i' j' => if j' = j then
        foldUp 0 k (entry μ B i' j * alpha) (fun l acc => acc - Y l i' * entry μ A l j) else
        if j' < j then Y j' i' else entry μ B i' j') ν)
      (by omega) (hν.congr ?_) ?_ ?_
    · intro i' j' hi' _
      by_cases e : j' = j
      · subst e; rw [if_pos rfl, foldUp_self]; ifs
      · ifs
    · intro k ν h1 hk hν
      refine wp_conseq (wp_colLoop (j := j) (fun i => foldUp 0 (k + 1) (entry μ B i j * alpha)
          (fun l acc => acc - Y l i * entry μ A l j)) hν hB hj (le_refl _) (Nat.zero_le _) ?_) ?_
      · intro i ν _ hi hν
        simp only [wp_bind, wp_get, wp_modify]
        refine ⟨⟨by omega, by omega⟩, ⟨by omega, by omega⟩, ⟨by omega, by omega⟩, ?_⟩
        rw [hν.at i k hi (by omega) ((if_neg (by omega)).trans ((if_neg (by omega)).trans
            (if_pos (by omega)))),
          hν.at i j hi hj ((if_neg (by omega)).trans (if_pos rfl)), hν.read hA (by omega) (by omega),
          foldUp_succ h1]
        rfl
      · intro _ ν hν
        refine hν.congr (fun i' j' _ _ => ?_)
        by_cases e : j' = j
        · subst e; ifs
        · ifs
    · intro ν hν
      refine wp_conseq (divCol j hj _ ν hν) ?_
      intro _ ν hν
      refine hν.congr (fun i' j' _ _ => ?_)
      by_cases e : j' = j
      · subst e; rw [if_pos rfl, if_pos rfl, if_pos rfl]
        exact congrFun (hY j') i'
      · ifs
  · simp only [reduceCtorEq, if_false]
    haveI : Nonempty (Nat → T) := ⟨fun _ => entry μ B 0 0⟩
    obtain ⟨Y, hY⟩ := exists_bwd (T := Nat → T) B.n (fun Y j => fun i => divD diag
        (foldUp (j + 1) B.n (entry μ B i j * alpha) (fun l acc => acc - Y l i * entry μ A l j))
        (entry μ A j j)) (by
        intro x y j _ hxy
        funext i
        show divD _ _ _ = divD _ _ _
        congr 1
        exact foldUp_congr (fun l s h1 h2 => by rw [hxy l (by omega) (by omega)]))
    refine wp_conseq (wp_forColsD (fun i j => Y j i) rfl (MState.start B μ) ?_)
      (fun _ ν hν => ⟨_, hν, fun i j _ hj => congrFun (hY j hj) i⟩)
    intro j ν hj hν
    simp only [wp_bind]
    refine wp_conseq (wp_colLoop (j := j) (fun i => entry μ B i j * alpha) hν hB hj (le_refl _)
      (Nat.zero_le _) ?_) ?_
    · intro i ν _ hi hν
      simp only [wp_modify]
      refine ⟨⟨hi, hj⟩, ?_⟩
      rw [hν.at i j hi hj ((if_neg (by omega)).trans (if_neg (by omega)))]
    intro _ ν hν
    refine wp_forUp_ (fun k ν => MState B μ (fun i' j' => if j' = j then
        foldUp (j + 1) k (entry μ B i' j * alpha) (fun l acc => acc - Y l i' * entry μ A l j) else
        if j < j' then Y j' i' else entry μ B i' j') ν)
      (by omega) (hν.congr ?_) ?_ ?_
    · intro i' j' hi' _
      by_cases e : j' = j
      · subst e; rw [if_pos rfl, foldUp_self]; ifs
      · ifs
    · intro k ν h1 hk hν
      refine wp_conseq (wp_colLoop (j := j) (fun i => foldUp (j + 1) (k + 1) (entry μ B i j * alpha)
          (fun l acc => acc - Y l i * entry μ A l j)) hν hB hj (le_refl _) (Nat.zero_le _) ?_) ?_
      · intro i ν _ hi hν
        simp only [wp_bind, wp_get, wp_modify]
        refine ⟨⟨by omega, by omega⟩, ⟨by omega, by omega⟩, ⟨by omega, by omega⟩, ?_⟩
        rw [hν.at i k hi (by omega) ((if_neg (by omega)).trans ((if_neg (by omega)).trans
            (if_pos (by omega)))),
          hν.at i j hi hj ((if_neg (by omega)).trans (if_pos rfl)), hν.read hA (by omega) (by omega),
          foldUp_succ h1]
        rfl
      · intro _ ν hν
        refine hν.congr (fun i' j' _ _ => ?_)
        by_cases e : j' = j
        · subst e; ifs
        · ifs
    · intro ν hν
      refine wp_conseq (divCol j hj _ ν hν) ?_
      intro _ ν hν
      refine hν.congr (fun i' j' _ _ => ?_)
      by_cases e : j' = j
      · subst e; rw [if_pos rfl, if_pos rfl, if_pos rfl]
        exact congrFun (hY j' hj) i'
      · ifs

theorem wp_trsmRT [Mul T] [Sub T] [Div T] (hu : uplo = .Upper ∨ uplo = .Lower)
    (hB : B.Inj) (hA : A.Disj B) (hAm : A.m = B.n) (hAn : A.n = B.n) :
    wp (trsmRT f uplo diag alpha A B B.m B.n) μ (fun _ ν => ∃ Z : Nat → Nat → T,
      MState B μ (fun i j => Z j i * alpha) ν ∧ ∀ i j, i < B.m → j < B.n →
      Z j i = divD diag (if uplo = .Upper
        then foldDown (j + 1) B.n (entry μ B i j) (fun l acc => acc - Z l i * f (entry μ A j l))
        else foldUp 0 j (entry μ B i j) (fun l acc => acc - Z l i * f (entry μ A j l)))
        (f (entry μ A j j))) := by
  unfold trsmRT
  have divCol := fun (j : Nat) (hj : j < B.n) (G : Nat → Nat → T) (ν : Store L T)
    (hν : MState B μ G ν) =>
    wp_divCol (f := f) (diag := diag) hB hA hj (by omega : j < A.m) (by omega : j < A.n) hν
  rcases hu with rfl | rfl
  · simp only [if_true]
    haveI : Nonempty (Nat → T) := ⟨fun _ => entry μ B 0 0⟩
    obtain ⟨Z, hZ⟩ := exists_bwd (T := Nat → T) B.n (fun Y j => fun i => divD diag
        (foldDown (j + 1) B.n (entry μ B i j) (fun l acc => acc - Y l i * f (entry μ A j l)))
        (f (entry μ A j j))) (by
        intro x y j _ hxy
        funext i
        show divD _ _ _ = divD _ _ _
        congr 1
        exact foldDown_congr (fun l s h1 h2 => by rw [hxy l (by omega) (by omega)]))
    refine wp_forDown_ (fun k ν => MState B μ (fun i' j' => if k ≤ j' then Z j' i' * alpha else
        foldDown k B.n (entry μ B i' j') (fun l acc => acc - Z l i' * f (entry μ A j' l))) ν)
      (Nat.zero_le _) ((MState.start B μ).congr (fun i' j' _ _ => by rw [if_neg (by omega), foldDown_self])) ?_
      (fun ν hν => ⟨Z, hν.congr (fun i' j' _ _ => by rw [if_pos (by omega)]), fun i j _ hj => congrFun (hZ j hj) i⟩)
    intro k ν _ hk hν
    rw [wp_optStep1']
    refine wp_conseq (divCol k hk _ ν hν) ?_
    intro _ ν hν
    have hν : MState B μ (fun i' j' => if j' = k then Z k i' else
        if k ≤ j' then Z j' i' * alpha else
        foldDown (k + 1) B.n (entry μ B i' j') (fun l acc => acc - Z l i' * f (entry μ A j' l))) ν := by
      refine hν.congr (fun i' j' _ _ => ?_)
      by_cases e : j' = k
      · subst e
        rw [if_pos rfl, if_pos rfl, if_neg (by omega)]
        exact congrFun (hZ j' hk) i'
      · ifs
    simp only [wp_bind]
    refine wp_conseq (Q := fun _ ν => MState B μ (fun i' j' => if j' = k then Z k i' else
        if k ≤ j' then Z j' i' * alpha else
        foldDown k B.n (entry μ B i' j') (fun l acc => acc - Z l i' * f (entry μ A j' l))) ν)
      (wp_forUp_ (fun j ν => MState B μ (fun i' j' => if j' = k then Z k i' else
        if k ≤ j' then Z j' i' * alpha else if j' < j then
        foldDown k B.n (entry μ B i' j') (fun l acc => acc - Z l i' * f (entry μ A j' l)) else
        foldDown (k + 1) B.n (entry μ B i' j') (fun l acc => acc - Z l i' * f (entry μ A j' l))) ν)
        (by omega) (hν.congr (fun i' j' _ _ => by ifs)) ?_
        (fun ν hν => hν.congr (fun i' j' _ _ => by ifs))) ?_
    · intro j ν h1 h2 hν
      refine wp_conseq (wp_colLoop (j := j) (fun i =>
        foldDown k B.n (entry μ B i j) (fun l acc => acc - Z l i * f (entry μ A j l))) hν hB
        (by omega) (le_refl _) (Nat.zero_le _) ?_) ?_
      · intro i ν _ hi hν
        simp only [wp_bind, wp_get, wp_modify]
        refine ⟨⟨by omega, by omega⟩, ⟨by omega, by omega⟩, ⟨by omega, by omega⟩, ?_⟩
        rw [hν.at i k hi hk ((if_neg (by omega)).trans (if_pos rfl)),
          hν.at i j hi (by omega) ((if_neg (by omega)).trans ((if_neg (by omega)).trans
            ((if_neg (by omega)).trans (if_neg (by omega))))), hν.read hA (by omega) (by omega),
          foldDown_bot hk]
        rfl
      · intro _ ν hν
        refine hν.congr (fun i' j' _ _ => ?_)
        by_cases e : j' = j
        · subst e; ifs
        · ifs
    · intro _ ν hν
      refine wp_conseq (wp_colLoop (j := k) (fun i => Z k i * alpha) hν hB hk (le_refl _)
        (Nat.zero_le _) ?_) ?_
      · intro i ν _ hi hν
        simp only [wp_modify]
        refine ⟨⟨hi, hk⟩, ?_⟩
        rw [hν.at i k hi hk ((if_neg (by omega)).trans (if_pos rfl))]
      · intro _ ν hν
        refine hν.congr (fun i' j' _ _ => ?_)
        by_cases e : j' = k
        · subst e; ifs
        · ifs
  · simp only [reduceCtorEq, if_false]
    haveI : Nonempty (Nat → T) := ⟨fun _ => entry μ B 0 0⟩
    obtain ⟨Z, hZ⟩ := exists_fwd (T := Nat → T) (fun Y j => fun i => divD diag
        (foldUp 0 j (entry μ B i j) (fun l acc => acc - Y l i * f (entry μ A j l)))
        (f (entry μ A j j))) (by
        intro x y j hxy
        funext i
        show divD _ _ _ = divD _ _ _
        congr 1
        exact foldUp_congr (fun l s h1 h2 => by rw [hxy l (by omega)]))
    refine wp_forUp_ (fun k ν => MState B μ (fun i' j' => if j' < k then Z j' i' * alpha else
        foldUp 0 k (entry μ B i' j') (fun l acc => acc - Z l i' * f (entry μ A j' l))) ν)
      (Nat.zero_le _) ((MState.start B μ).congr (fun i' j' _ _ => by rw [if_neg (by omega), foldUp_self])) ?_
      (fun ν hν => ⟨Z, hν.congr (fun i' j' _ _ => by rw [if_pos (by omega)]), fun i j _ hj => congrFun (hZ j) i⟩)
    intro k ν _ hk hν
    rw [wp_optStep1']
    refine wp_conseq (divCol k hk _ ν hν) ?_
    intro _ ν hν
    have hν : MState B μ (fun i' j' => if j' = k then Z k i' else
        if j' < k then Z j' i' * alpha else
        foldUp 0 k (entry μ B i' j') (fun l acc => acc - Z l i' * f (entry μ A j' l))) ν := by
      refine hν.congr (fun i' j' _ _ => ?_)
      by_cases e : j' = k
      · subst e
        rw [if_pos rfl, if_pos rfl, if_neg (by omega)]
        exact congrFun (hZ j') i'
      · ifs
    simp only [wp_bind]
    refine wp_conseq (Q := fun _ ν => MState B μ (fun i' j' => if j' = k then Z k i' else
        if j' < k then Z j' i' * alpha else
        foldUp 0 (k + 1) (entry μ B i' j') (fun l acc => acc - Z l i' * f (entry μ A j' l))) ν)
      (wp_forUp_ (fun j ν => MState B μ (fun i' j' => if j' = k then Z k i' else
        if j' < k then Z j' i' * alpha else if j' < j then
        foldUp 0 (k + 1) (entry μ B i' j') (fun l acc => acc - Z l i' * f (entry μ A j' l)) else
        foldUp 0 k (entry μ B i' j') (fun l acc => acc - Z l i' * f (entry μ A j' l))) ν)
        (by omega) (hν.congr (fun i' j' _ _ => by ifs)) ?_
        (fun ν hν => hν.congr (fun i' j' _ _ => by ifs))) ?_
    · intro j ν h1 h2 hν
      refine wp_conseq (wp_colLoop (j := j) (fun i =>
        foldUp 0 (k + 1) (entry μ B i j) (fun l acc => acc - Z l i * f (entry μ A j l))) hν hB
        (by omega) (le_refl _) (Nat.zero_le _) ?_) ?_
      · intro i ν _ hi hν
        simp only [wp_bind, wp_get, wp_modify]
        refine ⟨⟨by omega, by omega⟩, ⟨by omega, by omega⟩, ⟨by omega, by omega⟩, ?_⟩
        rw [hν.at i k hi hk ((if_neg (by omega)).trans (if_pos rfl)),
          hν.at i j hi (by omega) ((if_neg (by omega)).trans ((if_neg (by omega)).trans
            ((if_neg (by omega)).trans (if_neg (by omega))))), hν.read hA (by omega) (by omega),
          foldUp_succ (Nat.zero_le _)]
        rfl
      · intro _ ν hν
        refine hν.congr (fun i' j' _ _ => ?_)
        by_cases e : j' = j
        · subst e; ifs
        · ifs
    · intro _ ν hν
      refine wp_conseq (wp_colLoop (j := k) (fun i => Z k i * alpha) hν hB hk (le_refl _)
        (Nat.zero_le _) ?_) ?_
      · intro i ν _ hi hν
        simp only [wp_modify]
        refine ⟨⟨hi, hk⟩, ?_⟩
        rw [hν.at i k hi hk ((if_neg (by omega)).trans (if_pos rfl))]
      · intro _ ν hν
        refine hν.congr (fun i' j' _ _ => ?_)
        by_cases e : j' = k
        · subst e; ifs
        · ifs

/-- trsm in exact arithmetic. -/
theorem wp_trsm_exact [Field T] [StarRing T] {side : Side} {trans : Op}
    (h : TrmOK side uplo trans A B)
    (hd : diag = .NonUnit → ∀ i, i < A.m → entry μ A i i ≠ 0) :
    wp (trsm side uplo trans diag alpha A B) μ (fun _ ν => ∃ X, MState B μ X ν ∧
      ∀ i j, i < B.m → j < B.n →
        (match side with
          | .Left => ∑ l ∈ Finset.range A.m, opF trans (triF uplo diag (entry μ A)) i l * X l j
          | _ => ∑ l ∈ Finset.range A.m, X i l * opF trans (triF uplo diag (entry μ A)) l j) =
        alpha * entry μ B i j) := by
  unfold trsm
  simp only [wp_bind]
  refine wp_conseq (wp_trmmChecks h) ?_
  intro _ ν hν
  rw [hν]
  have hu := h.tri
  have hop := h.hop
  have hsq := h.Am
  have hAB := h.AB
  rcases h.hside with rfl | rfl
  · simp only [if_true] at hAB ⊢
    have hAm : A.m = B.m := hAB
    cases trans
    · refine wp_conseq (wp_trsmLN hu h.inj h.disj (by omega) (by omega)) ?_
      rintro _ ν ⟨X, hν, hX⟩
      refine ⟨X, hν, fun i j hi hj =>
        tri_solve (X := fun l => X l j) hu (by omega) (fun e => opF_ne_zero (hd e i (by omega))) ?_⟩
      rw [hX i j hi hj, mul_comm alpha]
      rcases hu with rfl | rfl
      · rw [if_pos rfl, foldDown_sub (by omega)]
        simp only [offCols, effUp, opF, id, Finset.range_eq_Ico, hAm]
        rfl
      · rw [if_neg (by simp), foldUp_sub (by omega)]
        simp only [offCols, effUp, opF, id, Finset.range_eq_Ico, hAm]
        rfl
    · refine wp_conseq (wp_trsmLT hu h.inj h.disj (by omega) (by omega)) ?_
      rintro _ ν ⟨X, hν, hX⟩
      refine ⟨X, hν, fun i j hi hj =>
        tri_solve (X := fun l => X l j) hu (by omega) (fun e => opF_ne_zero (hd e i (by omega))) ?_⟩
      rw [hX i j hi hj, mul_comm alpha]
      rcases hu with rfl | rfl
      · rw [if_pos rfl, foldUp_sub (by omega)]
        simp only [offCols, effUp, opF, id, Finset.range_eq_Ico, hAm]
        rfl
      · rw [if_neg (by simp), foldUp_sub (by omega)]
        simp only [offCols, effUp, opF, id, Finset.range_eq_Ico, hAm]
        rfl
    · refine wp_conseq (wp_trsmLT hu h.inj h.disj (by omega) (by omega)) ?_
      rintro _ ν ⟨X, hν, hX⟩
      refine ⟨X, hν, fun i j hi hj =>
        tri_solve (X := fun l => X l j) hu (by omega) (fun e => opF_ne_zero (hd e i (by omega))) ?_⟩
      rw [hX i j hi hj, mul_comm alpha]
      rcases hu with rfl | rfl
      · rw [if_pos rfl, foldUp_sub (by omega)]
        simp only [offCols, effUp, opF, id, Finset.range_eq_Ico, hAm]
        rfl
      · rw [if_neg (by simp), foldUp_sub (by omega)]
        simp only [offCols, effUp, opF, id, Finset.range_eq_Ico, hAm]
        rfl
    · exact absurd rfl hop
  · simp only [reduceCtorEq, if_false] at hAB ⊢
    have hAm : A.m = B.n := hAB
    have key : ∀ (op : Op) (f : T → T), (∀ i j, f (entry μ A j i) = opF op (entry μ A) i j) →
        (op = .Trans ∨ op = .ConjTrans) →
        wp (trsmRT f uplo diag alpha A B B.m B.n) μ (fun _ ν => ∃ X, MState B μ X ν ∧
      ∀ i j, i < B.m → j < B.n →
        ∑ l ∈ Finset.range A.m, X i l * opF op (triF uplo diag (entry μ A)) l j =
        alpha * entry μ B i j) := by
      intro op f hf hop
      refine wp_conseq (wp_trsmRT hu h.inj h.disj (by omega) (by omega)) ?_
      rintro _ ν ⟨Z, hν, hZ⟩
      refine ⟨_, hν, fun i j hi hj => ?_⟩
      have := tri_solveR (X := fun l => Z l i) (op := op) (diag := diag) (a := entry μ A)
        (b := entry μ B i j) hu (by omega : j < A.m)
        (fun e => opF_ne_zero (hd e j (by omega))) (by
          rw [hZ i j hi hj, hf]
          simp only [hf]
          rcases hu with rfl | rfl <;> rcases hop with rfl | rfl
          · rw [if_pos rfl, foldDown_sub (by omega)]
            simp only [offCols, effUp, flipOp, hAm]; rfl
          · rw [if_pos rfl, foldDown_sub (by omega)]
            simp only [offCols, effUp, flipOp, hAm]; rfl
          · rw [if_neg (by simp), foldUp_sub (by omega)]
            simp only [offCols, effUp, flipOp, Finset.range_eq_Ico, hAm]; rfl
          · rw [if_neg (by simp), foldUp_sub (by omega)]
            simp only [offCols, effUp, flipOp, Finset.range_eq_Ico, hAm]; rfl)
      rw [← this, Finset.mul_sum]
      exact Finset.sum_congr rfl (fun l _ => by ring)
    cases trans
    · refine wp_conseq (wp_trsmRN hu h.inj h.disj (by omega) (by omega)) ?_
      rintro _ ν ⟨X, hν, hX⟩
      refine ⟨X, hν, fun i j hi hj =>
        tri_solveR (X := fun l => X i l) hu (by omega) (fun e => opF_ne_zero (hd e j (by omega))) ?_⟩
      rw [hX i j hi hj, mul_comm alpha]
      rcases hu with rfl | rfl
      · rw [if_pos rfl, foldUp_sub (by omega)]
        simp only [offCols, effUp, flipOp, opF, id, Finset.range_eq_Ico, hAm]
        rfl
      · rw [if_neg (by simp), foldUp_sub (by omega)]
        simp only [offCols, effUp, flipOp, opF, id, Finset.range_eq_Ico, hAm]
        rfl
    · exact key .Trans id (fun _ _ => rfl) (Or.inl rfl)
    · exact key .ConjTrans star (fun _ _ => rfl) (Or.inr rfl)
    · exact absurd rfl hop
end
end TLA
