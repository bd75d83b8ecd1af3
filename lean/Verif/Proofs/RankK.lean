import Verif.Proofs.Hemm

namespace TLA
set_option linter.unusedTactic false
set_option linter.unreachableTactic false
set_option linter.unusedSimpArgs false
variable {L T : Type} [DecidableEq L]

/-- Triangle actually computed by the rank-k routines (`General` computes the upper one first). -/
def compTri (uplo : Uplo) : Uplo := if uplo = .Lower then .Lower else .Upper

theorem wp_mirror {f : T → T} {C : MatV L} {n : Nat} {μ0 μ : Store L T} {G : Nat → Nat → T}
    (hC : C.Inj) (hm : C.m = n) (hn : C.n = n) (h : MState C μ0 G μ) :
    wp (mirror f C n) μ (fun _ ν => MState C μ0 (fun i j => if i ≤ j then G i j else f (G j i)) ν) := by
  unfold mirror
  refine wp_conseq (wp_forCols (fun i j => if i ≤ j then G i j else f (G j i)) hn.symm h ?_)
    (fun _ ν hν => hν)
  intro j ν hj hν
  refine wp_conseq (wp_colLoop (j := j) (fun i => f (G j i)) hν hC hj (by omega) (by omega) ?_)
    (fun _ ν hν => hν.congr (fun i' j' _ _ => by ifs_eq j' j))
  intro i ν h1 hi hν
  simp only [wp_bind, wp_get, wp_set]
  refine ⟨⟨by omega, by omega⟩, ⟨by omega, by omega⟩, ?_⟩
  rw [hν.at j i (by omega) (by omega) ((if_neg (by omega)).trans (if_neg (by omega)))]

/-- The final value in terms of the computed triangle. -/
def rankRes (f : T → T) (uplo : Uplo) (F c : Nat → Nat → T) : Nat → Nat → T := fun i j =>
  if uplo = .General then (if i ≤ j then F i j else f (F j i))
  else if inTri uplo i j then F i j else c i j

theorem wp_mirrorIf {f : T → T} {uplo : Uplo} {C : MatV L} {n : Nat} {μ0 μ : Store L T}
    {F c : Nat → Nat → T} (hu : uplo = .Upper ∨ uplo = .Lower ∨ uplo = .General)
    (hC : C.Inj) (hm : C.m = n) (hn : C.n = n)
    (h : MState C μ0 (fun i j => if inTri (compTri uplo) i j then F i j else c i j) μ) :
    wp (if uplo = .General then mirror f C n else pure ()) μ
      (fun _ ν => MState C μ0 (rankRes f uplo F c) ν) := by
  rcases hu with rfl | rfl | rfl
  · simp only [reduceCtorEq, if_false, wp_pure]
    exact h
  · simp only [reduceCtorEq, if_false, wp_pure]
    exact h
  · simp only [if_true]
    refine wp_conseq (wp_mirror hC hm hn h) (fun _ ν hν => hν.congr (fun i j _ _ => ?_))
    unfold rankRes
    simp only [if_true]
    show _ = if i ≤ j then (if i ≤ j then F i j else c i j) else f (if j ≤ i then F j i else c j i)
    ifs

/-- Law-free value of an entry of the triangle computed by herk. -/
def herkVal [Zero T] [Add T] [Mul T] [Sub T] [Star T] [ReIm T] (trans : Op) (alpha : T)
    (a : Nat → Nat → T) (beta : Coef T) (c : Nat → Nat → T) (k i j : Nat) : T :=
  match trans with
  | .NoTrans => foldUp 0 k (if i = j then beta.mulVal (re (c i j)) else beta.mulAssign (c i j))
      (fun l acc => acc + (if i = j
        then re (a j l) * re (alpha * star (a j l)) - im (a j l) * im (alpha * star (a j l))
        else a i l * (alpha * star (a j l))))
  | _ => if i = j then
        beta.addMul (alpha * foldUp 0 k 0 (fun l s => s + (re (a l j) * re (a l j) + im (a l j) * im (a l j)))) (re (c i j))
      else beta.addMul (alpha * foldUp 0 k 0 (fun l s => s + star (a l i) * a l j)) (c i j)

theorem wp_herk [Zero T] [Add T] [Mul T] [Sub T] [Star T] [ReIm T] {uplo : Uplo} {trans : Op} {alpha : T}
    {A C : MatV L} {beta : Coef T} {n k : Nat} {μ : Store L T}
    (h : RankOK Op.ConjTrans uplo trans A A C n k) :
    wp (herk uplo trans alpha A beta C) μ (fun _ ν => MState C μ (rankRes star uplo
      (herkVal trans alpha (entry μ A) beta (entry μ C) k) (entry μ C)) ν) := by
  obtain ⟨hu, hop, h1, h2, hBm, hBn, hCm, hCn, hC, hA, hB⟩ := h
  unfold herk
  simp only [wp_bind, wp_check, h1, h2, hCm, hCn, ne_eq, not_true_eq_false, decide_false,
    Bool.not_false, Bool.or_self, if_true]
  rw [if_pos (by rcases hu with rfl | rfl | rfl <;> rfl),
    if_pos (by rcases hop with rfl | rfl <;> rfl)]
  have step : ∀ {x : M L T Unit}, wp x μ (fun _ ν => MState C μ (fun i j =>
      if inTri (compTri uplo) i j then herkVal trans alpha (entry μ A) beta (entry μ C) k i j
      else entry μ C i j) ν) →
      wp x μ (fun _ ν => wp (if uplo = .General then mirror star C n else pure ()) ν
        (fun _ ν => MState C μ (rankRes star uplo
      (herkVal trans alpha (entry μ A) beta (entry μ C) k) (entry μ C)) ν)) :=
    fun hx => wp_conseq hx (fun _ ν hν => wp_mirrorIf hu hC hCm hCn hν)
  rcases hop with rfl | rfl
  · simp only [if_true] at h1 h2 ⊢
    rw [wp_iteBind]
    refine step ?_
    obtain ⟨F, hFdef⟩ : ∃ F : Nat → Nat → Nat → T, F = fun i j k => herkVal .NoTrans alpha (entry μ A) beta (entry μ C) k i j := ⟨_, rfl⟩
    have hF0 : ∀ i j, i ≠ j → beta.mulAssign (entry μ C i j) = F i j 0 := by
      intro i j hij; subst hFdef; simp [herkVal, hij]
    have hF0d : ∀ j, F j j 0 = beta.mulVal (re (entry μ C j j)) := by
      intro j; subst hFdef; simp [herkVal]
    have hFs : ∀ i j l, i ≠ j → F i j (l + 1) = F i j l + entry μ A i l * (alpha * star (entry μ A j l)) := by
      intro i j l hij; subst hFdef; simp only [herkVal, if_neg hij]; rw [foldUp_succ (Nat.zero_le _)]
    have hFd : ∀ j l, F j j (l + 1) = F j j l + (re (entry μ A j l) * re (alpha * star (entry μ A j l)) - im (entry μ A j l) * im (alpha * star (entry μ A j l))) := by
      intro j l; subst hFdef; simp only [herkVal, if_true]; rw [foldUp_succ (Nat.zero_le _)]
    have hV : ∀ i j, herkVal .NoTrans alpha (entry μ A) beta (entry μ C) k i j = F i j k := by
      intro i j; subst hFdef; rfl
    simp only [hV]
    by_cases hl : uplo = .Lower
    · subst hl
      simp only [ne_eq, not_true_eq_false, if_false, compTri, if_true]
      clear step
      refine wp_conseq (wp_forCols (fun i' j' => if inTri .Lower i' j' then F i' j' k else entry μ C i' j')
        (by omega) (MState.start C μ) ?_) (fun _ ν hν => hν)
      intro j ν hj hν
      simp only [wp_bind]
      have hν0 := hν
      simp only [wp_modify]
      refine ⟨⟨by omega, hj⟩, ?_⟩
      have hν := hν.upd (G' := fun i' j' => if i' = j ∧ j' = j then F j j 0 else
          if j' < j then (if inTri .Lower i' j' then F i' j' k else entry μ C i' j') else entry μ C i' j') hC (by omega : j < C.m) hj (v := F j j 0) (fun _ _ _ _ => rfl)
      rw [hν0.at j j (by omega) hj (if_neg (by omega)), ← hF0d]
      refine wp_conseq (wp_colLoop (j := j) (fun i => F i j 0) hν hC hj (by omega) (by omega) ?_) ?_
      · intro i ν _ hi hν
        simp only [wp_modify]
        refine ⟨⟨by omega, hj⟩, ?_⟩
        rw [hν.at i j (by omega) hj ((if_neg (by omega)).trans ((if_neg (by omega)).trans (if_neg (by omega)))), hF0 i j (by omega)]
      intro _ ν hν
      have hν : MState C μ (fun i' j' => if j' = j ∧ j ≤ i' then F i' j 0 else
          if j' < j then (if inTri .Lower i' j' then F i' j' k else entry μ C i' j') else entry μ C i' j') ν :=
        hν.congr (fun i' j' _ _ => by
          simp only [ite_lower]
          by_cases e : j' = j
          · subst e; ifs_eq i' j'
          · ifs)
      refine wp_forUp_ (fun l ν => MState C μ (fun i' j' => if j' = j ∧ j ≤ i' then F i' j l else
          if j' < j then (if inTri .Lower i' j' then F i' j' k else entry μ C i' j') else entry μ C i' j') ν)
        (Nat.zero_le _) hν ?_
        (fun ν hν => hν.congr (fun i' j' _ _ => by
          simp only [ite_lower]; ifs_eq j' j))
      intro l ν _ hl hν
      simp only [wp_bind, wp_get]
      refine ⟨⟨by omega, by omega⟩, ?_⟩
      rw [hν.read hA (i := j) (j := l) (by omega) (by omega)]
      have hν0 := hν
      simp only [wp_modify]
      refine ⟨⟨by omega, hj⟩, ?_⟩
      have hν := hν.upd (G' := fun i' j' => if i' = j ∧ j' = j then F j j (l + 1) else
         if j' = j ∧ j ≤ i' then F i' j l else
          if j' < j then (if inTri .Lower i' j' then F i' j' k else entry μ C i' j') else entry μ C i' j') hC (by omega : j < C.m) hj (v := F j j (l + 1)) (fun _ _ _ _ => rfl)
      rw [hν0.at j j (by omega) hj (if_pos ⟨rfl, le_refl _⟩)]
      rw [hFd j l] at hν
      refine wp_conseq (wp_colLoop (j := j) (fun i => F i j (l + 1)) hν hC hj (by omega) (by omega) ?_) ?_
      · intro i ν _ hi hν
        simp only [wp_bind, wp_get, wp_modify]
        refine ⟨⟨by omega, by omega⟩, ⟨by omega, by omega⟩, ?_⟩
        rw [hν.at i j (by omega) hj ((if_neg (by omega)).trans ((if_neg (by omega)).trans (if_pos ⟨rfl, by omega⟩))), hFs i j l (by omega), hν.read hA (i := i) (j := l) (by omega) (by omega)]
        rfl
      intro _ ν hν
      refine hν.congr (fun i' j' _ _ => ?_)
      simp only [ite_lower]
      by_cases e : j' = j
      · subst e
        by_cases e' : i' = j'
        · subst e'
          rw [if_pos ⟨rfl, le_refl _⟩, if_neg (by omega), if_pos ⟨rfl, rfl⟩]
          exact hFd i' l
        · ifs
      · ifs
    · simp only [ne_eq, hl, not_false_eq_true, if_true, compTri, if_false]
      clear step
      refine wp_conseq (wp_forCols (fun i' j' => if inTri .Upper i' j' then F i' j' k else entry μ C i' j')
        (by omega) (MState.start C μ) ?_) (fun _ ν hν => hν)
      intro j ν hj hν
      simp only [wp_bind]
      refine wp_conseq (wp_colLoop (j := j) (fun i => F i j 0) hν hC hj (by omega) (by omega) ?_) ?_
      · intro i ν _ hi hν
        simp only [wp_modify]
        refine ⟨⟨by omega, hj⟩, ?_⟩
        rw [hν.at i j (by omega) hj ((if_neg (by omega)).trans (if_neg (by omega))), hF0 i j (by omega)]
      intro _ ν hν
      have hν0 := hν
      simp only [wp_modify]
      refine ⟨⟨by omega, hj⟩, ?_⟩
      have hν := hν.upd (G' := fun i' j' => if j' = j ∧ i' ≤ j then F i' j 0 else
          if j' < j then (if inTri .Upper i' j' then F i' j' k else entry μ C i' j') else entry μ C i' j') hC (by omega : j < C.m) hj (v := F j j 0) (by
        intro i' j' _ _
        simp only [ite_upper]
        by_cases e : j' = j
        · subst e; ifs_eq i' j'
        · ifs)
      rw [hν0.at j j (by omega) hj ((if_neg (by omega)).trans (if_neg (by omega))), ← hF0d]
      refine wp_forUp_ (fun l ν => MState C μ (fun i' j' => if j' = j ∧ i' ≤ j then F i' j l else
          if j' < j then (if inTri .Upper i' j' then F i' j' k else entry μ C i' j') else entry μ C i' j') ν)
        (Nat.zero_le _) hν ?_
        (fun ν hν => hν.congr (fun i' j' _ _ => by
          simp only [ite_upper]; ifs_eq j' j))
      intro l ν _ hl hν
      simp only [wp_bind, wp_get]
      refine ⟨⟨by omega, by omega⟩, ?_⟩
      rw [hν.read hA (i := j) (j := l) (by omega) (by omega)]
      refine wp_conseq (wp_colLoop (j := j) (fun i => F i j (l + 1)) hν hC hj (by omega) (by omega) ?_) ?_
      · intro i ν _ hi hν
        simp only [wp_bind, wp_get, wp_modify]
        refine ⟨⟨by omega, by omega⟩, ⟨by omega, by omega⟩, ?_⟩
        rw [hν.at i j (by omega) hj ((if_neg (by omega)).trans (if_pos ⟨rfl, by omega⟩)), hFs i j l (by omega), hν.read hA (i := i) (j := l) (by omega) (by omega)]
        rfl
      intro _ ν hν
      simp only [wp_modify]
      refine ⟨⟨by omega, hj⟩, hν.upd hC (by omega) hj ?_⟩
      intro i' j' _ _
      rw [hν.at j j (by omega) hj ((if_neg (by omega)).trans (if_pos ⟨rfl, le_refl _⟩))]
      simp only [ite_upper]
      by_cases e : j' = j
      · subst e
        by_cases e' : i' = j'
        · subst e'
          rw [if_pos ⟨rfl, le_refl _⟩, if_pos ⟨rfl, rfl⟩]
          exact hFd i' l
        · ifs
      · ifs
  · simp only [reduceCtorEq, if_false] at h1 h2 ⊢
    rw [wp_iteBind]
    refine step ?_
    obtain ⟨F, hFdef⟩ : ∃ F : Nat → Nat → T, F = fun i j => herkVal Op.ConjTrans alpha (entry μ A) beta (entry μ C) k i j := ⟨_, rfl⟩
    have hF : ∀ i j, i ≠ j → F i j = beta.addMul (alpha * foldUp 0 k 0 (fun l s => s + star (entry μ A l i) * entry μ A l j)) (entry μ C i j) := by
      intro i j hij; subst hFdef; simp only [herkVal, if_neg hij]
    have hFd : ∀ j, F j j = beta.addMul (alpha * foldUp 0 k 0 (fun l s => s + (re (entry μ A l j) * re (entry μ A l j) + im (entry μ A l j) * im (entry μ A l j)))) (re (entry μ C j j)) := by
      intro j; subst hFdef; simp only [herkVal, if_true]
    have hV : ∀ i j, herkVal Op.ConjTrans alpha (entry μ A) beta (entry μ C) k i j = F i j := by
      intro i j; subst hFdef; rfl
    simp only [hV]
    by_cases hl : uplo = .Lower
    · subst hl
      simp only [ne_eq, not_true_eq_false, if_false, compTri, if_true]
      clear step
      refine wp_conseq (wp_forCols (fun i' j' => if inTri .Lower i' j' then F i' j' else entry μ C i' j')
        (by omega) (MState.start C μ) ?_) (fun _ ν hν => hν)
      intro j ν hj hν
      simp only [wp_bind]
      refine wp_conseq (wp_colLoop (j := j) (fun i => F i j) hν hC hj (by omega) (by omega) ?_) ?_
      · intro i ν _ hi hν
        simp only [wp_bind]
        refine wp_conseq (wp_sumLoop (fun l s => s + star (entry μ A l i) * entry μ A l j) (Nat.zero_le _) ?_) ?_
        · intro l s _ hl
          simp only [wp_bind, wp_get, wp_pure]
          refine ⟨⟨by omega, by omega⟩, ⟨by omega, by omega⟩, ?_, trivial⟩
          rw [hν.read hA (i := l) (j := i) (by omega) (by omega), hν.read hA (i := l) (j := j) (by omega) (by omega)]
          rfl
        · rintro _ _ ⟨rfl, rfl⟩
          simp only [wp_modify]
          refine ⟨⟨by omega, hj⟩, ?_⟩
          rw [hν.at i j (by omega) hj ((if_neg (by omega)).trans (if_neg (by omega))), hF i j (by omega)]
      intro _ ν hν
      refine wp_conseq (wp_sumLoop (fun l s => s + (re (entry μ A l j) * re (entry μ A l j) + im (entry μ A l j) * im (entry μ A l j))) (Nat.zero_le _) ?_) ?_
      · intro l s _ hl
        simp only [wp_bind, wp_get, wp_pure]
        refine ⟨⟨by omega, by omega⟩, ?_, trivial⟩
        rw [hν.read hA (i := l) (j := j) (by omega) (by omega)]
        rfl
      · rintro _ _ ⟨rfl, rfl⟩
        simp only [wp_modify]
        refine ⟨⟨by omega, hj⟩, hν.upd hC (by omega) hj ?_⟩
        intro i' j' _ _
        rw [hν.at j j (by omega) hj ((if_neg (by omega)).trans (if_neg (by omega))), ← hFd]
        simp only [ite_lower]
        by_cases e : j' = j
        · subst e; ifs_eq i' j'
        · ifs
    · simp only [ne_eq, hl, not_false_eq_true, if_true, compTri, if_false]
      clear step
      refine wp_conseq (wp_forCols (fun i' j' => if inTri .Upper i' j' then F i' j' else entry μ C i' j')
        (by omega) (MState.start C μ) ?_) (fun _ ν hν => hν)
      intro j ν hj hν
      simp only [wp_bind]
      refine wp_conseq (wp_colLoop (j := j) (fun i => F i j) hν hC hj (by omega) (by omega) ?_) ?_
      · intro i ν _ hi hν
        simp only [wp_bind]
        refine wp_conseq (wp_sumLoop (fun l s => s + star (entry μ A l i) * entry μ A l j) (Nat.zero_le _) ?_) ?_
        · intro l s _ hl
          simp only [wp_bind, wp_get, wp_pure]
          refine ⟨⟨by omega, by omega⟩, ⟨by omega, by omega⟩, ?_, trivial⟩
          rw [hν.read hA (i := l) (j := i) (by omega) (by omega), hν.read hA (i := l) (j := j) (by omega) (by omega)]
          rfl
        · rintro _ _ ⟨rfl, rfl⟩
          simp only [wp_modify]
          refine ⟨⟨by omega, hj⟩, ?_⟩
          rw [hν.at i j (by omega) hj ((if_neg (by omega)).trans (if_neg (by omega))), hF i j (by omega)]
      intro _ ν hν
      refine wp_conseq (wp_sumLoop (fun l s => s + (re (entry μ A l j) * re (entry μ A l j) + im (entry μ A l j) * im (entry μ A l j))) (Nat.zero_le _) ?_) ?_
      · intro l s _ hl
        simp only [wp_bind, wp_get, wp_pure]
        refine ⟨⟨by omega, by omega⟩, ?_, trivial⟩
        rw [hν.read hA (i := l) (j := j) (by omega) (by omega)]
        rfl
      · rintro _ _ ⟨rfl, rfl⟩
        simp only [wp_modify]
        refine ⟨⟨by omega, hj⟩, hν.upd hC (by omega) hj ?_⟩
        intro i' j' _ _
        rw [hν.at j j (by omega) hj ((if_neg (by omega)).trans (if_neg (by omega))), ← hFd]
        simp only [ite_upper]
        by_cases e : j' = j
        · subst e; ifs_eq i' j'
        · ifs

/-- Law-free value of an entry of the triangle computed by syrk. -/
def syrkVal [Zero T] [Add T] [Mul T] (trans : Op) (alpha : T)
    (a : Nat → Nat → T) (beta : Coef T) (c : Nat → Nat → T) (k i j : Nat) : T :=
  match trans with
  | .NoTrans => foldUp 0 k (beta.mulAssign (c i j)) (fun l acc => acc + a i l * (alpha * a j l))
  | _ => beta.addMul (alpha * foldUp 0 k 0 (fun l s => s + a l i * a l j)) (c i j)

theorem wp_syrk [Zero T] [Add T] [Mul T] {uplo : Uplo} {trans : Op} {alpha : T}
    {A C : MatV L} {beta : Coef T} {n k : Nat} {μ : Store L T}
    (h : RankOK Op.Trans uplo trans A A C n k) :
    wp (syrk uplo trans alpha A beta C) μ (fun _ ν => MState C μ (rankRes id uplo
      (syrkVal trans alpha (entry μ A) beta (entry μ C) k) (entry μ C)) ν) := by
  obtain ⟨hu, hop, h1, h2, hBm, hBn, hCm, hCn, hC, hA, hB⟩ := h
  unfold syrk
  simp only [wp_bind, wp_check, h1, h2, hCm, hCn, ne_eq, not_true_eq_false, decide_false,
    Bool.not_false, Bool.or_self, if_true]
  rw [if_pos (by rcases hu with rfl | rfl | rfl <;> rfl),
    if_pos (by rcases hop with rfl | rfl <;> rfl)]
  have step : ∀ {x : M L T Unit}, wp x μ (fun _ ν => MState C μ (fun i j =>
      if inTri (compTri uplo) i j then syrkVal trans alpha (entry μ A) beta (entry μ C) k i j
      else entry μ C i j) ν) →
      wp x μ (fun _ ν => wp (if uplo = .General then mirror id C n else pure ()) ν
        (fun _ ν => MState C μ (rankRes id uplo
      (syrkVal trans alpha (entry μ A) beta (entry μ C) k) (entry μ C)) ν)) :=
    fun hx => wp_conseq hx (fun _ ν hν => wp_mirrorIf hu hC hCm hCn hν)
  rcases hop with rfl | rfl
  · simp only [if_true] at h1 h2 ⊢
    rw [wp_iteBind]
    refine step ?_
    obtain ⟨F, hFdef⟩ : ∃ F : Nat → Nat → Nat → T, F = fun i j k => syrkVal .NoTrans alpha (entry μ A) beta (entry μ C) k i j := ⟨_, rfl⟩
    have hF0 : ∀ i j, beta.mulAssign (entry μ C i j) = F i j 0 := by
      intro i j; subst hFdef; simp [syrkVal]
    have hFs : ∀ i j l, F i j (l + 1) = F i j l + entry μ A i l * (alpha * entry μ A j l) := by
      intro i j l; subst hFdef; simp only [syrkVal]; rw [foldUp_succ (Nat.zero_le _)]
    have hV : ∀ i j, syrkVal .NoTrans alpha (entry μ A) beta (entry μ C) k i j = F i j k := by
      intro i j; subst hFdef; rfl
    simp only [hV]
    by_cases hl : uplo = .Lower
    · subst hl
      simp only [ne_eq, not_true_eq_false, if_false, compTri, if_true]
      clear step
      refine wp_conseq (wp_forCols (fun i' j' => if inTri .Lower i' j' then F i' j' k else entry μ C i' j')
        (by omega) (MState.start C μ) ?_) (fun _ ν hν => hν)
      intro j ν hj hν
      simp only [wp_bind]
      refine wp_conseq (wp_colLoop (j := j) (fun i => F i j 0) hν hC hj (by omega) (by omega) ?_) ?_
      · intro i ν _ hi hν
        simp only [wp_modify]
        refine ⟨⟨by omega, hj⟩, ?_⟩
        rw [hν.at i j (by omega) hj ((if_neg (by omega)).trans (if_neg (by omega))), hF0]
      intro _ ν hν
      refine wp_forUp_ (fun l ν => MState C μ (fun i' j' => if j' = j ∧ j ≤ i' then F i' j l else
          if j' < j then (if inTri .Lower i' j' then F i' j' k else entry μ C i' j') else entry μ C i' j') ν)
        (Nat.zero_le _) (hν.congr (fun i' j' _ _ => by simp only [ite_lower]; ifs)) ?_
        (fun ν hν => hν.congr (fun i' j' _ _ => by
          simp only [ite_lower]; ifs_eq j' j))
      intro l ν _ hl hν
      simp only [wp_bind, wp_get]
      refine ⟨⟨by omega, by omega⟩, ?_⟩
      rw [hν.read hA (i := j) (j := l) (by omega) (by omega)]
      refine wp_conseq (wp_colLoop (j := j) (fun i => F i j (l + 1)) hν hC hj (by omega) (by omega) ?_)
        (fun _ ν hν => hν.congr (fun i' j' _ _ => by simp only [ite_lower]; ifs))
      intro i ν _ hi hν
      simp only [wp_bind, wp_get, wp_modify]
      refine ⟨⟨by omega, by omega⟩, ⟨by omega, by omega⟩, ?_⟩
      rw [hν.at i j (by omega) hj ((if_neg (by omega)).trans (if_pos ⟨rfl, by omega⟩)), hFs, hν.read hA (i := i) (j := l) (by omega) (by omega)]
      rfl
    · simp only [ne_eq, hl, not_false_eq_true, if_true, compTri, if_false]
      clear step
      refine wp_conseq (wp_forCols (fun i' j' => if inTri .Upper i' j' then F i' j' k else entry μ C i' j')
        (by omega) (MState.start C μ) ?_) (fun _ ν hν => hν)
      intro j ν hj hν
      simp only [wp_bind]
      refine wp_conseq (wp_colLoop (j := j) (fun i => F i j 0) hν hC hj (by omega) (by omega) ?_) ?_
      · intro i ν _ hi hν
        simp only [wp_modify]
        refine ⟨⟨by omega, hj⟩, ?_⟩
        rw [hν.at i j (by omega) hj ((if_neg (by omega)).trans (if_neg (by omega))), hF0]
      intro _ ν hν
      refine wp_forUp_ (fun l ν => MState C μ (fun i' j' => if j' = j ∧ i' ≤ j then F i' j l else
          if j' < j then (if inTri .Upper i' j' then F i' j' k else entry μ C i' j') else entry μ C i' j') ν)
        (Nat.zero_le _) (hν.congr (fun i' j' _ _ => by simp only [ite_upper]; ifs)) ?_
        (fun ν hν => hν.congr (fun i' j' _ _ => by
          simp only [ite_upper]; ifs_eq j' j))
      intro l ν _ hl hν
      simp only [wp_bind, wp_get]
      refine ⟨⟨by omega, by omega⟩, ?_⟩
      rw [hν.read hA (i := j) (j := l) (by omega) (by omega)]
      refine wp_conseq (wp_colLoop (j := j) (fun i => F i j (l + 1)) hν hC hj (by omega) (by omega) ?_)
        (fun _ ν hν => hν.congr (fun i' j' _ _ => by simp only [ite_upper]; ifs))
      intro i ν _ hi hν
      simp only [wp_bind, wp_get, wp_modify]
      refine ⟨⟨by omega, by omega⟩, ⟨by omega, by omega⟩, ?_⟩
      rw [hν.at i j (by omega) hj ((if_neg (by omega)).trans (if_pos ⟨rfl, by omega⟩)), hFs, hν.read hA (i := i) (j := l) (by omega) (by omega)]
      rfl
  · simp only [reduceCtorEq, if_false] at h1 h2 ⊢
    rw [wp_iteBind]
    refine step ?_
    obtain ⟨F, hFdef⟩ : ∃ F : Nat → Nat → T, F = fun i j => syrkVal Op.Trans alpha (entry μ A) beta (entry μ C) k i j := ⟨_, rfl⟩
    have hF : ∀ i j, F i j = beta.addMul (alpha * foldUp 0 k 0 (fun l s => s + entry μ A l i * entry μ A l j)) (entry μ C i j) := by
      intro i j; subst hFdef; rfl
    have hV : ∀ i j, syrkVal Op.Trans alpha (entry μ A) beta (entry μ C) k i j = F i j := by
      intro i j; subst hFdef; rfl
    simp only [hV]
    by_cases hl : uplo = .Lower
    · subst hl
      simp only [ne_eq, not_true_eq_false, if_false, compTri, if_true]
      clear step
      refine wp_conseq (wp_forCols (fun i' j' => if inTri .Lower i' j' then F i' j' else entry μ C i' j')
        (by omega) (MState.start C μ) ?_) (fun _ ν hν => hν)
      intro j ν hj hν
      refine wp_conseq (wp_colLoop (j := j) (fun i => F i j) hν hC hj (by omega) (by omega) ?_)
        (fun _ ν hν => hν.congr (fun i' j' _ _ => by simp only [ite_lower]; ifs_eq j' j))
      · intro i ν _ hi hν
        simp only [wp_bind]
        refine wp_conseq (wp_sumLoop (fun l s => s + entry μ A l i * entry μ A l j) (Nat.zero_le _) ?_) ?_
        · intro l s _ hl
          simp only [wp_bind, wp_get, wp_pure]
          refine ⟨⟨by omega, by omega⟩, ⟨by omega, by omega⟩, ?_, trivial⟩
          rw [hν.read hA (i := l) (j := i) (by omega) (by omega), hν.read hA (i := l) (j := j) (by omega) (by omega)]
          rfl
        · rintro _ _ ⟨rfl, rfl⟩
          simp only [wp_modify]
          refine ⟨⟨by omega, hj⟩, ?_⟩
          rw [hν.at i j (by omega) hj ((if_neg (by omega)).trans (if_neg (by omega))), hF i j]
    · simp only [ne_eq, hl, not_false_eq_true, if_true, compTri, if_false]
      clear step
      refine wp_conseq (wp_forCols (fun i' j' => if inTri .Upper i' j' then F i' j' else entry μ C i' j')
        (by omega) (MState.start C μ) ?_) (fun _ ν hν => hν)
      intro j ν hj hν
      refine wp_conseq (wp_colLoop (j := j) (fun i => F i j) hν hC hj (by omega) (by omega) ?_)
        (fun _ ν hν => hν.congr (fun i' j' _ _ => by simp only [ite_upper]; ifs_eq j' j))
      · intro i ν _ hi hν
        simp only [wp_bind]
        refine wp_conseq (wp_sumLoop (fun l s => s + entry μ A l i * entry μ A l j) (Nat.zero_le _) ?_) ?_
        · intro l s _ hl
          simp only [wp_bind, wp_get, wp_pure]
          refine ⟨⟨by omega, by omega⟩, ⟨by omega, by omega⟩, ?_, trivial⟩
          rw [hν.read hA (i := l) (j := i) (by omega) (by omega), hν.read hA (i := l) (j := j) (by omega) (by omega)]
          rfl
        · rintro _ _ ⟨rfl, rfl⟩
          simp only [wp_modify]
          refine ⟨⟨by omega, hj⟩, ?_⟩
          rw [hν.at i j (by omega) hj ((if_neg (by omega)).trans (if_neg (by omega))), hF i j]

/-- Law-free value of an entry of the triangle computed by her2k. -/
def her2kVal [Zero T] [Add T] [Mul T] [Sub T] [Star T] [ReIm T] [OfNat T 2] (trans : Op) (alpha : T)
    (a b : Nat → Nat → T) (beta : Coef T) (c : Nat → Nat → T) (k i j : Nat) : T :=
  match trans with
  | .NoTrans => foldUp 0 k (if i = j then beta.mulVal (re (c i j)) else beta.mulAssign (c i j))
      (fun l acc => acc + (if i = j
        then 2 * (re (a j l) * re (alpha * star (b j l)) - im (a j l) * im (alpha * star (b j l)))
        else a i l * (alpha * star (b j l)) + b i l * star (alpha * a j l)))
  | _ =>
    let s := foldUp 0 k ((0 : T), (0 : T)) (fun l s => (s.1 + star (a l i) * b l j, s.2 + star (b l i) * a l j))
    if i = j then beta.addMul (re alpha * re s.1 - im alpha * im s.1 + re alpha * re s.2 + im alpha * im s.2) (re (c i j))
    else beta.addMul (alpha * s.1 + star alpha * s.2) (c i j)

theorem wp_her2k [Zero T] [Add T] [Mul T] [Sub T] [Star T] [ReIm T] [OfNat T 2] {uplo : Uplo} {trans : Op} {alpha : T}
    {A B C : MatV L} {beta : Coef T} {n k : Nat} {μ : Store L T}
    (h : RankOK Op.ConjTrans uplo trans A B C n k) :
    wp (her2k uplo trans alpha A B beta C) μ (fun _ ν => MState C μ (rankRes star uplo
      (her2kVal trans alpha (entry μ A) (entry μ B) beta (entry μ C) k) (entry μ C)) ν) := by
  obtain ⟨hu, hop, h1, h2, hBm, hBn, hCm, hCn, hC, hA, hB⟩ := h
  unfold her2k
  simp only [wp_bind, wp_check, h1, h2, hBm, hBn, hCm, hCn, ne_eq, not_true_eq_false, decide_false,
    Bool.not_false, Bool.or_self, if_true]
  rw [if_pos (by rcases hu with rfl | rfl | rfl <;> rfl),
    if_pos (by rcases hop with rfl | rfl <;> rfl)]
  have step : ∀ {x : M L T Unit}, wp x μ (fun _ ν => MState C μ (fun i j =>
      if inTri (compTri uplo) i j then her2kVal trans alpha (entry μ A) (entry μ B) beta (entry μ C) k i j
      else entry μ C i j) ν) →
      wp x μ (fun _ ν => wp (if uplo = .General then mirror star C n else pure ()) ν
        (fun _ ν => MState C μ (rankRes star uplo
      (her2kVal trans alpha (entry μ A) (entry μ B) beta (entry μ C) k) (entry μ C)) ν)) :=
    fun hx => wp_conseq hx (fun _ ν hν => wp_mirrorIf hu hC hCm hCn hν)
  rcases hop with rfl | rfl
  · simp only [if_true] at h1 h2 ⊢
    rw [wp_iteBind]
    refine step ?_
    obtain ⟨F, hFdef⟩ : ∃ F : Nat → Nat → Nat → T, F = fun i j k => her2kVal .NoTrans alpha (entry μ A) (entry μ B) beta (entry μ C) k i j := ⟨_, rfl⟩
    have hF0 : ∀ i j, i ≠ j → beta.mulAssign (entry μ C i j) = F i j 0 := by
      intro i j hij; subst hFdef; simp [her2kVal, hij]
    have hF0d : ∀ j, F j j 0 = beta.mulVal (re (entry μ C j j)) := by
      intro j; subst hFdef; simp [her2kVal]
    have hFs : ∀ i j l, i ≠ j → F i j (l + 1) = F i j l + (entry μ A i l * (alpha * star (entry μ B j l)) + entry μ B i l * star (alpha * entry μ A j l)) := by
      intro i j l hij; subst hFdef; simp only [her2kVal, if_neg hij]; rw [foldUp_succ (Nat.zero_le _)]
    have hFd : ∀ j l, F j j (l + 1) = F j j l + 2 * (re (entry μ A j l) * re (alpha * star (entry μ B j l)) - im (entry μ A j l) * im (alpha * star (entry μ B j l))) := by
      intro j l; subst hFdef; simp only [her2kVal, if_true]; rw [foldUp_succ (Nat.zero_le _)]
    have hV : ∀ i j, her2kVal .NoTrans alpha (entry μ A) (entry μ B) beta (entry μ C) k i j = F i j k := by
      intro i j; subst hFdef; rfl
    simp only [hV]
    by_cases hl : uplo = .Lower
    · subst hl
      simp only [ne_eq, not_true_eq_false, if_false, compTri, if_true]
      clear step
      refine wp_conseq (wp_forCols (fun i' j' => if inTri .Lower i' j' then F i' j' k else entry μ C i' j')
        (by omega) (MState.start C μ) ?_) (fun _ ν hν => hν)
      intro j ν hj hν
      simp only [wp_bind]
      have hν0 := hν
      simp only [wp_modify]
      refine ⟨⟨by omega, hj⟩, ?_⟩
      have hν := hν.upd (G' := fun i' j' => if i' = j ∧ j' = j then F j j 0 else
          if j' < j then (if inTri .Lower i' j' then F i' j' k else entry μ C i' j') else entry μ C i' j') hC (by omega : j < C.m) hj (v := F j j 0) (fun _ _ _ _ => rfl)
      rw [hν0.at j j (by omega) hj (if_neg (by omega)), ← hF0d]
      refine wp_conseq (wp_colLoop (j := j) (fun i => F i j 0) hν hC hj (by omega) (by omega) ?_) ?_
      · intro i ν _ hi hν
        simp only [wp_modify]
        refine ⟨⟨by omega, hj⟩, ?_⟩
        rw [hν.at i j (by omega) hj ((if_neg (by omega)).trans ((if_neg (by omega)).trans (if_neg (by omega)))), hF0 i j (by omega)]
      intro _ ν hν
      have hν : MState C μ (fun i' j' => if j' = j ∧ j ≤ i' then F i' j 0 else
          if j' < j then (if inTri .Lower i' j' then F i' j' k else entry μ C i' j') else entry μ C i' j') ν :=
        hν.congr (fun i' j' _ _ => by
          simp only [ite_lower]
          by_cases e : j' = j
          · subst e; ifs_eq i' j'
          · ifs)
      refine wp_forUp_ (fun l ν => MState C μ (fun i' j' => if j' = j ∧ j ≤ i' then F i' j l else
          if j' < j then (if inTri .Lower i' j' then F i' j' k else entry μ C i' j') else entry μ C i' j') ν)
        (Nat.zero_le _) hν ?_
        (fun ν hν => hν.congr (fun i' j' _ _ => by
          simp only [ite_lower]; ifs_eq j' j))
      intro l ν _ hl hν
      simp only [wp_bind, wp_get]
      refine ⟨⟨by omega, by omega⟩, ⟨by omega, by omega⟩, ?_⟩
      rw [hν.read hB (i := j) (j := l) (by omega) (by omega), hν.read hA (i := j) (j := l) (by omega) (by omega)]
      have hν0 := hν
      simp only [wp_modify]
      refine ⟨⟨by omega, hj⟩, ?_⟩
      have hν := hν.upd (G' := fun i' j' => if i' = j ∧ j' = j then F j j (l + 1) else
         if j' = j ∧ j ≤ i' then F i' j l else
          if j' < j then (if inTri .Lower i' j' then F i' j' k else entry μ C i' j') else entry μ C i' j') hC (by omega : j < C.m) hj (v := F j j (l + 1)) (fun _ _ _ _ => rfl)
      rw [hν0.at j j (by omega) hj (if_pos ⟨rfl, le_refl _⟩)]
      rw [hFd j l] at hν
      refine wp_conseq (wp_colLoop (j := j) (fun i => F i j (l + 1)) hν hC hj (by omega) (by omega) ?_) ?_
      · intro i ν _ hi hν
        simp only [wp_bind, wp_get, wp_modify]
        refine ⟨⟨by omega, by omega⟩, ⟨by omega, by omega⟩, ⟨by omega, by omega⟩, ?_⟩
        rw [hν.at i j (by omega) hj ((if_neg (by omega)).trans ((if_neg (by omega)).trans (if_pos ⟨rfl, by omega⟩))), hFs i j l (by omega), hν.read hA (i := i) (j := l) (by omega) (by omega), hν.read hB (i := i) (j := l) (by omega) (by omega)]
        rfl
      intro _ ν hν
      refine hν.congr (fun i' j' _ _ => ?_)
      simp only [ite_lower]
      by_cases e : j' = j
      · subst e
        by_cases e' : i' = j'
        · subst e'
          rw [if_pos ⟨rfl, le_refl _⟩, if_neg (by omega), if_pos ⟨rfl, rfl⟩]
          exact hFd i' l
        · ifs
      · ifs
    · simp only [ne_eq, hl, not_false_eq_true, if_true, compTri, if_false]
      clear step
      refine wp_conseq (wp_forCols (fun i' j' => if inTri .Upper i' j' then F i' j' k else entry μ C i' j')
        (by omega) (MState.start C μ) ?_) (fun _ ν hν => hν)
      intro j ν hj hν
      simp only [wp_bind]
      refine wp_conseq (wp_colLoop (j := j) (fun i => F i j 0) hν hC hj (by omega) (by omega) ?_) ?_
      · intro i ν _ hi hν
        simp only [wp_modify]
        refine ⟨⟨by omega, hj⟩, ?_⟩
        rw [hν.at i j (by omega) hj ((if_neg (by omega)).trans (if_neg (by omega))), hF0 i j (by omega)]
      intro _ ν hν
      have hν0 := hν
      simp only [wp_modify]
      refine ⟨⟨by omega, hj⟩, ?_⟩
      have hν := hν.upd (G' := fun i' j' => if j' = j ∧ i' ≤ j then F i' j 0 else
          if j' < j then (if inTri .Upper i' j' then F i' j' k else entry μ C i' j') else entry μ C i' j') hC (by omega : j < C.m) hj (v := F j j 0) (by
        intro i' j' _ _
        simp only [ite_upper]
        by_cases e : j' = j
        · subst e; ifs_eq i' j'
        · ifs)
      rw [hν0.at j j (by omega) hj ((if_neg (by omega)).trans (if_neg (by omega))), ← hF0d]
      refine wp_forUp_ (fun l ν => MState C μ (fun i' j' => if j' = j ∧ i' ≤ j then F i' j l else
          if j' < j then (if inTri .Upper i' j' then F i' j' k else entry μ C i' j') else entry μ C i' j') ν)
        (Nat.zero_le _) hν ?_
        (fun ν hν => hν.congr (fun i' j' _ _ => by
          simp only [ite_upper]; ifs_eq j' j))
      intro l ν _ hl hν
      simp only [wp_bind, wp_get]
      refine ⟨⟨by omega, by omega⟩, ⟨by omega, by omega⟩, ?_⟩
      rw [hν.read hB (i := j) (j := l) (by omega) (by omega), hν.read hA (i := j) (j := l) (by omega) (by omega)]
      refine wp_conseq (wp_colLoop (j := j) (fun i => F i j (l + 1)) hν hC hj (by omega) (by omega) ?_) ?_
      · intro i ν _ hi hν
        simp only [wp_bind, wp_get, wp_modify]
        refine ⟨⟨by omega, by omega⟩, ⟨by omega, by omega⟩, ⟨by omega, by omega⟩, ?_⟩
        rw [hν.at i j (by omega) hj ((if_neg (by omega)).trans (if_pos ⟨rfl, by omega⟩)), hFs i j l (by omega), hν.read hA (i := i) (j := l) (by omega) (by omega), hν.read hB (i := i) (j := l) (by omega) (by omega)]
        rfl
      intro _ ν hν
      simp only [wp_modify]
      refine ⟨⟨by omega, hj⟩, hν.upd hC (by omega) hj ?_⟩
      intro i' j' _ _
      rw [hν.at j j (by omega) hj ((if_neg (by omega)).trans (if_pos ⟨rfl, le_refl _⟩))]
      simp only [ite_upper]
      by_cases e : j' = j
      · subst e
        by_cases e' : i' = j'
        · subst e'
          rw [if_pos ⟨rfl, le_refl _⟩, if_pos ⟨rfl, rfl⟩]
          exact hFd i' l
        · ifs
      · ifs
  · simp only [reduceCtorEq, if_false] at h1 h2 ⊢
    rw [wp_iteBind]
    refine step ?_
    obtain ⟨F, hFdef⟩ : ∃ F : Nat → Nat → T, F = fun i j => her2kVal Op.ConjTrans alpha (entry μ A) (entry μ B) beta (entry μ C) k i j := ⟨_, rfl⟩
    have hF : ∀ i j, F i j = (let s := foldUp 0 k ((0 : T), (0 : T)) (fun l s => (s.1 + star (entry μ A l i) * entry μ B l j, s.2 + star (entry μ B l i) * entry μ A l j))
        if i = j then beta.addMul (re alpha * re s.1 - im alpha * im s.1 + re alpha * re s.2 + im alpha * im s.2) (re (entry μ C i j))
        else beta.addMul (alpha * s.1 + star alpha * s.2) (entry μ C i j)) := by
      intro i j; subst hFdef; rfl
    have hV : ∀ i j, her2kVal Op.ConjTrans alpha (entry μ A) (entry μ B) beta (entry μ C) k i j = F i j := by
      intro i j; subst hFdef; rfl
    simp only [hV]
    by_cases hl : uplo = .Lower
    · subst hl
      simp only [ne_eq, not_true_eq_false, if_false, compTri, if_true]
      clear step
      refine wp_conseq (wp_forCols (fun i' j' => if inTri .Lower i' j' then F i' j' else entry μ C i' j')
        (by omega) (MState.start C μ) ?_) (fun _ ν hν => hν)
      intro j ν hj hν
      refine wp_conseq (wp_colLoop (j := j) (fun i => F i j) hν hC hj (by omega) (by omega) ?_)
        (fun _ ν hν => hν.congr (fun i' j' _ _ => by simp only [ite_lower]; ifs_eq j' j))
      · intro i ν _ hi hν
        simp only [wp_bind]
        refine wp_conseq (wp_sumLoop (fun l s => (s.1 + star (entry μ A l i) * entry μ B l j, s.2 + star (entry μ B l i) * entry μ A l j)) (Nat.zero_le _) ?_) ?_
        · intro l s _ hl
          simp only [wp_bind, wp_get, wp_pure]
          refine ⟨⟨by omega, by omega⟩, ⟨by omega, by omega⟩, ⟨by omega, by omega⟩, ⟨by omega, by omega⟩, ?_, trivial⟩
          rw [hν.read hA (i := l) (j := i) (by omega) (by omega), hν.read hA (i := l) (j := j) (by omega) (by omega),
            hν.read hB (i := l) (j := i) (by omega) (by omega), hν.read hB (i := l) (j := j) (by omega) (by omega)]
          rfl
        · rintro _ _ ⟨rfl, rfl⟩
          simp only [wp_modify]
          refine ⟨⟨by omega, hj⟩, ?_⟩
          rw [hν.at i j (by omega) hj ((if_neg (by omega)).trans (if_neg (by omega))), hF i j]
          congr 1
          by_cases e : i = j
          · subst e; simp
          · simp [e, show i > j by omega]
    · simp only [ne_eq, hl, not_false_eq_true, if_true, compTri, if_false]
      clear step
      refine wp_conseq (wp_forCols (fun i' j' => if inTri .Upper i' j' then F i' j' else entry μ C i' j')
        (by omega) (MState.start C μ) ?_) (fun _ ν hν => hν)
      intro j ν hj hν
      refine wp_conseq (wp_colLoop (j := j) (fun i => F i j) hν hC hj (by omega) (by omega) ?_)
        (fun _ ν hν => hν.congr (fun i' j' _ _ => by simp only [ite_upper]; ifs_eq j' j))
      · intro i ν _ hi hν
        simp only [wp_bind]
        refine wp_conseq (wp_sumLoop (fun l s => (s.1 + star (entry μ A l i) * entry μ B l j, s.2 + star (entry μ B l i) * entry μ A l j)) (Nat.zero_le _) ?_) ?_
        · intro l s _ hl
          simp only [wp_bind, wp_get, wp_pure]
          refine ⟨⟨by omega, by omega⟩, ⟨by omega, by omega⟩, ⟨by omega, by omega⟩, ⟨by omega, by omega⟩, ?_, trivial⟩
          rw [hν.read hA (i := l) (j := i) (by omega) (by omega), hν.read hA (i := l) (j := j) (by omega) (by omega),
            hν.read hB (i := l) (j := i) (by omega) (by omega), hν.read hB (i := l) (j := j) (by omega) (by omega)]
          rfl
        · rintro _ _ ⟨rfl, rfl⟩
          simp only [wp_modify]
          refine ⟨⟨by omega, hj⟩, ?_⟩
          rw [hν.at i j (by omega) hj ((if_neg (by omega)).trans (if_neg (by omega))), hF i j]
          congr 1
          by_cases e : i = j
          · subst e; simp
          · simp [e, show i < j by omega]

/-- Law-free value of an entry of the triangle computed by syr2k. -/
def syr2kVal [Zero T] [Add T] [Mul T] (trans : Op) (alpha : T)
    (a b : Nat → Nat → T) (beta : Coef T) (c : Nat → Nat → T) (k i j : Nat) : T :=
  match trans with
  | .NoTrans => foldUp 0 k (beta.mulAssign (c i j)) (fun l acc => acc + (a i l * (alpha * b j l) + b i l * (alpha * a j l)))
  | _ =>
    let s := foldUp 0 k ((0 : T), (0 : T)) (fun l s => (s.1 + a l i * b l j, s.2 + b l i * a l j))
    beta.addMul (alpha * s.1 + alpha * s.2) (c i j)

theorem wp_syr2k [Zero T] [Add T] [Mul T] {uplo : Uplo} {trans : Op} {alpha : T}
    {A B C : MatV L} {beta : Coef T} {n k : Nat} {μ : Store L T}
    (h : RankOK Op.Trans uplo trans A B C n k) :
    wp (syr2k uplo trans alpha A B beta C) μ (fun _ ν => MState C μ (rankRes id uplo
      (syr2kVal trans alpha (entry μ A) (entry μ B) beta (entry μ C) k) (entry μ C)) ν) := by
  obtain ⟨hu, hop, h1, h2, hBm, hBn, hCm, hCn, hC, hA, hB⟩ := h
  unfold syr2k
  simp only [wp_bind, wp_check, h1, h2, hBm, hBn, hCm, hCn, ne_eq, not_true_eq_false, decide_false,
    Bool.not_false, Bool.or_self, if_true]
  rw [if_pos (by rcases hu with rfl | rfl | rfl <;> rfl),
    if_pos (by rcases hop with rfl | rfl <;> rfl)]
  have step : ∀ {x : M L T Unit}, wp x μ (fun _ ν => MState C μ (fun i j =>
      if inTri (compTri uplo) i j then syr2kVal trans alpha (entry μ A) (entry μ B) beta (entry μ C) k i j
      else entry μ C i j) ν) →
      wp x μ (fun _ ν => wp (if uplo = .General then mirror id C n else pure ()) ν
        (fun _ ν => MState C μ (rankRes id uplo
      (syr2kVal trans alpha (entry μ A) (entry μ B) beta (entry μ C) k) (entry μ C)) ν)) :=
    fun hx => wp_conseq hx (fun _ ν hν => wp_mirrorIf hu hC hCm hCn hν)
  rcases hop with rfl | rfl
  · simp only [if_true] at h1 h2 ⊢
    rw [wp_iteBind]
    refine step ?_
    obtain ⟨F, hFdef⟩ : ∃ F : Nat → Nat → Nat → T, F = fun i j k => syr2kVal .NoTrans alpha (entry μ A) (entry μ B) beta (entry μ C) k i j := ⟨_, rfl⟩
    have hF0 : ∀ i j, beta.mulAssign (entry μ C i j) = F i j 0 := by
      intro i j; subst hFdef; simp [syr2kVal]
    have hFs : ∀ i j l, F i j (l + 1) = F i j l + (entry μ A i l * (alpha * entry μ B j l) + entry μ B i l * (alpha * entry μ A j l)) := by
      intro i j l; subst hFdef; simp only [syr2kVal]; rw [foldUp_succ (Nat.zero_le _)]
    have hV : ∀ i j, syr2kVal .NoTrans alpha (entry μ A) (entry μ B) beta (entry μ C) k i j = F i j k := by
      intro i j; subst hFdef; rfl
    simp only [hV]
    by_cases hl : uplo = .Lower
    · subst hl
      simp only [ne_eq, not_true_eq_false, if_false, compTri, if_true]
      clear step
      refine wp_conseq (wp_forCols (fun i' j' => if inTri .Lower i' j' then F i' j' k else entry μ C i' j')
        (by omega) (MState.start C μ) ?_) (fun _ ν hν => hν)
      intro j ν hj hν
      simp only [wp_bind]
      refine wp_conseq (wp_colLoop (j := j) (fun i => F i j 0) hν hC hj (by omega) (by omega) ?_) ?_
      · intro i ν _ hi hν
        simp only [wp_modify]
        refine ⟨⟨by omega, hj⟩, ?_⟩
        rw [hν.at i j (by omega) hj ((if_neg (by omega)).trans (if_neg (by omega))), hF0]
      intro _ ν hν
      refine wp_forUp_ (fun l ν => MState C μ (fun i' j' => if j' = j ∧ j ≤ i' then F i' j l else
          if j' < j then (if inTri .Lower i' j' then F i' j' k else entry μ C i' j') else entry μ C i' j') ν)
        (Nat.zero_le _) (hν.congr (fun i' j' _ _ => by simp only [ite_lower]; ifs)) ?_
        (fun ν hν => hν.congr (fun i' j' _ _ => by
          simp only [ite_lower]; ifs_eq j' j))
      intro l ν _ hl hν
      simp only [wp_bind, wp_get]
      refine ⟨⟨by omega, by omega⟩, ⟨by omega, by omega⟩, ?_⟩
      rw [hν.read hB (i := j) (j := l) (by omega) (by omega), hν.read hA (i := j) (j := l) (by omega) (by omega)]
      refine wp_conseq (wp_colLoop (j := j) (fun i => F i j (l + 1)) hν hC hj (by omega) (by omega) ?_)
        (fun _ ν hν => hν.congr (fun i' j' _ _ => by simp only [ite_lower]; ifs))
      intro i ν _ hi hν
      simp only [wp_bind, wp_get, wp_modify]
      refine ⟨⟨by omega, by omega⟩, ⟨by omega, by omega⟩, ⟨by omega, by omega⟩, ?_⟩
      rw [hν.at i j (by omega) hj ((if_neg (by omega)).trans (if_pos ⟨rfl, by omega⟩)), hFs, hν.read hA (i := i) (j := l) (by omega) (by omega), hν.read hB (i := i) (j := l) (by omega) (by omega)]
      rfl
    · simp only [ne_eq, hl, not_false_eq_true, if_true, compTri, if_false]
      clear step
      refine wp_conseq (wp_forCols (fun i' j' => if inTri .Upper i' j' then F i' j' k else entry μ C i' j')
        (by omega) (MState.start C μ) ?_) (fun _ ν hν => hν)
      intro j ν hj hν
      simp only [wp_bind]
      refine wp_conseq (wp_colLoop (j := j) (fun i => F i j 0) hν hC hj (by omega) (by omega) ?_) ?_
      · intro i ν _ hi hν
        simp only [wp_modify]
        refine ⟨⟨by omega, hj⟩, ?_⟩
        rw [hν.at i j (by omega) hj ((if_neg (by omega)).trans (if_neg (by omega))), hF0]
      intro _ ν hν
      refine wp_forUp_ (fun l ν => MState C μ (fun i' j' => if j' = j ∧ i' ≤ j then F i' j l else
          if j' < j then (if inTri .Upper i' j' then F i' j' k else entry μ C i' j') else entry μ C i' j') ν)
        (Nat.zero_le _) (hν.congr (fun i' j' _ _ => by simp only [ite_upper]; ifs)) ?_
        (fun ν hν => hν.congr (fun i' j' _ _ => by
          simp only [ite_upper]; ifs_eq j' j))
      intro l ν _ hl hν
      simp only [wp_bind, wp_get]
      refine ⟨⟨by omega, by omega⟩, ⟨by omega, by omega⟩, ?_⟩
      rw [hν.read hB (i := j) (j := l) (by omega) (by omega), hν.read hA (i := j) (j := l) (by omega) (by omega)]
      refine wp_conseq (wp_colLoop (j := j) (fun i => F i j (l + 1)) hν hC hj (by omega) (by omega) ?_)
        (fun _ ν hν => hν.congr (fun i' j' _ _ => by simp only [ite_upper]; ifs))
      intro i ν _ hi hν
      simp only [wp_bind, wp_get, wp_modify]
      refine ⟨⟨by omega, by omega⟩, ⟨by omega, by omega⟩, ⟨by omega, by omega⟩, ?_⟩
      rw [hν.at i j (by omega) hj ((if_neg (by omega)).trans (if_pos ⟨rfl, by omega⟩)), hFs, hν.read hA (i := i) (j := l) (by omega) (by omega), hν.read hB (i := i) (j := l) (by omega) (by omega)]
      rfl
  · simp only [reduceCtorEq, if_false] at h1 h2 ⊢
    rw [wp_iteBind]
    refine step ?_
    obtain ⟨F, hFdef⟩ : ∃ F : Nat → Nat → T, F = fun i j => syr2kVal Op.Trans alpha (entry μ A) (entry μ B) beta (entry μ C) k i j := ⟨_, rfl⟩
    have hF : ∀ i j, F i j = beta.addMul (alpha * (foldUp 0 k ((0 : T), (0 : T)) (fun l s => (s.1 + entry μ A l i * entry μ B l j, s.2 + entry μ B l i * entry μ A l j))).1
        + alpha * (foldUp 0 k ((0 : T), (0 : T)) (fun l s => (s.1 + entry μ A l i * entry μ B l j, s.2 + entry μ B l i * entry μ A l j))).2) (entry μ C i j) := by
      intro i j; subst hFdef; rfl
    have hV : ∀ i j, syr2kVal Op.Trans alpha (entry μ A) (entry μ B) beta (entry μ C) k i j = F i j := by
      intro i j; subst hFdef; rfl
    simp only [hV]
    by_cases hl : uplo = .Lower
    · subst hl
      simp only [ne_eq, not_true_eq_false, if_false, compTri, if_true]
      clear step
      refine wp_conseq (wp_forCols (fun i' j' => if inTri .Lower i' j' then F i' j' else entry μ C i' j')
        (by omega) (MState.start C μ) ?_) (fun _ ν hν => hν)
      intro j ν hj hν
      refine wp_conseq (wp_colLoop (j := j) (fun i => F i j) hν hC hj (by omega) (by omega) ?_)
        (fun _ ν hν => hν.congr (fun i' j' _ _ => by simp only [ite_lower]; ifs_eq j' j))
      · intro i ν _ hi hν
        simp only [wp_bind]
        refine wp_conseq (wp_sumLoop (fun l s => (s.1 + entry μ A l i * entry μ B l j, s.2 + entry μ B l i * entry μ A l j)) (Nat.zero_le _) ?_) ?_
        · intro l s _ hl
          simp only [wp_bind, wp_get, wp_pure]
          refine ⟨⟨by omega, by omega⟩, ⟨by omega, by omega⟩, ⟨by omega, by omega⟩, ⟨by omega, by omega⟩, ?_, trivial⟩
          rw [hν.read hA (i := l) (j := i) (by omega) (by omega), hν.read hA (i := l) (j := j) (by omega) (by omega),
            hν.read hB (i := l) (j := i) (by omega) (by omega), hν.read hB (i := l) (j := j) (by omega) (by omega)]
          rfl
        · rintro _ _ ⟨rfl, rfl⟩
          simp only [wp_modify]
          refine ⟨⟨by omega, hj⟩, ?_⟩
          rw [hν.at i j (by omega) hj ((if_neg (by omega)).trans (if_neg (by omega))), hF i j]
    · simp only [ne_eq, hl, not_false_eq_true, if_true, compTri, if_false]
      clear step
      refine wp_conseq (wp_forCols (fun i' j' => if inTri .Upper i' j' then F i' j' else entry μ C i' j')
        (by omega) (MState.start C μ) ?_) (fun _ ν hν => hν)
      intro j ν hj hν
      refine wp_conseq (wp_colLoop (j := j) (fun i => F i j) hν hC hj (by omega) (by omega) ?_)
        (fun _ ν hν => hν.congr (fun i' j' _ _ => by simp only [ite_upper]; ifs_eq j' j))
      · intro i ν _ hi hν
        simp only [wp_bind]
        refine wp_conseq (wp_sumLoop (fun l s => (s.1 + entry μ A l i * entry μ B l j, s.2 + entry μ B l i * entry μ A l j)) (Nat.zero_le _) ?_) ?_
        · intro l s _ hl
          simp only [wp_bind, wp_get, wp_pure]
          refine ⟨⟨by omega, by omega⟩, ⟨by omega, by omega⟩, ⟨by omega, by omega⟩, ⟨by omega, by omega⟩, ?_, trivial⟩
          rw [hν.read hA (i := l) (j := i) (by omega) (by omega), hν.read hA (i := l) (j := j) (by omega) (by omega),
            hν.read hB (i := l) (j := i) (by omega) (by omega), hν.read hB (i := l) (j := j) (by omega) (by omega)]
          rfl
        · rintro _ _ ⟨rfl, rfl⟩
          simp only [wp_modify]
          refine ⟨⟨by omega, hj⟩, ?_⟩
          rw [hν.at i j (by omega) hj ((if_neg (by omega)).trans (if_neg (by omega))), hF i j]

end TLA
