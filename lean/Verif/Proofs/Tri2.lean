import Verif.Proofs.TriAlg
import Verif.Proofs.Gemv

namespace TLA
set_option linter.unusedTactic false
set_option linter.unreachableTactic false
variable {L T : Type} [DecidableEq L]

section
variable {f : T → T} {uplo : Uplo} {diag : Diag} {A : MatV L} {x : VecV L} {n : Nat}
  {μ : Store L T}

/-! #### trsv -/

theorem wp_trsvN [Mul T] [Sub T] [Div T] (h : TrvOK uplo A x n) :
    wp (trsvN f uplo diag A x n) μ (fun _ ν => ∃ X, VState x μ X ν ∧ ∀ i, i < n →
      X i = divD diag (if uplo = .Upper
        then foldDown (i + 1) n (ventry μ x i) (fun l acc => acc - X l * f (entry μ A i l))
        else foldUp 0 i (ventry μ x i) (fun l acc => acc - X l * f (entry μ A i l)))
        (f (entry μ A i i))) := by
  obtain ⟨hu, hm, hn, hxn, hx, hA⟩ := h
  haveI : Nonempty (Nat → T) := ⟨ventry μ x⟩
  haveI : Nonempty T := ⟨ventry μ x 0⟩
  unfold trsvN
  rcases hu with rfl | rfl
  · simp only [if_true]
    obtain ⟨X, hX⟩ := exists_bwd (T := T) n (fun X i => divD diag
      (foldDown (i + 1) n (ventry μ x i) (fun l acc => acc - X l * f (entry μ A i l)))
        (f (entry μ A i i))) (by
      intro x y i _ hxy
      show divD _ _ _ = divD _ _ _
      congr 1
      exact foldDown_congr (fun l s h1 h2 => by rw [hxy l (by omega) h2]))
    refine wp_forDown_ (fun k ν => VState x μ (fun i => if k ≤ i then X i else
        foldDown k n (ventry μ x i) (fun l acc => acc - X l * f (entry μ A i l))) ν)
      (Nat.zero_le _) ((VState.start x μ).congr ?_) ?_ ?_
    · intro i hi
      rw [if_neg (by omega), foldDown_self]
    · intro k ν _ hk hν
      rw [wp_optStep]
      have key : wp (if diag = .NonUnit then do
            let a ← A.get k k
            x.modify k (· / f a)
            pure () else pure ()) ν (fun _ ν => VState x μ (fun i => if k ≤ i then X i else
          foldDown (k + 1) n (ventry μ x i) (fun l acc => acc - X l * f (entry μ A i l))) ν) := by
        have hXk := hX k hk
        rw [wp_ite]
        split
        · rename_i hd
          simp only [wp_bind, wp_get, wp_vmodify, wp_pure]
          refine ⟨⟨by omega, by omega⟩, by omega, hν.upd hx (by omega) ?_⟩
          intro i' _
          rw [hν.at k (by omega) (if_neg (by omega)), hν.read hA (by omega) (by omega)]
          simp only [divD, hd, if_true] at hXk
          by_cases e : i' = k
          · subst e; simp [hXk, entry]
          · ifs
        · rename_i hd
          simp only [wp_pure]
          refine hν.congr (fun i' _ => ?_)
          simp only [divD, hd, if_false] at hXk
          by_cases e : i' = k
          · subst e; rw [if_pos (le_refl _), if_neg (by omega), hXk]
          · ifs
      refine wp_conseq key ?_
      intro _ ν hν
      refine wp_conseq (wp_vecLoopD (fun i => foldDown k n (ventry μ x i)
        (fun l acc => acc - X l * f (entry μ A i l))) hν hx (by omega) (Nat.zero_le _) ?_) ?_
      · intro i ν _ hi hν
        simp only [wp_bind, wp_vget, wp_get, wp_vmodify]
        refine ⟨by omega, ⟨by omega, by omega⟩, by omega, ?_⟩
        rw [hν.val k (by omega), hν.val i (by omega), if_neg (by omega), if_pos (le_refl _),
          if_neg (by omega), if_neg (by omega), hν.read hA (by omega) (by omega), foldDown_bot hk]
        rfl
      · intro _ ν hν
        refine hν.congr (fun i' _ => ?_)
        ifs
    · intro ν hν
      exact ⟨X, hν.congr (fun i _ => by simp), hX⟩
  · simp only [reduceCtorEq, if_false]
    obtain ⟨X, hX⟩ := exists_fwd (T := T) (fun X i => divD diag
      (foldUp 0 i (ventry μ x i) (fun l acc => acc - X l * f (entry μ A i l)))
        (f (entry μ A i i))) (by
      intro x y i hxy
      show divD _ _ _ = divD _ _ _
      congr 1
      exact foldUp_congr (fun l s h1 h2 => by rw [hxy l (by omega)]))
    refine wp_forUp_ (fun k ν => VState x μ (fun i => if i < k then X i else
        foldUp 0 k (ventry μ x i) (fun l acc => acc - X l * f (entry μ A i l))) ν)
      (Nat.zero_le _) ((VState.start x μ).congr ?_) ?_ ?_
    · intro i hi
      rw [if_neg (by omega), foldUp_self]
    · intro k ν _ hk hν
      rw [wp_optStep]
      have key : wp (if diag = .NonUnit then do
            let a ← A.get k k
            x.modify k (· / f a)
            pure () else pure ()) ν (fun _ ν => VState x μ (fun i => if i ≤ k then X i else
          foldUp 0 k (ventry μ x i) (fun l acc => acc - X l * f (entry μ A i l))) ν) := by
        have hXk := hX k
        rw [wp_ite]
        split
        · rename_i hd
          simp only [wp_bind, wp_get, wp_vmodify, wp_pure]
          refine ⟨⟨by omega, by omega⟩, by omega, hν.upd hx (by omega) ?_⟩
          intro i' _
          rw [hν.at k (by omega) (if_neg (by omega)), hν.read hA (by omega) (by omega)]
          simp only [divD, hd, if_true] at hXk
          by_cases e : i' = k
          · subst e; simp [hXk, entry]
          · ifs
        · rename_i hd
          simp only [wp_pure]
          refine hν.congr (fun i' _ => ?_)
          simp only [divD, hd, if_false] at hXk
          by_cases e : i' = k
          · subst e; rw [if_pos (le_refl _), if_neg (by omega), hXk]
          · ifs
      refine wp_conseq key ?_
      intro _ ν hν
      refine wp_conseq (wp_vecLoop (fun i => foldUp 0 (k + 1) (ventry μ x i)
        (fun l acc => acc - X l * f (entry μ A i l))) hν hx (by omega) (by omega) ?_) ?_
      · intro i ν _ hi hν
        simp only [wp_bind, wp_vget, wp_get, wp_vmodify]
        refine ⟨by omega, ⟨by omega, by omega⟩, by omega, ?_⟩
        rw [hν.val k (by omega), hν.val i (by omega), if_neg (by omega), if_pos (le_refl _),
          if_neg (by omega), if_neg (by omega), hν.read hA (by omega) (by omega),
          foldUp_succ (Nat.zero_le _)]
        rfl
      · intro _ ν hν
        refine hν.congr (fun i' _ => ?_)
        ifs
    · intro ν hν
      exact ⟨X, hν.congr (fun i _ => by rw [if_pos (by omega)]), fun i _ => hX i⟩

theorem wp_trsvT [Mul T] [Sub T] [Div T] (h : TrvOK uplo A x n) :
    wp (trsvT f uplo diag A x n) μ (fun _ ν => ∃ X, VState x μ X ν ∧ ∀ i, i < n →
      X i = divD diag (if uplo = .Upper
        then foldUp 0 i (ventry μ x i) (fun l acc => acc - f (entry μ A l i) * X l)
        else foldUp (i + 1) n (ventry μ x i) (fun l acc => acc - f (entry μ A l i) * X l))
        (f (entry μ A i i))) := by
  obtain ⟨hu, hm, hn, hxn, hx, hA⟩ := h
  haveI : Nonempty (Nat → T) := ⟨ventry μ x⟩
  haveI : Nonempty T := ⟨ventry μ x 0⟩
  unfold trsvT
  have fin : ∀ (k : Nat) (t : T) (X : Nat → T) (G : Nat → T) (ν : Store L T), k < n →
      VState x μ G ν → X k = divD diag t (f (entry μ A k k)) →
      wp (if diag = .NonUnit then do
          let a ← A.get k k
          x.set k (t / f a) else x.set k t) ν
        (fun _ ν => VState x μ (fun i => if i = k then X k else G i) ν) := by
    intro k t X G ν hk hν hXk
    rw [wp_ite]
    split
    · rename_i hd
      simp only [wp_bind, wp_get, wp_vset]
      refine ⟨⟨by omega, by omega⟩, by omega, hν.upd hx (by omega) ?_⟩
      intro i' _
      rw [hν.read hA (by omega) (by omega), hXk]
      simp only [divD, hd, if_true, entry]
    · rename_i hd
      simp only [wp_vset]
      refine ⟨by omega, hν.upd hx (by omega) ?_⟩
      intro i' _
      rw [hXk]
      simp only [divD, hd, if_false]
  rcases hu with rfl | rfl
  · simp only [if_true]
    obtain ⟨X, hX⟩ := exists_fwd (T := T) (fun X i => divD diag
      (foldUp 0 i (ventry μ x i) (fun l acc => acc - f (entry μ A l i) * X l))
        (f (entry μ A i i))) (by
      intro x y i hxy
      show divD _ _ _ = divD _ _ _
      congr 1
      exact foldUp_congr (fun l s h1 h2 => by rw [hxy l (by omega)]))
    refine wp_forUp_ (fun k ν => VState x μ (fun i => if i < k then X i else ventry μ x i) ν)
      (Nat.zero_le _) ((VState.start x μ).congr (by simp)) ?_ ?_
    · intro k ν _ hk hν
      simp only [wp_bind, wp_vget]
      refine ⟨by omega, ?_⟩
      rw [hν.val k (by omega), if_neg (by omega)]
      refine wp_conseq (wp_sumLoop (fun l acc => acc - f (entry μ A l k) * X l) (Nat.zero_le _) ?_) ?_
      · intro i s _ hi
        simp only [wp_bind, wp_get, wp_vget, wp_pure]
        refine ⟨⟨by omega, by omega⟩, by omega, ?_, trivial⟩
        rw [hν.read hA (by omega) (by omega), hν.val i (by omega), if_pos hi]
        rfl
      · rintro _ _ ⟨rfl, rfl⟩
        refine wp_conseq (fin k _ X _ _ hk hν (hX k)) ?_
        intro _ ν hν
        refine hν.congr (fun i' _ => ?_)
        ifs_eq i' k
    · intro ν hν
      exact ⟨X, hν.congr (fun i _ => by rw [if_pos (by omega)]), fun i _ => hX i⟩
  · simp only [reduceCtorEq, if_false]
    obtain ⟨X, hX⟩ := exists_bwd (T := T) n (fun X i => divD diag
      (foldUp (i + 1) n (ventry μ x i) (fun l acc => acc - f (entry μ A l i) * X l))
        (f (entry μ A i i))) (by
      intro x y i _ hxy
      show divD _ _ _ = divD _ _ _
      congr 1
      exact foldUp_congr (fun l s h1 h2 => by rw [hxy l (by omega) h2]))
    refine wp_forDown_ (fun k ν => VState x μ (fun i => if k ≤ i then X i else ventry μ x i) ν)
      (Nat.zero_le _) ((VState.start x μ).congr ?_) ?_ ?_
    · intro i hi
      rw [if_neg (by omega)]
    · intro k ν _ hk hν
      simp only [wp_bind, wp_vget]
      refine ⟨by omega, ?_⟩
      rw [hν.val k (by omega), if_neg (by omega)]
      refine wp_conseq (wp_sumLoop (fun l acc => acc - f (entry μ A l k) * X l) (by omega) ?_) ?_
      · intro i s h1 hi
        simp only [wp_bind, wp_get, wp_vget, wp_pure]
        refine ⟨⟨by omega, by omega⟩, by omega, ?_, trivial⟩
        rw [hν.read hA (by omega) (by omega), hν.val i (by omega), if_pos h1]
        rfl
      · rintro _ _ ⟨rfl, rfl⟩
        refine wp_conseq (fin k _ X _ _ hk hν (hX k hk)) ?_
        intro _ ν hν
        refine hν.congr (fun i' _ => ?_)
        ifs_eq i' k
    · intro ν hν
      exact ⟨X, hν.congr (fun i _ => by simp), hX⟩


/-- trsv in exact arithmetic. -/
theorem wp_trsv_exact [Field T] [StarRing T] {trans : Op} (h : TrvOK uplo A x n)
    (hd : diag = .NonUnit → ∀ i, i < n → entry μ A i i ≠ 0) :
    wp (trsv uplo trans diag A x) μ (fun _ ν => ∃ X, VState x μ X ν ∧ ∀ i, i < n →
      ∑ l ∈ Finset.range n, opF trans (triF uplo diag (entry μ A)) i l * X l = ventry μ x i) := by
  have hu := h.tri
  have hn1 := h.Am
  have hn2 := h.An
  have hn3 := h.xn
  unfold trsv
  have hc : (!notTri uplo) = true := by rcases hu with rfl | rfl <;> rfl
  simp only [wp_bind, wp_check, hn1, hn2, hn3, hc, ne_eq, not_true_eq_false, decide_false,
    Bool.not_false, if_true]
  cases trans
  · refine wp_conseq (wp_trsvN h) ?_
    rintro _ ν ⟨X, hν, hX⟩
    refine ⟨X, hν, fun i hi => tri_solve hu hi (fun e => opF_ne_zero (hd e i hi)) ?_⟩
    rw [hX i hi]
    rcases hu with rfl | rfl
    · rw [if_pos rfl, foldDown_sub (by omega)]
      simp only [offCols, effUp, opF, id, mul_comm]
      rfl
    · rw [if_neg (by simp), foldUp_sub (by omega)]
      simp only [offCols, effUp, opF, id, mul_comm, Finset.range_eq_Ico]
      rfl
  · refine wp_conseq (wp_trsvT h) ?_
    rintro _ ν ⟨X, hν, hX⟩
    refine ⟨X, hν, fun i hi => tri_solve hu hi (fun e => opF_ne_zero (hd e i hi)) ?_⟩
    rw [hX i hi]
    rcases hu with rfl | rfl
    · rw [if_pos rfl, foldUp_sub (by omega)]
      simp only [offCols, effUp, opF, id, mul_comm, Finset.range_eq_Ico]
      rfl
    · rw [if_neg (by simp), foldUp_sub (by omega)]
      simp only [offCols, effUp, opF, id, mul_comm, Finset.range_eq_Ico]
      rfl
  · refine wp_conseq (wp_trsvT h) ?_
    rintro _ ν ⟨X, hν, hX⟩
    refine ⟨X, hν, fun i hi => tri_solve hu hi (fun e => opF_ne_zero (hd e i hi)) ?_⟩
    rw [hX i hi]
    rcases hu with rfl | rfl
    · rw [if_pos rfl, foldUp_sub (by omega)]
      simp only [offCols, effUp, opF, id, mul_comm, Finset.range_eq_Ico]
      rfl
    · rw [if_neg (by simp), foldUp_sub (by omega)]
      simp only [offCols, effUp, opF, id, mul_comm, Finset.range_eq_Ico]
      rfl
  · refine wp_conseq (wp_trsvN h) ?_
    rintro _ ν ⟨X, hν, hX⟩
    refine ⟨X, hν, fun i hi => tri_solve hu hi (fun e => opF_ne_zero (hd e i hi)) ?_⟩
    rw [hX i hi]
    rcases hu with rfl | rfl
    · rw [if_pos rfl, foldDown_sub (by omega)]
      simp only [offCols, effUp, opF, id, mul_comm]
      rfl
    · rw [if_neg (by simp), foldUp_sub (by omega)]
      simp only [offCols, effUp, opF, id, mul_comm, Finset.range_eq_Ico]
      rfl

/-! #### trmv -/

theorem wp_trmvN [Add T] [Mul T] (h : TrvOK uplo A x n) :
    wp (trmvN f uplo diag A x n) μ (fun _ ν => VState x μ (fun i => if uplo = .Upper
        then foldUp (i + 1) n (mulD diag (ventry μ x i) (f (entry μ A i i)))
          (fun l acc => acc + ventry μ x l * f (entry μ A i l))
        else foldDown 0 i (mulD diag (ventry μ x i) (f (entry μ A i i)))
          (fun l acc => acc + ventry μ x l * f (entry μ A i l))) ν) := by
  obtain ⟨hu, hm, hn, hxn, hx, hA⟩ := h
  unfold trmvN
  have fin : ∀ (k : Nat) (G : Nat → T) (ν : Store L T), k < n →
      VState x μ G ν →
      wp (if diag = .NonUnit then do
          let a ← A.get k k
          x.modify k (· * f a) else pure ()) ν
        (fun _ ν => VState x μ (fun i => if i = k then mulD diag (G k) (f (entry μ A k k))
          else G i) ν) := by
    intro k G ν hk hν
    rw [wp_ite]
    split
    · rename_i hd
      simp only [wp_bind, wp_get, wp_vmodify]
      refine ⟨⟨by omega, by omega⟩, by omega, hν.upd hx (by omega) ?_⟩
      intro i' _
      rw [hν.read hA (by omega) (by omega), hν.val k (by omega)]
      simp only [mulD, hd, if_true, entry]
    · rename_i hd
      simp only [wp_pure]
      refine hν.congr (fun i' _ => ?_)
      simp only [mulD, hd, if_false]
      ifs
  rcases hu with rfl | rfl
  · simp only [if_true]
    refine wp_forUp_ (fun k ν => VState x μ (fun i => if i < k then
        foldUp (i + 1) k (mulD diag (ventry μ x i) (f (entry μ A i i)))
          (fun l acc => acc + ventry μ x l * f (entry μ A i l)) else ventry μ x i) ν)
      (Nat.zero_le _) ((VState.start x μ).congr (by simp)) ?_
      (fun ν hν => hν.congr (fun i _ => by rw [if_pos (by omega)]))
    intro k ν _ hk hν
    simp only [wp_bind]
    refine wp_conseq (wp_vecLoop (fun i =>
        foldUp (i + 1) (k + 1) (mulD diag (ventry μ x i) (f (entry μ A i i)))
          (fun l acc => acc + ventry μ x l * f (entry μ A i l))) hν hx (by omega)
          (Nat.zero_le _) ?_) ?_
    · intro i ν _ hi hν
      simp only [wp_bind, wp_vget, wp_get, wp_vmodify]
      refine ⟨by omega, ⟨by omega, by omega⟩, by omega, ?_⟩
      rw [hν.at k (by omega) ((if_neg (by omega)).trans (if_neg (by omega))),
        hν.at i (by omega) ((if_neg (by omega)).trans (if_pos hi)),
        hν.read hA (by omega) (by omega), foldUp_succ (by omega)]
      rfl
    · intro _ ν hν
      refine wp_conseq (fin k _ _ hk hν) ?_
      intro _ ν hν
      refine hν.congr (fun i' _ => ?_)
      by_cases e : i' = k
      · subst e; simp
      · ifs
  · simp only [reduceCtorEq, if_false]
    refine wp_forDown_ (fun k ν => VState x μ (fun i => if k ≤ i then
        foldDown k i (mulD diag (ventry μ x i) (f (entry μ A i i)))
          (fun l acc => acc + ventry μ x l * f (entry μ A i l)) else ventry μ x i) ν)
      (Nat.zero_le _) ((VState.start x μ).congr (fun i _ => by rw [if_neg (by omega)])) ?_
      (fun ν hν => hν.congr (fun i _ => by rw [if_pos (by omega)]))
    intro k ν _ hk hν
    simp only [wp_bind]
    refine wp_conseq (wp_vecLoopD (fun i =>
        foldDown k i (mulD diag (ventry μ x i) (f (entry μ A i i)))
          (fun l acc => acc + ventry μ x l * f (entry μ A i l))) hν hx (by omega)
          (by omega) ?_) ?_
    · intro i ν h1 hi hν
      simp only [wp_bind, wp_vget, wp_get, wp_vmodify]
      refine ⟨by omega, ⟨by omega, by omega⟩, by omega, ?_⟩
      rw [hν.at k (by omega) ((if_neg (by omega)).trans (if_neg (by omega))),
        hν.at i (by omega) ((if_neg (by omega)).trans (if_pos (by omega))),
        hν.read hA (by omega) (by omega), foldDown_bot (by omega : k < i)]
      rfl
    · intro _ ν hν
      refine wp_conseq (fin k _ _ hk hν) ?_
      intro _ ν hν
      refine hν.congr (fun i' _ => ?_)
      by_cases e : i' = k
      · subst e; simp
      · ifs

theorem wp_trmvT [Add T] [Mul T] (h : TrvOK uplo A x n) :
    wp (trmvT f uplo diag A x n) μ (fun _ ν => VState x μ (fun i => if uplo = .Upper
        then foldDown 0 i (mulD diag (ventry μ x i) (f (entry μ A i i)))
          (fun l acc => acc + f (entry μ A l i) * ventry μ x l)
        else foldUp (i + 1) n (mulD diag (ventry μ x i) (f (entry μ A i i)))
          (fun l acc => acc + f (entry μ A l i) * ventry μ x l)) ν) := by
  obtain ⟨hu, hm, hn, hxn, hx, hA⟩ := h
  unfold trmvT
  have fin : ∀ (k : Nat) (t : T) (G : Nat → T) (ν : Store L T) (Q), k < n →
      VState x μ G ν → Q (mulD diag t (f (entry μ A k k))) ν →
      wp (if diag = .NonUnit then do
          let a ← A.get k k
          pure (t * f a) else pure t) ν Q := by
    intro k t G ν Q hk hν hQ
    rw [wp_ite]
    split
    · rename_i hd
      simp only [wp_bind, wp_get, wp_pure]
      refine ⟨⟨by omega, by omega⟩, ?_⟩
      rw [hν.read hA (by omega) (by omega)]
      simpa only [mulD, hd, if_true, entry] using hQ
    · rename_i hd
      simp only [wp_pure]
      simpa only [mulD, hd, if_false] using hQ
  rcases hu with rfl | rfl
  · simp only [if_true]
    refine wp_forDown_ (fun k ν => VState x μ (fun i => if k ≤ i then
        foldDown 0 i (mulD diag (ventry μ x i) (f (entry μ A i i)))
          (fun l acc => acc + f (entry μ A l i) * ventry μ x l) else ventry μ x i) ν)
      (Nat.zero_le _) ((VState.start x μ).congr (fun i _ => by rw [if_neg (by omega)])) ?_
      (fun ν hν => hν.congr (fun i _ => by rw [if_pos (by omega)]))
    intro k ν _ hk hν
    simp only [wp_bind, wp_vget]
    refine ⟨by omega, ?_⟩
    rw [wp_optVal]
    refine fin k _ _ _ _ hk hν ?_
    simp only [wp_bind]
    refine wp_conseq (wp_sumLoopD (fun l acc => acc + f (entry μ A l k) * ventry μ x l)
      (Nat.zero_le _) ?_) ?_
    · intro i s _ hi
      simp only [wp_bind, wp_get, wp_vget, wp_pure]
      refine ⟨⟨by omega, by omega⟩, by omega, ?_, trivial⟩
      rw [hν.read hA (by omega) (by omega), hν.at i (by omega) (if_neg (by omega))]
      rfl
    · rintro _ _ ⟨rfl, rfl⟩
      simp only [wp_vset]
      refine ⟨by omega, hν.upd hx (by omega) ?_⟩
      intro i' _
      rw [hν.at k (by omega) (if_neg (by omega))]
      ifs_eq i' k
  · simp only [reduceCtorEq, if_false]
    refine wp_forUp_ (fun k ν => VState x μ (fun i => if i < k then
        foldUp (i + 1) n (mulD diag (ventry μ x i) (f (entry μ A i i)))
          (fun l acc => acc + f (entry μ A l i) * ventry μ x l) else ventry μ x i) ν)
      (Nat.zero_le _) ((VState.start x μ).congr (by simp)) ?_
      (fun ν hν => hν.congr (fun i _ => by rw [if_pos (by omega)]))
    intro k ν _ hk hν
    simp only [wp_bind, wp_vget]
    refine ⟨by omega, ?_⟩
    rw [wp_optVal]
    refine fin k _ _ _ _ hk hν ?_
    simp only [wp_bind]
    refine wp_conseq (wp_sumLoop (fun l acc => acc + f (entry μ A l k) * ventry μ x l)
      (by omega) ?_) ?_
    · intro i s _ hi
      simp only [wp_bind, wp_get, wp_vget, wp_pure]
      refine ⟨⟨by omega, by omega⟩, by omega, ?_, trivial⟩
      rw [hν.read hA (by omega) (by omega), hν.at i (by omega) (if_neg (by omega))]
      rfl
    · rintro _ _ ⟨rfl, rfl⟩
      simp only [wp_vset]
      refine ⟨by omega, hν.upd hx (by omega) ?_⟩
      intro i' _
      rw [hν.at k (by omega) (if_neg (by omega))]
      ifs_eq i' k

/-- trmv in exact arithmetic. -/
theorem wp_trmv_exact [Field T] [StarRing T] {trans : Op} (h : TrvOK uplo A x n) :
    wp (trmv uplo trans diag A x) μ (fun _ ν => VState x μ (fun i =>
      ∑ l ∈ Finset.range n, opF trans (triF uplo diag (entry μ A)) i l * ventry μ x l) ν) := by
  have hu := h.tri
  have hn1 := h.Am
  have hn2 := h.An
  have hn3 := h.xn
  unfold trmv
  have hc : (!notTri uplo) = true := by rcases hu with rfl | rfl <;> rfl
  simp only [wp_bind, wp_check, hn1, hn2, hn3, hc, ne_eq, not_true_eq_false, decide_false,
    Bool.not_false, if_true]
  cases trans
  · refine wp_conseq (wp_trmvN h) (fun _ ν hν => hν.congr (fun i hi => ?_))
    rw [tri_row_sum hu (by omega)]
    rcases hu with rfl | rfl
    · rw [if_pos rfl, foldUp_add (by omega)]
      simp only [offCols, effUp, opF, id, mul_comm]
      rfl
    · rw [if_neg (by simp), foldDown_add (by omega)]
      simp only [offCols, effUp, opF, id, mul_comm, Finset.range_eq_Ico]
      rfl
  · refine wp_conseq (wp_trmvT h) (fun _ ν hν => hν.congr (fun i hi => ?_))
    rw [tri_row_sum hu (by omega)]
    rcases hu with rfl | rfl
    · rw [if_pos rfl, foldDown_add (by omega)]
      simp only [offCols, effUp, opF, id, mul_comm, Finset.range_eq_Ico]
      rfl
    · rw [if_neg (by simp), foldUp_add (by omega)]
      simp only [offCols, effUp, opF, id, mul_comm, Finset.range_eq_Ico]
      rfl
  · refine wp_conseq (wp_trmvT h) (fun _ ν hν => hν.congr (fun i hi => ?_))
    rw [tri_row_sum hu (by omega)]
    rcases hu with rfl | rfl
    · rw [if_pos rfl, foldDown_add (by omega)]
      simp only [offCols, effUp, opF, id, mul_comm, Finset.range_eq_Ico]
      rfl
    · rw [if_neg (by simp), foldUp_add (by omega)]
      simp only [offCols, effUp, opF, id, mul_comm, Finset.range_eq_Ico]
      rfl
  · refine wp_conseq (wp_trmvN h) (fun _ ν hν => hν.congr (fun i hi => ?_))
    rw [tri_row_sum hu (by omega)]
    rcases hu with rfl | rfl
    · rw [if_pos rfl, foldUp_add (by omega)]
      simp only [offCols, effUp, opF, id, mul_comm]
      rfl
    · rw [if_neg (by simp), foldDown_add (by omega)]
      simp only [offCols, effUp, opF, id, mul_comm, Finset.range_eq_Ico]
      rfl
end
end TLA
