import Verif.Proofs.Gemv

namespace TLA
set_option linter.unusedTactic false
set_option linter.unreachableTactic false
variable {L T : Type} [DecidableEq L]

/-- Law-free diagonal value of her2. -/
def her2Diag [Add T] [Mul T] [Sub T] [Star T] [ReIm T] (alpha a xj yj : T) : T :=
  re a + re xj * re (alpha * star yj) - im xj * im (alpha * star yj)
    + re yj * re (star (alpha * xj)) - im yj * im (star (alpha * xj))

theorem wp_her2 [Add T] [Mul T] [Sub T] [Star T] [ReIm T] {uplo : Uplo} {alpha : T} {x y : VecV L}
    {A : MatV L} {μ : Store L T} (hu : uplo = .Upper ∨ uplo = .Lower)
    (hA : A.Inj) (hn : A.n = A.m) (hxn : x.n = A.m) (hyn : y.n = A.m) (hx : x.DisjM A)
    (hy : y.DisjM A) :
    wp (her2 uplo alpha x y A) μ (fun _ ν => MState A μ (fun i j =>
      if i = j then her2Diag alpha (entry μ A j j) (ventry μ x j) (ventry μ y j)
      else if inTri uplo i j then entry μ A i j + (ventry μ x i * (alpha * star (ventry μ y j))
        + ventry μ y i * star (alpha * ventry μ x j))
      else entry μ A i j) ν) := by
  unfold her2
  simp only [wp_bind, wp_check, hxn, hyn, hn, ne_eq, not_true_eq_false, decide_false,
    Bool.not_false, if_true]
  rcases hu with rfl | rfl
  · simp only [notTri_upper, if_true]
    refine wp_forCols _ hn.symm (MState.start A μ) ?_
    intro j ν hj hν
    simp only [wp_bind, wp_vget]
    refine ⟨by omega, by omega, ?_⟩
    rw [hν.readV hx (i := j) (by omega), hν.readV hy (i := j) (by omega)]
    refine wp_conseq (wp_colLoop (j := j) (fun i => entry μ A i j +
      (ventry μ x i * (alpha * star (ventry μ y j)) + ventry μ y i * star (alpha * ventry μ x j)))
      hν hA hj (by omega) (Nat.zero_le _) ?_) ?_
    · intro i ν _ hi hν
      simp only [wp_bind, wp_vget, wp_modify]
      refine ⟨by omega, by omega, ⟨by omega, by omega⟩, ?_⟩
      rw [hν.readV hx (i := i) (by omega), hν.readV hy (i := i) (by omega),
        hν.val i j (by omega) (by omega)]
      simp [ventry]
    · intro _ ν hν
      simp only [wp_modify]
      refine ⟨⟨by omega, hj⟩, hν.upd hA (by omega) hj ?_⟩
      intro i' j' _ _
      rw [hν.val j j (by omega) hj]
      simp only [ite_upper]
      by_cases e : j' = j
      · subst e
        by_cases e' : i' = j'
        · subst e'; simp [her2Diag, ventry]
        · ifs
      · ifs
  · simp only [notTri_lower, reduceCtorEq, if_true, if_false]
    refine wp_forCols _ hn.symm (MState.start A μ) ?_
    intro j ν hj hν
    simp only [wp_bind, wp_vget, wp_modify]
    refine ⟨by omega, by omega, ⟨by omega, hj⟩, ?_⟩
    rw [hν.readV hx (i := j) (by omega), hν.readV hy (i := j) (by omega),
      hν.at j j (by omega) hj (if_neg (by omega))]
    have hν2 := hν.upd (G' := fun i' j' => if i' = j ∧ j' = j then
      her2Diag alpha (entry μ A j j) (ventry μ x j) (ventry μ y j) else _)
      (v := her2Diag alpha (entry μ A j j) (ventry μ x j) (ventry μ y j))
      hA (by omega : j < A.m) hj (fun _ _ _ _ => rfl)
    refine wp_conseq (wp_colLoop (j := j) (fun i => entry μ A i j +
      (ventry μ x i * (alpha * star (ventry μ y j)) + ventry μ y i * star (alpha * ventry μ x j)))
      hν2 hA hj (by omega) (by omega) ?_) ?_
    · intro i ν _ hi hν
      simp only [wp_bind, wp_vget, wp_modify]
      refine ⟨by omega, by omega, ⟨by omega, by omega⟩, ?_⟩
      rw [hν.readV hx (i := i) (by omega), hν.readV hy (i := i) (by omega),
        hν.val i j (by omega) (by omega), if_neg (by omega),
        if_neg (by omega), if_neg (by omega)]
      rfl
    · intro _ ν hν
      refine hν.congr ?_
      intro i' j' _ _
      simp only [ite_lower]
      by_cases e : j' = j
      · subst e; ifs
      · ifs

theorem wp_syr [Add T] [Mul T] {uplo : Uplo} {alpha : T} {x : VecV L}
    {A : MatV L} {μ : Store L T} (hu : uplo = .Upper ∨ uplo = .Lower)
    (hA : A.Inj) (hn : A.n = A.m) (hxn : x.n = A.m) (hx : x.DisjM A) :
    wp (syr uplo alpha x A) μ (fun _ ν => MState A μ (fun i j =>
      if inTri uplo i j then entry μ A i j + ventry μ x i * (alpha * ventry μ x j)
      else entry μ A i j) ν) := by
  unfold syr
  simp only [wp_bind, wp_check, hxn, hn, ne_eq, not_true_eq_false, decide_false,
    Bool.not_false, if_true]
  rcases hu with rfl | rfl
  · simp only [notTri_upper, if_true]
    refine wp_forCols _ hn.symm (MState.start A μ) ?_
    intro j ν hj hν
    simp only [wp_bind, wp_vget]
    refine ⟨by omega, ?_⟩
    rw [hν.readV hx (i := j) (by omega)]
    refine wp_conseq (wp_colLoop (j := j)
      (fun i => entry μ A i j + ventry μ x i * (alpha * ventry μ x j))
      hν hA hj (by omega) (Nat.zero_le _) ?_) ?_
    · intro i ν _ hi hν
      simp only [wp_bind, wp_vget, wp_modify]
      refine ⟨by omega, ⟨by omega, by omega⟩, ?_⟩
      rw [hν.readV hx (i := i) (by omega), hν.val i j (by omega) (by omega)]
      simp [ventry]
    · intro _ ν hν
      refine hν.congr ?_
      intro i' j' _ _
      simp only [ite_upper]
      ifs_eq j' j
  · simp only [notTri_lower, reduceCtorEq, if_true, if_false]
    refine wp_forCols _ hn.symm (MState.start A μ) ?_
    intro j ν hj hν
    simp only [wp_bind, wp_vget]
    refine ⟨by omega, ?_⟩
    rw [hν.readV hx (i := j) (by omega)]
    refine wp_conseq (wp_colLoop (j := j)
      (fun i => entry μ A i j + ventry μ x i * (alpha * ventry μ x j))
      hν hA hj (by omega) (by omega) ?_) ?_
    · intro i ν _ hi hν
      simp only [wp_bind, wp_vget, wp_modify]
      refine ⟨by omega, ⟨by omega, by omega⟩, ?_⟩
      rw [hν.readV hx (i := i) (by omega), hν.val i j (by omega) (by omega)]
      simp [ventry]
    · intro _ ν hν
      refine hν.congr ?_
      intro i' j' _ _
      simp only [ite_lower]
      ifs_eq j' j

theorem wp_syr2 [Add T] [Mul T] {uplo : Uplo} {alpha : T} {x y : VecV L}
    {A : MatV L} {μ : Store L T} (hu : uplo = .Upper ∨ uplo = .Lower)
    (hA : A.Inj) (hn : A.n = A.m) (hxn : x.n = A.m) (hyn : y.n = A.m) (hx : x.DisjM A)
    (hy : y.DisjM A) :
    wp (syr2 uplo alpha x y A) μ (fun _ ν => MState A μ (fun i j =>
      if inTri uplo i j then entry μ A i j + (ventry μ x i * (alpha * ventry μ y j)
        + ventry μ y i * (alpha * ventry μ x j))
      else entry μ A i j) ν) := by
  unfold syr2
  simp only [wp_bind, wp_check, hxn, hyn, hn, ne_eq, not_true_eq_false, decide_false,
    Bool.not_false, if_true]
  rcases hu with rfl | rfl
  · simp only [notTri_upper, if_true]
    refine wp_forCols _ hn.symm (MState.start A μ) ?_
    intro j ν hj hν
    simp only [wp_bind, wp_vget]
    refine ⟨by omega, by omega, ?_⟩
    rw [hν.readV hx (i := j) (by omega), hν.readV hy (i := j) (by omega)]
    refine wp_conseq (wp_colLoop (j := j)
      (fun i => entry μ A i j + (ventry μ x i * (alpha * ventry μ y j)
        + ventry μ y i * (alpha * ventry μ x j)))
      hν hA hj (by omega) (Nat.zero_le _) ?_) ?_
    · intro i ν _ hi hν
      simp only [wp_bind, wp_vget, wp_modify]
      refine ⟨by omega, by omega, ⟨by omega, by omega⟩, ?_⟩
      rw [hν.readV hx (i := i) (by omega), hν.readV hy (i := i) (by omega),
        hν.val i j (by omega) (by omega)]
      simp [ventry]
    · intro _ ν hν
      refine hν.congr ?_
      intro i' j' _ _
      simp only [ite_upper]
      ifs_eq j' j
  · simp only [notTri_lower, reduceCtorEq, if_true, if_false]
    refine wp_forCols _ hn.symm (MState.start A μ) ?_
    intro j ν hj hν
    simp only [wp_bind, wp_vget]
    refine ⟨by omega, by omega, ?_⟩
    rw [hν.readV hx (i := j) (by omega), hν.readV hy (i := j) (by omega)]
    refine wp_conseq (wp_colLoop (j := j)
      (fun i => entry μ A i j + (ventry μ x i * (alpha * ventry μ y j)
        + ventry μ y i * (alpha * ventry μ x j)))
      hν hA hj (by omega) (by omega) ?_) ?_
    · intro i ν _ hi hν
      simp only [wp_bind, wp_vget, wp_modify]
      refine ⟨by omega, by omega, ⟨by omega, by omega⟩, ?_⟩
      rw [hν.readV hx (i := i) (by omega), hν.readV hy (i := i) (by omega),
        hν.val i j (by omega) (by omega)]
      simp [ventry]
    · intro _ ν hν
      refine hν.congr ?_
      intro i' j' _ _
      simp only [ite_lower]
      ifs_eq j' j

/-! ### hemv / symv -/

/-- Entry `(i,j)` of the matrix represented by one triangle: `f` is applied to mirrored entries,
`g` to the diagonal. -/
def foldedF (f g : T → T) (uplo : Uplo) (a : Nat → Nat → T) (i j : Nat) : T :=
  if i = j then g (a i i) else if inTri uplo i j then a i j else f (a j i)

/-- Law-free value of entry `i` after the hemv loop nest started with `y`. -/
def hemvVal [Zero T] [Add T] [Mul T] (f g : T → T) (uplo : Uplo) (alpha : T)
    (a : Nat → Nat → T) (x y : Nat → T) (n i : Nat) : T :=
  if uplo = .Upper then
    foldUp (i + 1) n
      (y i + (alpha * x i * g (a i i) + alpha * foldUp 0 i 0 (fun k s => s + f (a k i) * x k)))
      (fun j acc => acc + alpha * x j * a i j)
  else
    foldUp 0 i (y i) (fun j acc => acc + alpha * x j * a i j) +
      (alpha * x i * g (a i i) + alpha * foldUp (i + 1) n 0 (fun k s => s + f (a k i) * x k))

theorem wp_hemvLoop [Zero T] [Add T] [Mul T] {f g : T → T} {uplo : Uplo} {alpha : T} {A : MatV L}
    {x y : VecV L} {n : Nat} {μ0 μ : Store L T} {w : Nat → T}
    (hy : y.Inj) (hAm : A.m = n) (hAn : A.n = n) (hxn : x.n = n) (hyn : y.n = n)
    (hA : A.DisjV y) (hxy : x.Disj y) (h : VState y μ0 w μ) :
    wp (hemvLoop f g uplo alpha A x y n) μ (fun _ ν => VState y μ0
      (hemvVal f g uplo alpha (entry μ0 A) (ventry μ0 x) w n) ν) := by
  unfold hemvLoop
  rw [wp_ite]
  split
  · rename_i hu
    subst hu
    refine wp_forUp_ (fun j ν => VState y μ0 (fun i => if i < j then
        hemvVal f g .Upper alpha (entry μ0 A) (ventry μ0 x) w j i else w i) ν)
      (Nat.zero_le _) (by simpa using h) ?_
      (fun ν hν => hν.congr (fun i hi => by rw [if_pos (by omega)]))
    intro j ν _ hj hν
    simp only [wp_bind, wp_vget]
    refine ⟨by omega, ?_⟩
    rw [hν.readV hxy (i := j) (by omega)]
    refine wp_conseq (wp_vecLoopS
      (fun i => hemvVal f g .Upper alpha (entry μ0 A) (ventry μ0 x) w (j + 1) i)
      (fun i s => s + f (entry μ0 A i j) * ventry μ0 x i)
      hν hy (by omega) (Nat.zero_le _) ?_) ?_
    · intro i s ν _ hi hν
      simp only [wp_bind, wp_get, wp_vmodify, wp_vget, wp_pure]
      refine ⟨⟨by omega, by omega⟩, by omega, by omega, ?_, ?_⟩
      · have : upd ν (y.cell i) (ν (y.cell i) + alpha * μ0 (x.cell j) * ν (A.cell i j)) (x.cell i)
            = ν (x.cell i) := by
          unfold upd
          rw [if_neg]
          intro e
          exact hxy i (by omega) ⟨i, by omega, e.symm⟩
        rw [this, hν.readV hxy (i := i) (by omega), hν.read hA (by omega) (by omega)]
        rfl
      · rw [hν.read hA (by omega) (by omega), hν.val i (by omega)]
        congr 1
        rw [if_neg (by omega), if_pos hi]
        simp only [hemvVal, if_true]
        rw [foldUp_succ (by omega)]
        rfl
    · rintro s ν ⟨rfl, hν⟩
      simp only [wp_get, wp_vmodify]
      refine ⟨⟨by omega, by omega⟩, by omega, hν.upd hy (by omega) ?_⟩
      intro i' hi'
      rw [hν.read hA (by omega) (by omega), hν.val j (by omega)]
      by_cases e : i' = j
      · subst e
        simp [hemvVal, entry, ventry]
      · ifs
  · rename_i hu
    refine wp_forUp_ (fun j ν => VState y μ0 (fun i => if i < j then
        hemvVal f g uplo alpha (entry μ0 A) (ventry μ0 x) w n i else
        foldUp 0 j (w i) (fun j acc => acc + alpha * ventry μ0 x j * entry μ0 A i j)) ν)
      (Nat.zero_le _) (by simpa using h) ?_
      (fun ν hν => hν.congr (fun i hi => by rw [if_pos (by omega)]))
    intro j ν _ hj hν
    simp only [wp_bind, wp_vget]
    refine ⟨by omega, ?_⟩
    rw [hν.readV hxy (i := j) (by omega)]
    refine wp_conseq (wp_vecLoopS
      (fun i => foldUp 0 (j + 1) (w i) (fun j acc => acc + alpha * ventry μ0 x j * entry μ0 A i j))
      (fun i s => s + f (entry μ0 A i j) * ventry μ0 x i)
      hν hy (by omega) (by omega) ?_) ?_
    · intro i s ν _ hi hν
      simp only [wp_bind, wp_get, wp_vmodify, wp_vget, wp_pure]
      refine ⟨⟨by omega, by omega⟩, by omega, by omega, ?_, ?_⟩
      · have : upd ν (y.cell i) (ν (y.cell i) + alpha * μ0 (x.cell j) * ν (A.cell i j)) (x.cell i)
            = ν (x.cell i) := by
          unfold upd
          rw [if_neg]
          intro e
          exact hxy i (by omega) ⟨i, by omega, e.symm⟩
        rw [this, hν.readV hxy (i := i) (by omega), hν.read hA (by omega) (by omega)]
        rfl
      · rw [hν.read hA (by omega) (by omega), hν.val i (by omega)]
        congr 1
        rw [if_neg (by omega), if_neg (by omega)]
        rw [foldUp_succ (by omega)]
        rfl
    · rintro s ν ⟨rfl, hν⟩
      simp only [wp_get, wp_vmodify]
      refine ⟨⟨by omega, by omega⟩, by omega, hν.upd hy (by omega) ?_⟩
      intro i' hi'
      rw [hν.read hA (by omega) (by omega), hν.val j (by omega)]
      by_cases e : i' = j
      · subst e
        simp [hemvVal, entry, ventry, hu]
      · ifs

theorem wp_hemv [Zero T] [Add T] [Mul T] [Star T] [ReIm T] {uplo : Uplo} {alpha : T} {A : MatV L}
    {x y : VecV L} {beta : Coef T} {n : Nat} {μ : Store L T} (h : HemvOK uplo A x y n) :
    wp (hemv uplo alpha A x beta y) μ (fun _ ν => VState y μ
      (hemvVal star re uplo alpha (entry μ A) (ventry μ x)
        (fun i => beta.mulAssign (ventry μ y i)) n) ν) := by
  obtain ⟨hu, h1, h2, h3, h4, hy, hA, hxy⟩ := h
  have hu' : (!notTri uplo) = true := by rcases hu with rfl | rfl <;> rfl
  unfold hemv
  simp only [h1, h2, h3, h4, hu', wp_bind, wp_check, ne_eq, not_true_eq_false, decide_false,
    Bool.not_false, if_true]
  refine wp_conseq (wp_scaleVec hy h4 (VState.start y μ)) ?_
  intro _ ν hν
  exact wp_hemvLoop hy h1 h2 h3 h4 hA hxy hν

theorem wp_symv [Zero T] [Add T] [Mul T] {uplo : Uplo} {alpha : T} {A : MatV L}
    {x y : VecV L} {beta : Coef T} {n : Nat} {μ : Store L T} (h : HemvOK uplo A x y n) :
    wp (symv uplo alpha A x beta y) μ (fun _ ν => VState y μ
      (hemvVal id id uplo alpha (entry μ A) (ventry μ x)
        (fun i => beta.mulAssign (ventry μ y i)) n) ν) := by
  obtain ⟨hu, h1, h2, h3, h4, hy, hA, hxy⟩ := h
  have hu' : (!notTri uplo) = true := by rcases hu with rfl | rfl <;> rfl
  unfold symv
  simp only [h1, h2, h3, h4, hu', wp_bind, wp_check, ne_eq, not_true_eq_false, decide_false,
    Bool.not_false, if_true]
  refine wp_conseq (wp_scaleVec hy h4 (VState.start y μ)) ?_
  intro _ ν hν
  exact wp_hemvLoop hy h1 h2 h3 h4 hA hxy hν

/-- Splitting a range sum at the diagonal index. -/
theorem sum_split_at [AddCommMonoid T] {n i : Nat} (hi : i < n) (F : Nat → T) :
    ∑ l ∈ Finset.range n, F l =
      ∑ l ∈ Finset.range i, F l + (F i + ∑ l ∈ Finset.Ico (i + 1) n, F l) := by
  rw [Finset.range_eq_Ico, Finset.range_eq_Ico,
    ← Finset.sum_Ico_consecutive F (Nat.zero_le i) (Nat.le_of_lt hi),
    Finset.sum_eq_sum_Ico_succ_bot hi]

theorem hemvVal_exact [Field T] (f g : T → T) {uplo : Uplo} (alpha : T)
    (a : Nat → Nat → T) (x y : Nat → T) {n i : Nat} (hu : uplo = .Upper ∨ uplo = .Lower)
    (hi : i < n) :
    hemvVal f g uplo alpha a x y n i =
      alpha * (∑ l ∈ Finset.range n, foldedF f g uplo a i l * x l) + y i := by
  rw [sum_split_at hi]
  have hd : foldedF f g uplo a i i = g (a i i) := by simp [foldedF]
  rw [hd]
  unfold hemvVal
  rcases hu with rfl | rfl
  · rw [if_pos rfl, foldUp_add (by omega), foldUp0_add]
    have e1 : ∑ l ∈ Finset.range i, foldedF f g .Upper a i l * x l =
        ∑ l ∈ Finset.range i, f (a l i) * x l := by
      refine Finset.sum_congr rfl (fun l hl => ?_)
      have := Finset.mem_range.1 hl
      rw [foldedF, if_neg (by omega), ite_upper, if_neg (by omega)]
    have e2 : ∑ l ∈ Finset.Ico (i + 1) n, foldedF f g .Upper a i l * x l =
        ∑ l ∈ Finset.Ico (i + 1) n, a i l * x l := by
      refine Finset.sum_congr rfl (fun l hl => ?_)
      have := Finset.mem_Ico.1 hl
      rw [foldedF, if_neg (by omega), ite_upper, if_pos (by omega)]
    have e3 : ∑ l ∈ Finset.Ico (i + 1) n, alpha * x l * a i l =
        alpha * ∑ l ∈ Finset.Ico (i + 1) n, a i l * x l := by
      rw [Finset.mul_sum]; exact Finset.sum_congr rfl (fun l _ => by ring)
    rw [e1, e2, e3]; ring
  · rw [if_neg (by simp), foldUp0_add, foldUp_add (by omega)]
    have e1 : ∑ l ∈ Finset.range i, foldedF f g .Lower a i l * x l =
        ∑ l ∈ Finset.range i, a i l * x l := by
      refine Finset.sum_congr rfl (fun l hl => ?_)
      have := Finset.mem_range.1 hl
      rw [foldedF, if_neg (by omega), ite_lower, if_pos (by omega)]
    have e2 : ∑ l ∈ Finset.Ico (i + 1) n, foldedF f g .Lower a i l * x l =
        ∑ l ∈ Finset.Ico (i + 1) n, f (a l i) * x l := by
      refine Finset.sum_congr rfl (fun l hl => ?_)
      have := Finset.mem_Ico.1 hl
      rw [foldedF, if_neg (by omega), ite_lower, if_neg (by omega)]
    have e3 : ∑ l ∈ Finset.range i, alpha * x l * a i l =
        alpha * ∑ l ∈ Finset.range i, a i l * x l := by
      rw [Finset.mul_sum]; exact Finset.sum_congr rfl (fun l _ => by ring)
    rw [e1, e2, e3]; ring

end TLA
