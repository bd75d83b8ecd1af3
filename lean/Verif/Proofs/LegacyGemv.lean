import Verif.Proofs.Legacy

/-! # Legacy gemv, trmv, trsv -/

set_option linter.unusedSimpArgs false
set_option linter.unusedVariables false
set_option linter.unusedSectionVars false

namespace TLA
variable {T : Type} [Field T] [StarRing T] [DecidableEq T] [ReIm T]

theorem opF_tr_no (A : MatV Nat) (μ : Store Nat T) (i j : Nat) :
    opF .NoTrans (entry μ A) i j = opF .Trans (entry μ A.tr) i j := rfl

/-- The core call, with the α = 0 shortcut. -/
theorem wp_lgCore {trans : Op} {alpha a beta b : T} {A : MatV Nat} {x y : VecV Nat} {m n : Nat}
    (ha : alpha = 0 → a = 0) (hb : beta = 0 → b = 0) (h : GemvOK trans A x y m n) (hn : 0 < n)
    {μ : Store Nat T} :
    wp (if alpha = 0 then lgScaleV beta b y
      else gemv trans a A x (if beta = 0 then .strongZero else .val b) y : M Nat T Unit) μ
      (fun _ ν => VState y μ (fun i =>
        a * (∑ l ∈ Finset.range n, opF trans (entry μ A) i l * ventry μ x l)
        + b * ventry μ y i) ν) := by
  rw [wp_ite]
  split_ifs with h0
  · refine wp_conseq (wp_lgScaleV hb h.inj) (fun _ ν hν => hν.congr (fun i _ => ?_))
    rw [ha h0]; ring
  · rename_i hb0
    refine wp_conseq (wp_gemv_exact h hn) (fun _ ν hν => hν.congr (fun i _ => ?_))
    rw [show (Coef.strongZero : Coef T).toVal = 0 from rfl, hb hb0]
  · refine wp_conseq (wp_gemv_exact h hn) (fun _ ν hν => hν.congr (fun i _ => ?_))
    rw [show (Coef.val b).toVal = b from rfl]

theorem disjV_tr {A : MatV Nat} {x : VecV Nat} (h : A.tr.DisjV x) : A.DisjV x :=
  fun i j hi hj => h j i hj hi

theorem VecV.Disj.not_owns {x y : VecV Nat} (h : x.Disj y) {i : Nat} (hi : i < y.n) :
    ¬ x.Owns (y.cell i) := by
  rintro ⟨k, hk, e⟩
  exact h k hk ⟨i, hi, e.symm⟩

set_option maxHeartbeats 1000000 in
theorem wp_lgGemv {layout : Layout} {trans : Op} {m n : Nat} {alpha beta : T} {A lda x y : Nat}
    {incx incy : Int} {M N : Nat}
    (ht : trans = .NoTrans ∨ trans = .Trans ∨ trans = .ConjTrans)
    (hM : M = if trans = .NoTrans then m else n) (hN : N = if trans = .NoTrans then n else m)
    (hm : 0 < m) (hn : 0 < n) (hld : minLd layout m n ≤ lda) (hx : incx ≠ 0) (hy : incy ≠ 0)
    (hAy : (stMat layout m n A lda).DisjV (stVec M y incy))
    (hxy : (stVec N x incx).Disj (stVec M y incy))
    (hAx : layout = .RowMajor → trans = .ConjTrans →
      (stMat layout m n A lda).DisjV (stVec N x incx)) {μ : Store Nat T} :
    wp (lgGemv layout trans m n alpha A lda x incx beta y incy) μ (fun _ ν =>
      VState (stVec M y incy) μ (fun i => alpha * (∑ l ∈ Finset.range N,
        opF trans (entry μ (stMat layout m n A lda)) i l * ventry μ (stVec N x incx) l)
        + beta * ventry μ (stVec M y incy) i) ν) := by
  unfold lgGemv
  simp only [wp_bind, wp_check, lgBadOp_false ht, Bool.not_false, if_true, hx, hy, decide_false]
  rw [if_pos (by cases layout <;> (simp; exact hld))]
  rw [wp_ite]
  by_cases hq : m = 0 ∨ n = 0 ∨ (alpha = 0 ∧ beta = 1)
  · rw [if_pos hq, wp_pure]
    refine VState.init _ _ _ (fun i hi => ?_)
    obtain ⟨h1, h2⟩ : alpha = 0 ∧ beta = 1 := by rcases hq with h | h | h; omega; omega; exact h
    rw [h1, h2]; simp [ventry]
  rw [if_neg hq]
  clear hq
  cases layout
  · -- column major
    simp only [show decide (Layout.ColMajor = Layout.RowMajor) = false from rfl, Bool.false_and,
      if_false, Bool.false_eq_true, wp_bind, wp_pure, lgVec_eq hx, lgVec_eq hy, ← hM, ← hN]
    refine wp_lgCol hld ?_
    refine wp_conseq (wp_lgCore (alpha := alpha) (beta := beta) (m := M) (n := N) (fun h => h)
      (fun h => h) ?_ ?_) (fun _ ν hν => hν)
    · rcases ht with rfl | rfl | rfl <;> simp only [reduceCtorEq, if_true, if_false] at hM hN <;>
        subst hM <;> subst hN <;>
        exact ⟨by simp [stMat], by simp [stMat], rfl, rfl, stVec_inj hy, hAy, hxy⟩
    · rw [hN]; split_ifs <;> assumption
  · rw [stMat_row] at hAy ⊢
    have hAy' := disjV_tr hAy
    rcases ht with rfl | rfl | rfl
    · simp only [if_true] at hM hN
      obtain rfl := hM; obtain rfl := hN
      simp only [decide_true,
        show decide (Op.NoTrans = Op.ConjTrans) = false from rfl, Bool.and_false, lgFlipOp,
        if_false, if_true, Bool.false_eq_true, wp_bind, wp_pure, lgVec_eq hx, lgVec_eq hy,
        reduceCtorEq]
      refine wp_lgCol hld ?_
      refine wp_conseq (wp_lgCore (alpha := alpha) (beta := beta) (m := M) (n := N) (fun h => h)
        (fun h => h) ⟨by simp [stMat], by simp [stMat], rfl, rfl, stVec_inj hy, hAy', hxy⟩ hn) (fun _ ν hν => hν)
    · simp only [reduceCtorEq, if_false] at hM hN
      obtain rfl := hM; obtain rfl := hN
      simp only [decide_true,
        show decide (Op.Trans = Op.ConjTrans) = false from rfl, Bool.and_false, lgFlipOp,
        if_false, if_true, Bool.false_eq_true, wp_bind, wp_pure, lgVec_eq hx, lgVec_eq hy,
        reduceCtorEq]
      refine wp_lgCol hld ?_
      refine wp_conseq (wp_lgCore (alpha := alpha) (beta := beta) (m := M) (n := N) (fun h => h)
        (fun h => h) ⟨by simp [stMat], by simp [stMat], rfl, rfl, stVec_inj hy, hAy', hxy⟩ hm) (fun _ ν hν => hν)
    · have hAx' := hAx rfl rfl
      rw [stMat_row] at hAx'
      have hAx' := disjV_tr hAx'
      simp only [reduceCtorEq, if_false] at hM hN
      obtain rfl := hM; obtain rfl := hN
      simp only [decide_true,
        Bool.and_true, lgFlipOp,
        if_false, if_true, Bool.false_eq_true, wp_bind, wp_pure, lgVec_eq hx, lgVec_eq hy,
        reduceCtorEq]
      refine wp_conseq (wp_lgConj hx) (fun _ μ1 h1 => ?_)
      refine wp_conseq (wp_lgConj hy) (fun _ μ2 h2 => ?_)
      refine wp_lgCol hld ?_
      refine wp_conseq (wp_lgCore (alpha := alpha) (beta := beta) (a := star alpha)
        (b := star beta) (m := M) (n := N) (fun h => by rw [h, star_zero])
        (fun h => by rw [h, star_zero]) ⟨by simp [stMat], by simp [stMat], rfl, rfl, stVec_inj hy, hAy', hxy⟩ hm)
        (fun _ μ3 h3 => ?_)
      refine wp_conseq (wp_lgConj hx) (fun _ μ4 h4 => ?_)
      refine wp_conseq (wp_lgConj hy) (fun _ μ5 h5 => ?_)
      subst h1 h2 h4 h5
      refine ⟨fun i hi => ?_, fun l hl => ?_⟩
      · rw [conjOn_owns ⟨i, hi, rfl⟩, conjOn_not (hxy.not_owns hi), h3.val i hi]
        rw [star_add, star_mul', star_mul', star_star, star_star, star_sum]
        congr 1
        · congr 1
          refine Finset.sum_congr rfl (fun l hl => ?_)
          have hl' := Finset.mem_range.1 hl
          rw [star_mul']
          congr 1
          · simp only [opF, entry, MatV.tr]
            rw [conjOn_not (hAy' i l hi hl'), conjOn_not (hAx' i l hi hl')]
          · simp only [ventry]
            rw [conjOn_not (hxy l hl'), conjOn_owns ⟨l, hl', rfl⟩, star_star]
        · congr 1
          simp only [ventry]
          rw [conjOn_owns ⟨i, hi, rfl⟩, conjOn_not (hxy.not_owns hi), star_star]
      · rw [conjOn_not hl]
        by_cases hxo : (stVec N x incx).Owns l
        · rw [conjOn_owns hxo, h3.frame l hl, conjOn_not hl, conjOn_owns hxo, star_star]
        · rw [conjOn_not hxo, h3.frame l hl, conjOn_not hl, conjOn_not hxo]

theorem triF_flip_tr {uplo : Uplo} (hu : uplo = .Upper ∨ uplo = .Lower) (diag : Diag) (A : MatV Nat)
    (μ : Store Nat T) (i j : Nat) :
    triF (lgFlip uplo) diag (entry μ A) i j = triF uplo diag (entry μ A.tr) j i := by
  unfold triF
  by_cases e : i = j
  · subst e; simp [entry, MatV.tr]
  · rw [if_neg e, if_neg (show ¬ j = i from fun h => e h.symm)]
    simp only [inTri_flip hu]
    rfl

set_option maxHeartbeats 1000000 in
theorem wp_lgTrmv {layout : Layout} {uplo : Uplo} {trans : Op} {diag : Diag} {n A lda x : Nat}
    {incx : Int} (hu : uplo = .Upper ∨ uplo = .Lower)
    (ht : trans = .NoTrans ∨ trans = .Trans ∨ trans = .ConjTrans)
    (hld : n ≤ lda) (hx : incx ≠ 0)
    (hAx : (stMat layout n n A lda).DisjV (stVec n x incx)) {μ : Store Nat T} :
    wp (lgTrmv layout uplo trans diag n A lda x incx) μ (fun _ ν =>
      VState (stVec n x incx) μ (fun i => ∑ l ∈ Finset.range n,
        opF trans (triF uplo diag (entry μ (stMat layout n n A lda))) i l
          * ventry μ (stVec n x incx) l) ν) := by
  unfold lgTrmv
  simp only [wp_bind, wp_check, lgBadOp_false ht, notTri_false hu, Bool.not_false, if_true, hx,
    decide_false]
  rw [if_pos (by simpa using hld)]
  rw [wp_ite]
  by_cases hq : n = 0
  · rw [if_pos hq, wp_pure]
    subst hq
    exact VState.init _ _ _ (fun i hi => absurd hi (Nat.not_lt_zero _))
  rw [if_neg hq]
  cases layout
  · simp only [show decide (Layout.ColMajor = Layout.RowMajor) = false from rfl, Bool.false_and,
      if_false, Bool.false_eq_true, wp_bind, wp_pure, lgVec_eq hx]
    refine wp_lgCol hld ?_
    exact wp_conseq (wp_trmv_exact ⟨hu, rfl, rfl, rfl, stVec_inj hx, hAx⟩) (fun _ ν hν => hν)
  · rw [stMat_row] at hAx ⊢
    have hAx' := disjV_tr hAx
    rcases ht with rfl | rfl | rfl
    · simp only [decide_true,
        show decide (Op.NoTrans = Op.ConjTrans) = false from rfl, Bool.and_false, lgFlipOp,
        if_false, if_true, Bool.false_eq_true, wp_bind, wp_pure, lgVec_eq hx, reduceCtorEq]
      refine wp_lgCol hld ?_
      refine wp_conseq (wp_trmv_exact ⟨lgFlip_tri hu, rfl, rfl, rfl, stVec_inj hx, hAx'⟩)
        (fun _ ν hν => hν.congr (fun i _ => Finset.sum_congr rfl (fun l _ => ?_)))
      simp only [opF]
      rw [triF_flip_tr hu]
    · simp only [decide_true,
        show decide (Op.Trans = Op.ConjTrans) = false from rfl, Bool.and_false, lgFlipOp,
        if_false, if_true, Bool.false_eq_true, wp_bind, wp_pure, lgVec_eq hx, reduceCtorEq]
      refine wp_lgCol hld ?_
      refine wp_conseq (wp_trmv_exact ⟨lgFlip_tri hu, rfl, rfl, rfl, stVec_inj hx, hAx'⟩)
        (fun _ ν hν => hν.congr (fun i _ => Finset.sum_congr rfl (fun l _ => ?_)))
      simp only [opF]
      rw [triF_flip_tr hu]
    · simp only [decide_true,
        Bool.and_true, lgFlipOp,
        if_false, if_true, Bool.false_eq_true, wp_bind, wp_pure, lgVec_eq hx, reduceCtorEq]
      refine wp_conseq (wp_lgConj hx) (fun _ μ1 h1 => ?_)
      refine wp_lgCol hld ?_
      refine wp_conseq (wp_trmv_exact ⟨lgFlip_tri hu, rfl, rfl, rfl, stVec_inj hx, hAx'⟩)
        (fun _ μ3 h3 => ?_)
      refine wp_conseq (wp_lgConj hx) (fun _ μ4 h4 => ?_)
      subst h1 h4
      refine ⟨fun i hi => ?_, fun l hl => ?_⟩
      · rw [conjOn_owns ⟨i, hi, rfl⟩, h3.val i hi, star_sum]
        refine Finset.sum_congr rfl (fun l hl => ?_)
        have hl' := Finset.mem_range.1 hl
        rw [star_mul']
        congr 1
        · simp only [opF]
          rw [triF_flip_tr hu]
          congr 1
          unfold triF
          simp only [entry, MatV.tr]
          rw [conjOn_not (hAx' l l hl' hl'), conjOn_not (hAx' i l hi hl')]
        · simp only [ventry]
          rw [conjOn_owns ⟨l, hl', rfl⟩, star_star]
      · rw [conjOn_not hl, h3.frame l hl, conjOn_not hl]

set_option maxHeartbeats 1000000 in
theorem wp_lgTrsv {layout : Layout} {uplo : Uplo} {trans : Op} {diag : Diag} {n A lda x : Nat}
    {incx : Int} (hu : uplo = .Upper ∨ uplo = .Lower)
    (ht : trans = .NoTrans ∨ trans = .Trans ∨ trans = .ConjTrans)
    (hld : n ≤ lda) (hx : incx ≠ 0)
    (hAx : (stMat layout n n A lda).DisjV (stVec n x incx)) {μ : Store Nat T}
    (hd : diag = .NonUnit → ∀ i, i < n → entry μ (stMat layout n n A lda) i i ≠ 0) :
    wp (lgTrsv layout uplo trans diag n A lda x incx) μ (fun _ ν => ∃ X : Nat → T,
      VState (stVec n x incx) μ X ν ∧ ∀ i, i < n → (∑ l ∈ Finset.range n,
        opF trans (triF uplo diag (entry μ (stMat layout n n A lda))) i l * X l)
          = ventry μ (stVec n x incx) i) := by
  unfold lgTrsv
  simp only [wp_bind, wp_check, lgBadOp_false ht, notTri_false hu, Bool.not_false, if_true, hx,
    decide_false]
  rw [if_pos (by simpa using hld)]
  rw [wp_ite]
  by_cases hq : n = 0
  · rw [if_pos hq, wp_pure]
    subst hq
    exact ⟨_, VState.init _ _ (ventry μ (stVec 0 x incx)) (fun i hi => rfl),
      fun i hi => absurd hi (Nat.not_lt_zero _)⟩
  rw [if_neg hq]
  cases layout
  · simp only [show decide (Layout.ColMajor = Layout.RowMajor) = false from rfl, Bool.false_and,
      if_false, Bool.false_eq_true, wp_bind, wp_pure, lgVec_eq hx]
    refine wp_lgCol hld ?_
    exact wp_conseq (wp_trsv_exact ⟨hu, rfl, rfl, rfl, stVec_inj hx, hAx⟩ hd) (fun _ ν hν => hν)
  · rw [stMat_row] at hAx hd ⊢
    have hAx' := disjV_tr hAx
    rcases ht with rfl | rfl | rfl
    · simp only [decide_true,
        show decide (Op.NoTrans = Op.ConjTrans) = false from rfl, Bool.and_false, lgFlipOp,
        if_false, if_true, Bool.false_eq_true, wp_bind, wp_pure, lgVec_eq hx, reduceCtorEq]
      refine wp_lgCol hld ?_
      refine wp_conseq (wp_trsv_exact ⟨lgFlip_tri hu, rfl, rfl, rfl, stVec_inj hx, hAx'⟩ hd) ?_
      rintro _ ν ⟨X, hX, hs⟩
      refine ⟨X, hX, fun i hi => ?_⟩
      rw [← hs i hi]
      refine Finset.sum_congr rfl (fun l _ => ?_)
      simp only [opF]
      rw [triF_flip_tr hu]
    · simp only [decide_true,
        show decide (Op.Trans = Op.ConjTrans) = false from rfl, Bool.and_false, lgFlipOp,
        if_false, if_true, Bool.false_eq_true, wp_bind, wp_pure, lgVec_eq hx, reduceCtorEq]
      refine wp_lgCol hld ?_
      refine wp_conseq (wp_trsv_exact ⟨lgFlip_tri hu, rfl, rfl, rfl, stVec_inj hx, hAx'⟩ hd) ?_
      rintro _ ν ⟨X, hX, hs⟩
      refine ⟨X, hX, fun i hi => ?_⟩
      rw [← hs i hi]
      refine Finset.sum_congr rfl (fun l _ => ?_)
      simp only [opF]
      rw [triF_flip_tr hu]
    · simp only [decide_true,
        Bool.and_true, lgFlipOp,
        if_false, if_true, Bool.false_eq_true, wp_bind, wp_pure, lgVec_eq hx, reduceCtorEq]
      refine wp_conseq (wp_lgConj hx) (fun _ μ1 h1 => ?_)
      subst h1
      refine wp_lgCol hld ?_
      refine wp_conseq (wp_trsv_exact ⟨lgFlip_tri hu, rfl, rfl, rfl, stVec_inj hx, hAx'⟩ ?_) ?_
      · intro h i hi
        rw [entry, conjOn_not (hAx' i i hi hi)]
        exact hd h i hi
      rintro _ μ3 ⟨X, h3, hs⟩
      refine wp_conseq (wp_lgConj hx) (fun _ μ4 h4 => ?_)
      subst h4
      refine ⟨fun i => star (X i), ⟨fun i hi => ?_, fun l hl => ?_⟩, fun i hi => ?_⟩
      · rw [conjOn_owns ⟨i, hi, rfl⟩, h3.val i hi]
      · rw [conjOn_not hl, h3.frame l hl, conjOn_not hl]
      · have hsi := congrArg star (hs i hi)
        rw [star_sum, ventry, conjOn_owns ⟨i, hi, rfl⟩, star_star] at hsi
        refine Eq.trans (Finset.sum_congr rfl (fun l hl => ?_)) hsi
        have hl' := Finset.mem_range.1 hl
        rw [star_mul']
        congr 1
        simp only [opF]
        rw [triF_flip_tr hu]
        congr 1
        unfold triF
        simp only [entry, MatV.tr]
        rw [conjOn_not (hAx' l l hl' hl'), conjOn_not (hAx' i l hi hl')]

end TLA
