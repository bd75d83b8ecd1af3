import Verif.Props.Legacy3

/-!
# C86: the legacy rank-k update interface (herk, syrk, her2k, syr2k)
-/

set_option linter.unusedSimpArgs false
set_option linter.unusedVariables false
set_option linter.unusedSectionVars false

namespace TLA
variable {T : Type} [Field T] [StarRing T] [DecidableEq T] [ReIm T]

/-! ### Lemmas -/

theorem wp_rankTail {F : Uplo → (Nat → Nat → T) → Nat → Nat → T} {beta alpha : T} {n p ld : Nat}
    {uplo : Uplo} (hld : n ≤ ld)
    (hF : ∀ u a b, (∀ i j, i < n → j < n → b i j = beta * a i j) → ∀ i j, i < n → j < n →
      F u b i j = beta * F u a i j)
    {g : M Nat T Unit} {X : Matrix (Fin n) (Fin n) T} {μ : Store Nat T} (h0 : alpha = 0 → X = 0)
    (hg : ∃ ν, g μ = (.ok (), ν) ∧ mat n n (F (readTri uplo) (entry ν (stMat .ColMajor n n p ld))) =
      X + (lgCoef beta).toVal • mat n n (F (readTri uplo) (entry μ (stMat .ColMajor n n p ld))) ∧
      SameOff (stMat .ColMajor n n p ld) uplo μ ν) :
    wp (if alpha = 0 then lgScaleM beta (stMat .ColMajor n n p ld) else g) μ (fun _ ν =>
      mat n n (F (readTri uplo) (entry ν (stMat .ColMajor n n p ld))) =
      X + beta • mat n n (F (readTri uplo) (entry μ (stMat .ColMajor n n p ld))) ∧
      SameOff (stMat .ColMajor n n p ld) (if alpha = 0 then .General else uplo) μ ν) := by
  rw [wp_ite]
  by_cases ha : alpha = 0
  · rw [if_pos ha, if_pos ha]
    refine wp_conseq (wp_lgScaleM (stCol_inj hld)) (fun _ ν hν => ⟨?_, fun l hl => hν.frame l ?_⟩)
    · rw [h0 ha, zero_add, mat_smul]
      refine mat_ext_iff.2 (fun i j hi hj => ?_)
      exact hF _ _ _ (fun i j hi hj => hν.val i j hi hj) i j hi hj
    · rintro ⟨i, j, hi, hj, e⟩
      exact hl i j hi hj trivial e
  · rw [if_neg ha, if_neg ha]
    obtain ⟨ν, h1, h2, h3⟩ := hg
    rw [lgCoef_val] at h2
    exact wp_of_eq h1 ⟨h2, h3⟩

theorem sameOff_tr {C : MatV Nat} {u : Uplo} {v : Uplo} (h : ∀ i j, inTri u i j → inTri v j i)
    {μ ν : Store Nat T} (hs : SameOff C u μ ν) : SameOff C.tr v μ ν :=
  fun l hl => hs l (fun i j hi hj ht => hl j i hj hi (h i j ht))

/-- The two families: symmetric (`c` the identity) and Hermitian (`c` the conjugation). -/
def RankFam (opX opT : Op) (c : T → T) : Prop :=
  (opX = .ConjTrans ∧ opT = .Trans ∧ c = id) ∨ (opX = .Trans ∧ opT = .ConjTrans ∧ c = star)

theorem RankFam.inv {opX opT : Op} {c : T → T} (h : RankFam opX opT c) (x : T) : c (c x) = x := by
  rcases h with ⟨-, -, rfl⟩ | ⟨-, -, rfl⟩ <;> simp

theorem RankFam.bad {opX opT : Op} {c : T → T} (h : RankFam opX opT c) {trans : Op} {cx : Bool}
    (ht : trans = .NoTrans ∨ trans = opT ∨ (trans = opX ∧ cx = false ∧ ∀ x : T, star x = x)) :
    lgBadOp trans = false ∧ (!(cx && decide (trans = opX))) = true := by
  rcases h with ⟨rfl, rfl, rfl⟩ | ⟨rfl, rfl, rfl⟩ <;> rcases ht with rfl | rfl | ⟨rfl, rfl, -⟩ <;>
    simp [lgBadOp]

/-- Choice by layout. -/
def laySel {α : Type} (layout : Layout) (x y : α) : α :=
  match layout with
  | .ColMajor => x
  | .RowMajor => y

/-- The operand and operation actually used, in terms of the ones given. -/
theorem RankFam.operand {opX opT : Op} {c : T → T} (h : RankFam opX opT c) {trans : Op} {cx : Bool}
    (ht : trans = .NoTrans ∨ trans = opT ∨ (trans = opX ∧ cx = false ∧ ∀ x : T, star x = x))
    (layout : Layout) {n k A lda : Nat} (la : minLdOp layout trans n k ≤ lda) :
    ∃ t : Op, ∃ Av : MatV Nat, (t = .NoTrans ∨ t = opT) ∧
      (if decide (layout = .RowMajor) = true then
        (if (if trans = opX then opT else trans) = .NoTrans then opT else .NoTrans)
        else (if trans = opX then opT else trans)) = t ∧
      (∀ Q (μ : Store Nat T), Q Av μ →
        wp (if t = .NoTrans then lgCol A n k lda else lgCol A k n lda) μ Q) ∧
      (if t = .NoTrans then Av.m else Av.n) = n ∧ (if t = .NoTrans then Av.n else Av.m) = k ∧
      (∀ μ : Store Nat T, mat n k (opF t (entry μ Av)) =
        laySel layout (mat n k (opF trans (entry μ (stOp layout trans n k A lda))))
          ((mat n k (opF trans (entry μ (stOp layout trans n k A lda)))).map c)) ∧
      (stOp layout trans n k A lda = laySel layout Av Av.tr) := by
  cases layout
  · rcases h with ⟨rfl, rfl, rfl⟩ | ⟨rfl, rfl, rfl⟩ <;> rcases ht with rfl | rfl | ⟨rfl, rfl, hst⟩
    · exact ⟨.NoTrans, stMat .ColMajor n k A lda, by simp, by simp, fun Q μ hQ => by
        rw [if_pos rfl]; exact wp_lgCol la hQ, rfl, rfl, fun μ => rfl, rfl⟩
    · exact ⟨.Trans, stMat .ColMajor k n A lda, by simp, by simp, fun Q μ hQ => by
        rw [if_neg (by simp)]; exact wp_lgCol la hQ, rfl, rfl, fun μ => rfl, rfl⟩
    · exact ⟨.Trans, stMat .ColMajor k n A lda, by simp, by simp, fun Q μ hQ => by
        rw [if_neg (by simp)]; exact wp_lgCol la hQ, rfl, rfl, fun μ => by
        funext i j; exact (hst _).symm, rfl⟩
    · exact ⟨.NoTrans, stMat .ColMajor n k A lda, by simp, by simp, fun Q μ hQ => by
        rw [if_pos rfl]; exact wp_lgCol la hQ, rfl, rfl, fun μ => rfl, rfl⟩
    · exact ⟨.ConjTrans, stMat .ColMajor k n A lda, by simp, by simp, fun Q μ hQ => by
        rw [if_neg (by simp)]; exact wp_lgCol la hQ, rfl, rfl, fun μ => rfl, rfl⟩
    · exact ⟨.ConjTrans, stMat .ColMajor k n A lda, by simp, by simp, fun Q μ hQ => by
        rw [if_neg (by simp)]; exact wp_lgCol la hQ, rfl, rfl, fun μ => by
        funext i j; exact hst _, rfl⟩
  · rcases h with ⟨rfl, rfl, rfl⟩ | ⟨rfl, rfl, rfl⟩ <;> rcases ht with rfl | rfl | ⟨rfl, rfl, hst⟩
    · have e := (show stOp .RowMajor .NoTrans n k A lda = (stMat .ColMajor k n A lda).tr from stMat_row ..)
      exact ⟨.Trans, stMat .ColMajor k n A lda, by simp, by simp, fun Q μ hQ => by
        rw [if_neg (by simp)]; exact wp_lgCol la hQ, rfl, rfl, fun μ => by
        rw [e]; rfl, e⟩
    · have e := (show stOp .RowMajor .Trans n k A lda = (stMat .ColMajor n k A lda).tr from stMat_row ..)
      exact ⟨.NoTrans, stMat .ColMajor n k A lda, by simp, by simp, fun Q μ hQ => by
        rw [if_pos rfl]; exact wp_lgCol la hQ, rfl, rfl, fun μ => by
        rw [e]; rfl, e⟩
    · have e := (show stOp .RowMajor .ConjTrans n k A lda = (stMat .ColMajor n k A lda).tr from stMat_row ..)
      exact ⟨.NoTrans, stMat .ColMajor n k A lda, by simp, by simp, fun Q μ hQ => by
        rw [if_pos rfl]; exact wp_lgCol la hQ, rfl, rfl, fun μ => by
        rw [e]; funext i j; exact (hst _).symm, e⟩
    · have e := (show stOp .RowMajor .NoTrans n k A lda = (stMat .ColMajor k n A lda).tr from stMat_row ..)
      exact ⟨.ConjTrans, stMat .ColMajor k n A lda, by simp, by simp, fun Q μ hQ => by
        rw [if_neg (by simp)]; exact wp_lgCol la hQ, rfl, rfl, fun μ => by
        rw [e]; rfl, e⟩
    · have e := (show stOp .RowMajor .ConjTrans n k A lda = (stMat .ColMajor n k A lda).tr from stMat_row ..)
      exact ⟨.NoTrans, stMat .ColMajor n k A lda, by simp, by simp, fun Q μ hQ => by
        rw [if_pos rfl]; exact wp_lgCol la hQ, rfl, rfl, fun μ => by
        rw [e]; funext i j; exact (star_star _).symm, e⟩
    · have e := (show stOp .RowMajor .Trans n k A lda = (stMat .ColMajor n k A lda).tr from stMat_row ..)
      exact ⟨.NoTrans, stMat .ColMajor n k A lda, by simp, by simp, fun Q μ hQ => by
        rw [if_pos rfl]; exact wp_lgCol la hQ, rfl, rfl, fun μ => by
        rw [e]; funext i j; exact (hst _).symm, e⟩

/-- What a rank-k routine is known to do; `F` is `symF` or `hermF`. -/
structure RankSpec (opT : Op) (c : T → T)
    (f : Uplo → Op → T → MatV Nat → Coef T → MatV Nat → M Nat T Unit)
    (F : Uplo → (Nat → Nat → T) → Nat → Nat → T) : Prop where
  run : ∀ (uplo : Uplo) (trans : Op) (alpha : T) (A C : MatV Nat) (beta : Coef T) (n k : Nat),
    RankOK opT uplo trans A A C n k → c alpha = alpha → c beta.toVal = beta.toVal →
    ∀ μ : Store Nat T, ∃ ν, f uplo trans alpha A beta C μ = (.ok (), ν) ∧
      mat n n (F (readTri uplo) (entry ν C)) =
        alpha • (mat n k (opF trans (entry μ A)) * ((mat n k (opF trans (entry μ A))).transpose.map c))
          + beta.toVal • mat n n (F (readTri uplo) (entry μ C)) ∧
      SameOff C uplo μ ν

theorem hermF_scale [ExactScalar T] {beta : T} (hb : star beta = beta) {n : Nat} (u : Uplo)
    (a b : Nat → Nat → T) (h : ∀ i j, i < n → j < n → b i j = beta * a i j) (i j : Nat) (hi : i < n)
    (hj : j < n) : hermF u b i j = beta * hermF u a i j := by
  unfold hermF
  by_cases e : i = j
  · rw [if_pos e, if_pos e, h i i hi hi, ExactScalar.re_mul, ExactScalar.re_of_star _ hb,
      ExactScalar.im_of_star _ hb, zero_mul, sub_zero]
  · rw [if_neg e, if_neg e]
    by_cases ht : inTri u i j
    · rw [if_pos ht, if_pos ht, h i j hi hj]
    · rw [if_neg ht, if_neg ht, h j i hj hi, star_mul', hb]

theorem symF_scale {beta : T} {n : Nat} (u : Uplo)
    (a b : Nat → Nat → T) (h : ∀ i j, i < n → j < n → b i j = beta * a i j) (i j : Nat) (hi : i < n)
    (hj : j < n) : symF u b i j = beta * symF u a i j := by
  unfold symF
  by_cases e : i = j ∨ inTri u i j
  · rw [if_pos e, if_pos e, h i j hi hj]
  · rw [if_neg e, if_neg e, h j i hj hi]

/-- The result of a rank-k wrapper around `f`, all cases together. -/
theorem lgRank_gen {opX opT : Op} {c : T → T} (hfam : RankFam opX opT c)
    {f : Uplo → Op → T → MatV Nat → Coef T → MatV Nat → M Nat T Unit}
    {F : Uplo → (Nat → Nat → T) → Nat → Nat → T} (hf : RankSpec opT c f F) {cx : Bool}
    {layout : Layout} {uplo : Uplo} {trans : Op} {n k : Nat} {alpha beta : T}
    {A lda C ldc : Nat} (hu : uplo = .Upper ∨ uplo = .Lower ∨ uplo = .General)
    (ht : trans = .NoTrans ∨ trans = opT ∨ (trans = opX ∧ cx = false ∧ ∀ x : T, star x = x))
    (la : minLdOp layout trans n k ≤ lda) (lc : n ≤ ldc)
    (ha : c alpha = alpha) (hb : c beta = beta)
    (hF : ∀ u a b, (∀ i j, i < n → j < n → b i j = beta * a i j) → ∀ i j, i < n → j < n →
      F u b i j = beta * F u a i j)
    (hFl : ∀ (A : MatV Nat) (μ : Store Nat T), mat n n (F (readTri (lgFlip uplo)) (entry μ A)) =
      (mat n n (F (usedTri .RowMajor uplo) (entry μ A.tr))).transpose)
    (hAC : (stOp layout trans n k A lda).Disj (stMat layout n n C ldc)) (μ : Store Nat T) :
    ∃ ν, lgRankWith opX opT c cx f layout uplo trans n k alpha A lda beta C ldc μ = (.ok (), ν) ∧
      mat n n (F (usedTri layout uplo) (entry ν (stMat layout n n C ldc))) =
        alpha • (mat n k (opF trans (entry μ (stOp layout trans n k A lda))) *
          ((mat n k (opF trans (entry μ (stOp layout trans n k A lda)))).transpose.map c))
          + beta • mat n n (F (usedTri layout uplo) (entry μ (stMat layout n n C ldc))) ∧
      SameOff (stMat layout n n C ldc) (if alpha = 0 then .General else uplo) μ ν := by
  refine wp_ex ?_
  obtain ⟨hb1, hb2⟩ := hfam.bad ht
  obtain ⟨t, Av, htt, e1, hA, em, ek, eP, eS⟩ := hfam.operand ht layout (A := A) la
  unfold lgRankWith
  simp only [wp_bind, wp_check, notTriGen_false hu, hb1, Bool.not_false, if_true]
  rw [if_pos hb2, if_pos (by
      clear eP eS
      revert la
      have hx : trans = .NoTrans ∨ trans ≠ .NoTrans := _root_.em _
      cases layout <;> rcases hx with h | h <;> simp [minLdOp, minLd, h]), if_pos (by simpa using lc),
    wp_ite]
  by_cases h0 : n = 0 ∨ ((alpha = 0 ∨ k = 0) ∧ beta = 1)
  · rw [if_pos h0, wp_pure]
    refine ⟨?_, fun _ _ => rfl⟩
    rcases h0 with h | ⟨h | h, h'⟩
    · subst h; exact funext fun i => i.elim0
    · rw [h, h', zero_smul, zero_add, one_smul]
    · subst h
      rw [h', one_smul]
      funext i j
      simp [Matrix.add_apply, Matrix.smul_apply, Matrix.mul_apply]
  rw [if_neg h0]
  clear h0
  simp only [wp_bind]
  rw [e1]
  refine hA _ _ (wp_lgCol lc ?_)
  have ea : (if decide (layout = .RowMajor) = true then c alpha else alpha) = alpha := by
    rw [ha]; split_ifs <;> rfl
  rw [ea]
  have hcb : c (lgCoef beta).toVal = (lgCoef beta).toVal := by rw [lgCoef_val, hb]
  cases layout
  · simp only [show decide (Layout.ColMajor = Layout.RowMajor) = false from rfl, Bool.false_eq_true,
      if_false]
    simp only [laySel] at eS eP
    rw [eS] at hAC ⊢
    rw [eS] at eP
    rw [usedTri_col hu]
    refine wp_rankTail (F := F) (uplo := uplo) lc hF ?_ ?_
    · intro h; rw [h, zero_smul]
    · obtain ⟨ν, h1, h2, h3⟩ := hf.run uplo t alpha Av (stMat .ColMajor n n C ldc) (lgCoef beta) n k
        ⟨hu, htt, em, ek, rfl, rfl, rfl, rfl, stCol_inj lc, hAC, hAC⟩ ha hcb μ
      rw [eP] at h2
      exact ⟨ν, h1, h2, h3⟩
  · simp only [decide_true, if_true]
    simp only [laySel] at eS eP
    rw [eS, stMat_row] at hAC
    have hAC := disj_tr hAC
    rw [stMat_row]
    have hfl := lgFlip_gen hu
    refine wp_conseq (wp_rankTail (F := F) (uplo := lgFlip uplo) (X := alpha •
      (mat n k (opF t (entry μ Av)) * ((mat n k (opF t (entry μ Av))).transpose.map c)))
      lc hF ?_ ?_) ?_
    · intro h; rw [h, zero_smul]
    · exact hf.run (lgFlip uplo) t alpha Av (stMat .ColMajor n n C ldc) (lgCoef beta) n k
        ⟨hfl, htt, em, ek, rfl, rfl, rfl, rfl, stCol_inj lc, hAC, hAC⟩ ha hcb μ
    · rintro _ ν ⟨h1, h2⟩
      refine ⟨?_, ?_⟩
      · apply Matrix.transpose_injective
        rw [← hFl, h1, hFl, Matrix.transpose_add, Matrix.transpose_smul, Matrix.transpose_smul,
          Matrix.transpose_mul, eP]
        congr 3
        funext i j
        exact hfam.inv _
      · refine sameOff_tr ?_ h2
        intro i j hij
        by_cases h : alpha = 0
        · rw [if_pos h]; trivial
        · rw [if_neg h] at hij ⊢
          exact (inTri_flip_gen hu i j).1 hij

theorem rankSpec_herk [ExactScalar T] : RankSpec (T := T) .ConjTrans star herk hermF where
  run := by
    intro uplo trans alpha A C beta n k h ha hb μ
    obtain ⟨ν, h1, h2, -, -, h3⟩ := C15_herk h ha hb μ
    exact ⟨ν, h1, h2, h3⟩

theorem rankSpec_syrk : RankSpec (T := T) .Trans id syrk symF where
  run := by
    intro uplo trans alpha A C beta n k h ha hb μ
    obtain ⟨ν, h1, h2, -, h3⟩ := C15_syrk alpha beta h μ
    exact ⟨ν, h1, h2, h3⟩

/-- **C86, herk.** In both layouts the selected triangle of the Hermitian matrix `C` becomes that of
`alpha op(A) op(A)ᴴ + beta C`; if `alpha ≠ 0` nothing outside that triangle changes.  (`alpha` and
`beta` are real.  With `alpha = 0` the code also scales the other triangle.) -/
theorem C86_herk [ExactScalar T] {cx : Bool} {layout : Layout} {uplo : Uplo} {trans : Op} {n k : Nat}
    {alpha beta : T} {A lda C ldc : Nat} (hu : uplo = .Upper ∨ uplo = .Lower ∨ uplo = .General)
    (ht : trans = .NoTrans ∨ trans = .ConjTrans ∨
      (trans = .Trans ∧ cx = false ∧ ∀ x : T, star x = x))
    (la : minLdOp layout trans n k ≤ lda) (lc : n ≤ ldc)
    (ha : star alpha = alpha) (hb : star beta = beta)
    (hAC : (stOp layout trans n k A lda).Disj (stMat layout n n C ldc)) (μ : Store Nat T) :
    ∃ ν, lgHerk cx layout uplo trans n k alpha A lda beta C ldc μ = (.ok (), ν) ∧
      mat n n (hermF (usedTri layout uplo) (entry ν (stMat layout n n C ldc))) =
        alpha • (mat n k (opF trans (entry μ (stOp layout trans n k A lda))) *
          (mat n k (opF trans (entry μ (stOp layout trans n k A lda)))).conjTranspose)
          + beta • mat n n (hermF (usedTri layout uplo) (entry μ (stMat layout n n C ldc))) ∧
      SameOff (stMat layout n n C ldc) (if alpha = 0 then .General else uplo) μ ν :=
  lgRank_gen (Or.inr ⟨rfl, rfl, rfl⟩) rankSpec_herk hu ht la lc ha hb
    (fun u a b h i j hi hj => hermF_scale hb u a b h i j hi hj) (hermMat_flip hu n) hAC μ

/-- **C86, syrk.** The same for symmetric `C` and `alpha op(A) op(A)ᵀ + beta C`. -/
theorem C86_syrk {cx : Bool} {layout : Layout} {uplo : Uplo} {trans : Op} {n k : Nat}
    (alpha beta : T) {A lda C ldc : Nat} (hu : uplo = .Upper ∨ uplo = .Lower ∨ uplo = .General)
    (ht : trans = .NoTrans ∨ trans = .Trans ∨
      (trans = .ConjTrans ∧ cx = false ∧ ∀ x : T, star x = x))
    (la : minLdOp layout trans n k ≤ lda) (lc : n ≤ ldc)
    (hAC : (stOp layout trans n k A lda).Disj (stMat layout n n C ldc)) (μ : Store Nat T) :
    ∃ ν, lgSyrk cx layout uplo trans n k alpha A lda beta C ldc μ = (.ok (), ν) ∧
      mat n n (symF (usedTri layout uplo) (entry ν (stMat layout n n C ldc))) =
        alpha • (mat n k (opF trans (entry μ (stOp layout trans n k A lda))) *
          (mat n k (opF trans (entry μ (stOp layout trans n k A lda)))).transpose)
          + beta • mat n n (symF (usedTri layout uplo) (entry μ (stMat layout n n C ldc))) ∧
      SameOff (stMat layout n n C ldc) (if alpha = 0 then .General else uplo) μ ν :=
  lgRank_gen (Or.inl ⟨rfl, rfl, rfl⟩) rankSpec_syrk hu ht la lc rfl rfl
    (fun u a b h i j hi hj => symF_scale u a b h i j hi hj) (symMat_flip hu n) hAC μ

/-! ### her2k, syr2k -/

/-- What a rank-2k routine is known to do. -/
structure Rank2Spec (opT : Op) (c : T → T)
    (f : Uplo → Op → T → MatV Nat → MatV Nat → Coef T → MatV Nat → M Nat T Unit)
    (F : Uplo → (Nat → Nat → T) → Nat → Nat → T) : Prop where
  run : ∀ (uplo : Uplo) (trans : Op) (alpha : T) (A B C : MatV Nat) (beta : Coef T) (n k : Nat),
    RankOK opT uplo trans A B C n k → c beta.toVal = beta.toVal →
    ∀ μ : Store Nat T, ∃ ν, f uplo trans alpha A B beta C μ = (.ok (), ν) ∧
      mat n n (F (readTri uplo) (entry ν C)) =
        alpha • (mat n k (opF trans (entry μ A)) * ((mat n k (opF trans (entry μ B))).transpose.map c))
        + c alpha •
          (mat n k (opF trans (entry μ B)) * ((mat n k (opF trans (entry μ A))).transpose.map c))
        + beta.toVal • mat n n (F (readTri uplo) (entry μ C)) ∧
      SameOff C uplo μ ν

theorem RankFam.zero {opX opT : Op} {c : T → T} (h : RankFam opX opT c) : c 0 = 0 := by
  rcases h with ⟨-, -, rfl⟩ | ⟨-, -, rfl⟩ <;> simp

theorem RankFam.zero_iff {opX opT : Op} {c : T → T} (h : RankFam opX opT c) (x : T) :
    c x = 0 ↔ x = 0 := by
  rcases h with ⟨-, -, rfl⟩ | ⟨-, -, rfl⟩ <;> simp

theorem mat_opF_trans {opX opT : Op} {c : T → T} (h : RankFam opX opT c) {t : Op} {A B : MatV Nat}
    {n k : Nat} (htt : t = .NoTrans ∨ t = opT)
    (em : (if t = .NoTrans then A.m else A.n) = n) (ek : (if t = .NoTrans then A.n else A.m) = k)
    (bm : (if t = .NoTrans then B.m else B.n) = n) (bk : (if t = .NoTrans then B.n else B.m) = k) :
    B.m = A.m ∧ B.n = A.n := by
  by_cases h : t = .NoTrans
  · simp only [h, if_true] at em ek bm bk; omega
  · simp only [h, if_false] at em ek bm bk; omega

theorem lgRank2_gen {opX opT : Op} {c : T → T} (hfam : RankFam opX opT c)
    {f : Uplo → Op → T → MatV Nat → MatV Nat → Coef T → MatV Nat → M Nat T Unit}
    {F : Uplo → (Nat → Nat → T) → Nat → Nat → T} (hf : Rank2Spec opT c f F) {cx : Bool}
    {layout : Layout} {uplo : Uplo} {trans : Op} {n k : Nat} {alpha beta : T}
    {A lda B ldb C ldc : Nat} (hu : uplo = .Upper ∨ uplo = .Lower ∨ uplo = .General)
    (ht : trans = .NoTrans ∨ trans = opT ∨ (trans = opX ∧ cx = false ∧ ∀ x : T, star x = x))
    (la : minLdOp layout trans n k ≤ lda) (lb : minLdOp layout trans n k ≤ ldb) (lc : n ≤ ldc)
    (hb : c beta = beta)
    (hF : ∀ u a b, (∀ i j, i < n → j < n → b i j = beta * a i j) → ∀ i j, i < n → j < n →
      F u b i j = beta * F u a i j)
    (hFl : ∀ (A : MatV Nat) (μ : Store Nat T), mat n n (F (readTri (lgFlip uplo)) (entry μ A)) =
      (mat n n (F (usedTri .RowMajor uplo) (entry μ A.tr))).transpose)
    (hAC : (stOp layout trans n k A lda).Disj (stMat layout n n C ldc))
    (hBC : (stOp layout trans n k B ldb).Disj (stMat layout n n C ldc)) (μ : Store Nat T) :
    ∃ ν, lgRank2With opX opT c cx f layout uplo trans n k alpha A lda B ldb beta C ldc μ = (.ok (), ν) ∧
      mat n n (F (usedTri layout uplo) (entry ν (stMat layout n n C ldc))) =
        alpha • (mat n k (opF trans (entry μ (stOp layout trans n k A lda))) *
          ((mat n k (opF trans (entry μ (stOp layout trans n k B ldb)))).transpose.map c))
        + c alpha • (mat n k (opF trans (entry μ (stOp layout trans n k B ldb))) *
          ((mat n k (opF trans (entry μ (stOp layout trans n k A lda)))).transpose.map c))
          + beta • mat n n (F (usedTri layout uplo) (entry μ (stMat layout n n C ldc))) ∧
      SameOff (stMat layout n n C ldc) (if alpha = 0 then .General else uplo) μ ν := by
  refine wp_ex ?_
  obtain ⟨hb1, hb2⟩ := hfam.bad ht
  obtain ⟨t, Av, htt, e1, hA, em, ek, eP, eS⟩ := hfam.operand ht layout (A := A) la
  obtain ⟨t2, Bv, -, e2, hB, em2, ek2, eP2, eS2⟩ := hfam.operand ht layout (A := B) lb
  rw [e1] at e2
  subst e2
  obtain ⟨hm, hn⟩ := mat_opF_trans hfam htt em ek em2 ek2
  unfold lgRank2With
  simp only [wp_bind, wp_check, notTriGen_false hu, hb1, Bool.not_false, if_true]
  rw [if_pos hb2, if_pos (by
      clear eP eS eP2 eS2 hAC hBC lb
      revert la
      have hx : trans = .NoTrans ∨ trans ≠ .NoTrans := _root_.em _
      cases layout <;> rcases hx with h | h <;> simp [minLdOp, minLd, h]), if_pos (by
      clear eP eS eP2 eS2 hAC hBC la
      revert lb
      have hx : trans = .NoTrans ∨ trans ≠ .NoTrans := _root_.em _
      cases layout <;> rcases hx with h | h <;> simp [minLdOp, minLd, h]),
    if_pos (by simpa using lc), wp_ite]
  by_cases h0 : n = 0 ∨ ((alpha = 0 ∨ k = 0) ∧ beta = 1)
  · rw [if_pos h0, wp_pure]
    refine ⟨?_, fun _ _ => rfl⟩
    rcases h0 with h | ⟨h | h, h'⟩
    · subst h; exact funext fun i => i.elim0
    · rw [h, h', hfam.zero, zero_smul, zero_smul, zero_add, zero_add, one_smul]
    · subst h
      rw [h', one_smul]
      funext i j
      simp [Matrix.add_apply, Matrix.smul_apply, Matrix.mul_apply]
  rw [if_neg h0]
  clear h0
  simp only [wp_bind]
  rw [e1]
  refine hA _ _ (hB _ _ (wp_lgCol lc ?_))
  have hcb : c (lgCoef beta).toVal = (lgCoef beta).toVal := by rw [lgCoef_val, hb]
  cases layout
  · simp only [show decide (Layout.ColMajor = Layout.RowMajor) = false from rfl, Bool.false_eq_true,
      if_false]
    simp only [laySel] at eS eP eS2 eP2
    rw [eS] at hAC ⊢
    rw [eS2] at hBC ⊢
    rw [eS] at eP
    rw [eS2] at eP2
    rw [usedTri_col hu]
    refine wp_rankTail (F := F) (uplo := uplo) lc hF ?_ ?_
    · intro h; rw [h, hfam.zero, zero_smul, zero_smul, zero_add]
    · obtain ⟨ν, h1, h2, h3⟩ := hf.run uplo t alpha Av Bv (stMat .ColMajor n n C ldc) (lgCoef beta)
        n k ⟨hu, htt, em, ek, hm, hn, rfl, rfl, stCol_inj lc, hAC, hBC⟩ hcb μ
      rw [eP, eP2] at h2
      exact ⟨ν, h1, h2, h3⟩
  · simp only [decide_true, if_true]
    simp only [laySel] at eS eP eS2 eP2
    rw [eS, stMat_row] at hAC
    rw [eS2, stMat_row] at hBC
    have hAC := disj_tr hAC
    have hBC := disj_tr hBC
    rw [stMat_row]
    have hfl := lgFlip_gen hu
    refine wp_conseq (wp_rankTail (F := F) (uplo := lgFlip uplo) (X := c alpha •
      (mat n k (opF t (entry μ Av)) * ((mat n k (opF t (entry μ Bv))).transpose.map c)) +
      c (c alpha) • (mat n k (opF t (entry μ Bv)) * ((mat n k (opF t (entry μ Av))).transpose.map c)))
      lc hF ?_ ?_) ?_
    · intro h; rw [h, hfam.zero, zero_smul, zero_smul, zero_add]
    · exact hf.run (lgFlip uplo) t (c alpha) Av Bv (stMat .ColMajor n n C ldc) (lgCoef beta) n k
        ⟨hfl, htt, em, ek, hm, hn, rfl, rfl, stCol_inj lc, hAC, hBC⟩ hcb μ
    · rintro _ ν ⟨h1, h2⟩
      refine ⟨?_, ?_⟩
      · apply Matrix.transpose_injective
        rw [← hFl, h1, hFl, Matrix.transpose_add, Matrix.transpose_add, Matrix.transpose_smul,
          Matrix.transpose_smul, Matrix.transpose_smul,
          Matrix.transpose_mul, Matrix.transpose_mul, eP, eP2, hfam.inv, add_comm (c alpha • _)]
        congr 2
        · congr 2
          funext i j
          exact hfam.inv _
        · congr 2
          funext i j
          exact hfam.inv _
      · refine sameOff_tr ?_ h2
        intro i j hij
        by_cases h : alpha = 0
        · rw [if_pos h]; trivial
        · rw [if_neg ((hfam.zero_iff alpha).not.2 h)] at hij
          rw [if_neg h]
          exact (inTri_flip_gen hu i j).1 hij

theorem rank2Spec_her2k [ExactScalar T] : Rank2Spec (T := T) .ConjTrans star her2k hermF where
  run := by
    intro uplo trans alpha A B C beta n k h hb μ
    obtain ⟨ν, h1, h2, -, -, h3⟩ := C15_her2k alpha h hb μ
    exact ⟨ν, h1, h2, h3⟩

theorem rank2Spec_syr2k : Rank2Spec (T := T) .Trans id syr2k symF where
  run := by
    intro uplo trans alpha A B C beta n k h hb μ
    obtain ⟨ν, h1, h2, -, h3⟩ := C15_syr2k alpha beta h μ
    exact ⟨ν, h1, h2, h3⟩

/-- **C86, her2k.** `alpha op(A) op(B)ᴴ + conj(alpha) op(B) op(A)ᴴ + beta C`, in both layouts. -/
theorem C86_her2k [ExactScalar T] {cx : Bool} {layout : Layout} {uplo : Uplo} {trans : Op}
    {n k : Nat} (alpha : T) {beta : T} {A lda B ldb C ldc : Nat}
    (hu : uplo = .Upper ∨ uplo = .Lower ∨ uplo = .General)
    (ht : trans = .NoTrans ∨ trans = .ConjTrans ∨
      (trans = .Trans ∧ cx = false ∧ ∀ x : T, star x = x))
    (la : minLdOp layout trans n k ≤ lda) (lb : minLdOp layout trans n k ≤ ldb) (lc : n ≤ ldc)
    (hb : star beta = beta)
    (hAC : (stOp layout trans n k A lda).Disj (stMat layout n n C ldc))
    (hBC : (stOp layout trans n k B ldb).Disj (stMat layout n n C ldc)) (μ : Store Nat T) :
    ∃ ν, lgHer2k cx layout uplo trans n k alpha A lda B ldb beta C ldc μ = (.ok (), ν) ∧
      mat n n (hermF (usedTri layout uplo) (entry ν (stMat layout n n C ldc))) =
        alpha • (mat n k (opF trans (entry μ (stOp layout trans n k A lda))) *
          (mat n k (opF trans (entry μ (stOp layout trans n k B ldb)))).conjTranspose)
        + star alpha • (mat n k (opF trans (entry μ (stOp layout trans n k B ldb))) *
          (mat n k (opF trans (entry μ (stOp layout trans n k A lda)))).conjTranspose)
          + beta • mat n n (hermF (usedTri layout uplo) (entry μ (stMat layout n n C ldc))) ∧
      SameOff (stMat layout n n C ldc) (if alpha = 0 then .General else uplo) μ ν :=
  lgRank2_gen (Or.inr ⟨rfl, rfl, rfl⟩) rank2Spec_her2k hu ht la lb lc hb
    (fun u a b h i j hi hj => hermF_scale hb u a b h i j hi hj) (hermMat_flip hu n) hAC hBC μ

/-- **C86, syr2k.** `alpha op(A) op(B)ᵀ + alpha op(B) op(A)ᵀ + beta C`, in both layouts. -/
theorem C86_syr2k {cx : Bool} {layout : Layout} {uplo : Uplo} {trans : Op}
    {n k : Nat} (alpha beta : T) {A lda B ldb C ldc : Nat}
    (hu : uplo = .Upper ∨ uplo = .Lower ∨ uplo = .General)
    (ht : trans = .NoTrans ∨ trans = .Trans ∨
      (trans = .ConjTrans ∧ cx = false ∧ ∀ x : T, star x = x))
    (la : minLdOp layout trans n k ≤ lda) (lb : minLdOp layout trans n k ≤ ldb) (lc : n ≤ ldc)
    (hAC : (stOp layout trans n k A lda).Disj (stMat layout n n C ldc))
    (hBC : (stOp layout trans n k B ldb).Disj (stMat layout n n C ldc)) (μ : Store Nat T) :
    ∃ ν, lgSyr2k cx layout uplo trans n k alpha A lda B ldb beta C ldc μ = (.ok (), ν) ∧
      mat n n (symF (usedTri layout uplo) (entry ν (stMat layout n n C ldc))) =
        alpha • (mat n k (opF trans (entry μ (stOp layout trans n k A lda))) *
          (mat n k (opF trans (entry μ (stOp layout trans n k B ldb)))).transpose)
        + alpha • (mat n k (opF trans (entry μ (stOp layout trans n k B ldb))) *
          (mat n k (opF trans (entry μ (stOp layout trans n k A lda)))).transpose)
          + beta • mat n n (symF (usedTri layout uplo) (entry μ (stMat layout n n C ldc))) ∧
      SameOff (stMat layout n n C ldc) (if alpha = 0 then .General else uplo) μ ν :=
  lgRank2_gen (Or.inl ⟨rfl, rfl, rfl⟩) rank2Spec_syr2k hu ht la lb lc rfl
    (fun u a b h i j hi hj => symF_scale u a b h i j hi hj) (symMat_flip hu n) hAC hBC μ

/-! ### Instances and a violation -/

example : (stOp .RowMajor .ConjTrans 3 4 0 3).Disj (stMat .RowMajor 3 3 20 5) := by
  intro i j hi hj ⟨i', j', hi', hj', e⟩
  simp only [stOp, stMat, reduceCtorEq, if_false] at hi hj hi' hj' e
  omega

example : minLdOp .RowMajor .ConjTrans 3 4 ≤ 3 := by decide
example : (stMat .RowMajor 2 2 0 2).Disj (stMat .RowMajor 2 3 4 3) := by
  intro i j hi hj ⟨i', j', hi', hj', e⟩
  simp only [stMat] at hi hj hi' hj' e
  omega

local instance reImRatLg : ReIm ℚ := ⟨id, fun _ => 0⟩

/-- **C86 fails for `alpha = 0`: the other triangle is written too.** With `uplo = Upper`,
`alpha = 0`, `beta = 0` a 2 × 2 call of herk or of syrk zeroes the entry below the diagonal, which
`uplo` says is not referenced. -/
theorem C86_alpha0_violated :
    (lgHerk (T := ℚ) false .ColMajor .Upper .NoTrans 2 1 0 0 2 0 2 2 (fun _ => 7)).2 3 = 0 ∧
    (lgSyrk (T := ℚ) false .ColMajor .Upper .NoTrans 2 1 0 0 2 0 2 2 (fun _ => 7)).2 3 = 0 ∧
    ¬ SameOff (stMat .ColMajor 2 2 2 2) .Upper (fun _ => (7 : ℚ))
      (lgHerk (T := ℚ) false .ColMajor .Upper .NoTrans 2 1 0 0 2 0 2 2 (fun _ => 7)).2 := by
  have h1 : (lgHerk (T := ℚ) false .ColMajor .Upper .NoTrans 2 1 0 0 2 0 2 2 (fun _ => 7)).2 3 = 0 := by
    decide +kernel
  refine ⟨h1, by decide +kernel, fun h => ?_⟩
  have := h 3 (by
    intro i j hi hj ht
    simp only [stMat, inTri] at hi hj ht ⊢
    omega)
  rw [h1] at this
  norm_num at this

end TLA
