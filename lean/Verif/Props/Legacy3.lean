import Verif.Props.Legacy

/-!
# C86: the legacy level-3 BLAS interface
-/

set_option linter.unusedSimpArgs false
set_option linter.unusedVariables false
set_option linter.unusedSectionVars false

namespace TLA
variable {T : Type} [Field T] [StarRing T] [DecidableEq T] [ReIm T]

/-! ### Lemmas -/

theorem wp_lgScaleM {beta : T} {C : MatV Nat} (hC : C.Inj) {μ : Store Nat T} :
    wp (lgScaleM beta C) μ (fun _ ν => MState C μ (fun i j => beta * entry μ C i j) ν) := by
  unfold lgScaleM
  rw [wp_ite]
  split_ifs with h
  · refine wp_conseq (wp_forCols (fun i j => 0) rfl (MState.init C μ (entry μ C) fun _ _ _ _ => rfl)
      ?_) (fun _ ν hν => hν.congr fun i j _ _ => by rw [h, zero_mul])
    intro j ν hj hν
    refine wp_conseq (wp_colLoop (fun i => 0) hν hC hj (le_refl _) (Nat.zero_le _) ?_)
      (fun _ ν hν => hν.congr fun i' j' hi' _ => by simp [hi'])
    intro i ν _ hi hν
    simp only [wp_set]
    exact ⟨⟨hi, hj⟩, trivial⟩
  · refine wp_conseq (wp_forCols (fun i j => entry μ C i j * beta) rfl
      (MState.init C μ (entry μ C) fun _ _ _ _ => rfl) ?_)
      (fun _ ν hν => hν.congr fun i j _ _ => mul_comm _ _)
    intro j ν hj hν
    refine wp_conseq (wp_colLoop (fun i => entry μ C i j * beta) hν hC hj (le_refl _)
      (Nat.zero_le _) ?_) (fun _ ν hν => hν.congr fun i' j' hi' _ => by simp [hi'])
    intro i ν _ hi hν
    simp only [wp_modify]
    refine ⟨⟨hi, hj⟩, ?_⟩
    rw [hν.val i j hi hj]
    simp

theorem wp_lgZero {m n : Nat} {B : MatV Nat} (hm : m = B.m) (hn : n = B.n) (hB : B.Inj)
    {μ : Store Nat T} :
    wp (forUp_ 0 n fun j => forUp_ 0 m fun i => B.set i j 0) μ
      (fun _ ν => MState B μ (fun _ _ => (0 : T)) ν) := by
  subst hm
  refine wp_conseq (wp_forCols (fun i j => 0) hn (MState.init B μ (entry μ B) fun _ _ _ _ => rfl)
      ?_) (fun _ ν hν => hν)
  intro j ν hj hν
  refine wp_conseq (wp_colLoop (fun i => 0) hν hB hj (le_refl _) (Nat.zero_le _) ?_)
      (fun _ ν hν => hν.congr fun i' j' hi' _ => by simp [hi'])
  intro i ν _ hi hν
  simp only [wp_set]
  exact ⟨⟨hi, hj⟩, trivial⟩

theorem disj_tr {A B : MatV Nat} (h : A.tr.Disj B.tr) : A.Disj B :=
  fun i j hi hj ho => h j i hj hi (MatV.tr_owns.2 ho)

theorem notTriGen_false {uplo : Uplo} (h : uplo = .Upper ∨ uplo = .Lower ∨ uplo = .General) :
    notTriGen uplo = false := by rcases h with rfl | rfl | rfl <;> rfl

/-! ### gemm -/

theorem wp_lgGemmCol {transA transB : Op} {m n k : Nat} {alpha beta : T} {A lda B ldb C ldc : Nat}
    (hA : transA = .NoTrans ∨ transA = .Trans ∨ transA = .ConjTrans)
    (hB : transB = .NoTrans ∨ transB = .Trans ∨ transB = .ConjTrans)
    (la : (if transA ≠ .NoTrans then k else m) ≤ lda)
    (lb : (if transB ≠ .NoTrans then n else k) ≤ ldb) (lc : m ≤ ldc)
    (hAC : (if transA = .NoTrans then stMat .ColMajor m k A lda else stMat .ColMajor k m A lda).Disj
      (stMat .ColMajor m n C ldc))
    (hBC : (if transB = .NoTrans then stMat .ColMajor k n B ldb else stMat .ColMajor n k B ldb).Disj
      (stMat .ColMajor m n C ldc)) {μ : Store Nat T} :
    wp (lgGemmCol transA transB m n k alpha A lda B ldb beta C ldc) μ (fun _ ν =>
      mat m n (entry ν (stMat .ColMajor m n C ldc)) = alpha •
        (mat m k (opF transA (entry μ (if transA = .NoTrans then stMat .ColMajor m k A lda
            else stMat .ColMajor k m A lda))) *
         mat k n (opF transB (entry μ (if transB = .NoTrans then stMat .ColMajor k n B ldb
            else stMat .ColMajor n k B ldb))))
        + beta • mat m n (entry μ (stMat .ColMajor m n C ldc)) ∧
      ∀ l, ¬ (stMat .ColMajor m n C ldc).Owns l → ν l = μ l) := by
  unfold lgGemmCol
  simp only [wp_bind, wp_check, lgBadOp_false hA, lgBadOp_false hB, Bool.not_false, if_true]
  rw [if_pos (by simpa using la), if_pos (by simpa using lb), if_pos (by simpa using lc), wp_ite]
  by_cases hq : m = 0 ∨ n = 0 ∨ ((alpha = 0 ∨ k = 0) ∧ beta = 1)
  · rw [if_pos hq, wp_pure]
    refine ⟨?_, fun _ _ => rfl⟩
    rcases hq with h | h | ⟨h | h, h'⟩
    · subst h; exact funext fun i => i.elim0
    · subst h; exact funext fun i => funext fun j => j.elim0
    · rw [h, h', zero_smul, zero_add, one_smul]
    · subst h
      rw [h', one_smul]
      funext i j
      simp [Matrix.add_apply, Matrix.smul_apply, Matrix.mul_apply]
  rw [if_neg hq, wp_bind]
  have sA : ∀ (Q : MatV Nat → Store Nat T → Prop),
      Q (if transA = .NoTrans then stMat .ColMajor m k A lda else stMat .ColMajor k m A lda) μ →
      wp (if transA = .NoTrans then lgCol A m k lda else lgCol A k m lda) μ Q := by
    intro Q hQ
    split_ifs with h
    · rw [if_neg (by simpa using h)] at la
      rw [if_pos h] at hQ
      exact wp_lgCol la hQ
    · rw [if_pos (by simpa using h)] at la
      rw [if_neg h] at hQ
      exact wp_lgCol la hQ
  have sB : ∀ (Q : MatV Nat → Store Nat T → Prop),
      Q (if transB = .NoTrans then stMat .ColMajor k n B ldb else stMat .ColMajor n k B ldb) μ →
      wp (if transB = .NoTrans then lgCol B k n ldb else lgCol B n k ldb) μ Q := by
    intro Q hQ
    split_ifs with h
    · rw [if_neg (by simpa using h)] at lb
      rw [if_pos h] at hQ
      exact wp_lgCol lb hQ
    · rw [if_pos (by simpa using h)] at lb
      rw [if_neg h] at hQ
      exact wp_lgCol lb hQ
  refine sA _ ?_
  rw [wp_bind]
  refine sB _ ?_
  rw [wp_bind]
  refine wp_lgCol lc ?_
  rw [wp_ite]
  by_cases ha : alpha = 0
  · rw [if_pos ha]
    refine wp_conseq (wp_lgScaleM (stCol_inj lc)) (fun _ ν hν => ⟨?_, hν.frame⟩)
    rw [ha, zero_smul, zero_add, mat_smul]
    exact mat_ext_iff.2 (fun i j hi hj => hν.val i j hi hj)
  · rw [if_neg ha]
    obtain ⟨ν, h1, h2, h3⟩ := C13_gemm alpha (lgCoef beta) (m := m) (n := n) (k := k)
      (transA := transA) (transB := transB)
      (A := if transA = .NoTrans then stMat .ColMajor m k A lda else stMat .ColMajor k m A lda)
      (B := if transB = .NoTrans then stMat .ColMajor k n B ldb else stMat .ColMajor n k B ldb)
      (C := stMat .ColMajor m n C ldc)
      ⟨by rcases hA with rfl | rfl | rfl <;> simp, by rcases hB with rfl | rfl | rfl <;> simp,
        by split_ifs <;> rfl, by split_ifs <;> rfl, by split_ifs <;> rfl, by split_ifs <;> rfl,
        rfl, rfl, stCol_inj lc, hAC, hBC⟩ μ
    rw [lgCoef_val] at h2
    exact wp_of_eq h1 ⟨h2, h3⟩

/-- **C86, gemm.** Both layouts, all ops: `C := alpha op(A) op(B) + beta C`, nothing else written. -/
theorem C86_gemm {layout : Layout} {transA transB : Op} {m n k : Nat} (alpha beta : T)
    {A lda B ldb C ldc : Nat}
    (hA : transA = .NoTrans ∨ transA = .Trans ∨ transA = .ConjTrans)
    (hB : transB = .NoTrans ∨ transB = .Trans ∨ transB = .ConjTrans)
    (la : minLdOp layout transA m k ≤ lda) (lb : minLdOp layout transB k n ≤ ldb)
    (lc : minLd layout m n ≤ ldc)
    (hAC : (stOp layout transA m k A lda).Disj (stMat layout m n C ldc))
    (hBC : (stOp layout transB k n B ldb).Disj (stMat layout m n C ldc)) (μ : Store Nat T) :
    ∃ ν, lgGemm layout transA transB m n k alpha A lda B ldb beta C ldc μ = (.ok (), ν) ∧
      mat m n (entry ν (stMat layout m n C ldc)) = alpha •
        (mat m k (opF transA (entry μ (stOp layout transA m k A lda))) *
         mat k n (opF transB (entry μ (stOp layout transB k n B ldb))))
        + beta • mat m n (entry μ (stMat layout m n C ldc)) ∧
      ∀ l, ¬ (stMat layout m n C ldc).Owns l → ν l = μ l := by
  refine wp_ex ?_
  unfold lgGemm
  cases layout
  · rw [if_neg (by decide)]
    refine wp_lgGemmCol hA hB ?_ ?_ lc hAC hBC
    · revert la; rcases hA with rfl | rfl | rfl <;> simp [minLdOp, minLd]
    · revert lb; rcases hB with rfl | rfl | rfl <;> simp [minLdOp, minLd]
  · rw [if_pos rfl]
    have eA : stOp .RowMajor transA m k A lda =
        (if transA = .NoTrans then stMat .ColMajor k m A lda else stMat .ColMajor m k A lda).tr := by
      unfold stOp; split_ifs <;> rw [stMat_row]
    have eB : stOp .RowMajor transB k n B ldb =
        (if transB = .NoTrans then stMat .ColMajor n k B ldb else stMat .ColMajor k n B ldb).tr := by
      unfold stOp; split_ifs <;> rw [stMat_row]
    rw [eA, stMat_row] at hAC
    rw [eB, stMat_row] at hBC
    rw [eA, eB, stMat_row]
    refine wp_conseq (wp_lgGemmCol (m := n) (n := m) (k := k) hB hA ?_ ?_ lc (disj_tr hBC)
      (disj_tr hAC)) ?_
    · revert lb; rcases hB with rfl | rfl | rfl <;> simp [minLdOp, minLd]
    · revert la; rcases hA with rfl | rfl | rfl <;> simp [minLdOp, minLd]
    rintro _ ν ⟨h2, h3⟩
    refine ⟨?_, fun l hl => h3 l (fun h => hl (MatV.tr_owns.2 h))⟩
    apply Matrix.transpose_injective
    rw [Matrix.transpose_add, Matrix.transpose_smul, Matrix.transpose_smul, Matrix.transpose_mul]
    rcases hA with rfl | rfl | rfl <;> rcases hB with rfl | rfl | rfl <;> exact h2

/-! ### hemm, symm -/

theorem usedTri_flip {uplo : Uplo} (h : uplo = .Upper ∨ uplo = .Lower ∨ uplo = .General) :
    readTri (lgFlip uplo) = lgFlip (usedTri .RowMajor uplo) := by
  rcases h with rfl | rfl | rfl <;> rfl

theorem usedTri_cases (layout : Layout) (uplo : Uplo) :
    usedTri layout uplo = .Upper ∨ usedTri layout uplo = .Lower := by
  unfold usedTri; cases uplo <;> cases layout <;> simp

theorem usedTri_col {uplo : Uplo} (h : uplo = .Upper ∨ uplo = .Lower ∨ uplo = .General) :
    usedTri .ColMajor uplo = readTri uplo := by
  rcases h with rfl | rfl | rfl <;> rfl

theorem lgFlip_gen {uplo : Uplo} (h : uplo = .Upper ∨ uplo = .Lower ∨ uplo = .General) :
    lgFlip uplo = .Upper ∨ lgFlip uplo = .Lower ∨ lgFlip uplo = .General := by
  rcases h with rfl | rfl | rfl <;> simp [lgFlip]

theorem inTri_flip_gen {uplo : Uplo} (h : uplo = .Upper ∨ uplo = .Lower ∨ uplo = .General)
    (i j : Nat) : inTri (lgFlip uplo) i j ↔ inTri uplo j i := by
  rcases h with rfl | rfl | rfl <;> exact Iff.rfl

theorem hermMat_flip {uplo : Uplo} (h : uplo = .Upper ∨ uplo = .Lower ∨ uplo = .General) (n : Nat)
    (A : MatV Nat) (μ : Store Nat T) : mat n n (hermF (readTri (lgFlip uplo)) (entry μ A)) =
      (mat n n (hermF (usedTri .RowMajor uplo) (entry μ A.tr))).transpose := by
  rw [usedTri_flip h]
  funext i j
  exact hermF_flip_tr (usedTri_cases _ _) _ _ _ _

theorem symMat_flip {uplo : Uplo} (h : uplo = .Upper ∨ uplo = .Lower ∨ uplo = .General) (n : Nat)
    (A : MatV Nat) (μ : Store Nat T) : mat n n (symF (readTri (lgFlip uplo)) (entry μ A)) =
      (mat n n (symF (usedTri .RowMajor uplo) (entry μ A.tr))).transpose := by
  rw [usedTri_flip h]
  funext i j
  exact symF_flip_tr (usedTri_cases _ _) _ _ _ _

theorem wp_lgTail {m n : Nat} {alpha beta : T} {p ld : Nat} (hld : m ≤ ld) {g : M Nat T Unit}
    {X : Matrix (Fin m) (Fin n) T} {μ : Store Nat T}
    (hf : ∃ ν, g μ = (.ok (), ν) ∧ mat m n (entry ν (stMat .ColMajor m n p ld)) =
      alpha • X + (lgCoef beta).toVal • mat m n (entry μ (stMat .ColMajor m n p ld)) ∧
      ∀ l, ¬ (stMat .ColMajor m n p ld).Owns l → ν l = μ l) :
    wp (if alpha = 0 then lgScaleM beta (stMat .ColMajor m n p ld) else g) μ (fun _ ν =>
      mat m n (entry ν (stMat .ColMajor m n p ld)) =
      alpha • X + beta • mat m n (entry μ (stMat .ColMajor m n p ld)) ∧
      ∀ l, ¬ (stMat .ColMajor m n p ld).Owns l → ν l = μ l) := by
  rw [wp_ite]
  by_cases ha : alpha = 0
  · rw [if_pos ha]
    refine wp_conseq (wp_lgScaleM (stCol_inj hld)) (fun _ ν hν => ⟨?_, hν.frame⟩)
    rw [ha, zero_smul, zero_add, mat_smul]
    exact mat_ext_iff.2 (fun i j hi hj => hν.val i j hi hj)
  · rw [if_neg ha]
    obtain ⟨ν, h1, h2, h3⟩ := hf
    rw [lgCoef_val] at h2
    exact wp_of_eq h1 ⟨h2, h3⟩

/-- What hemm (F = hermF) or symm (F = symF) is known to do. -/
def HemmSpec (f : Side → Uplo → T → MatV Nat → MatV Nat → Coef T → MatV Nat → M Nat T Unit)
    (F : Uplo → (Nat → Nat → T) → Nat → Nat → T) : Prop :=
  (∀ (uplo : Uplo) (alpha : T) (A B C : MatV Nat) (beta : Coef T), HemmOK .Left uplo A B C →
    ∀ μ : Store Nat T, ∃ ν, f .Left uplo alpha A B beta C μ = (.ok (), ν) ∧
      mat B.m B.n (entry ν C) = alpha • (mat B.m B.m (F (readTri uplo) (entry μ A)) *
        mat B.m B.n (entry μ B)) + beta.toVal • mat B.m B.n (entry μ C) ∧
      ∀ l, ¬ C.Owns l → ν l = μ l) ∧
  (∀ (uplo : Uplo) (alpha : T) (A B C : MatV Nat) (beta : Coef T), HemmOK .Right uplo A B C →
    ∀ μ : Store Nat T, ∃ ν, f .Right uplo alpha A B beta C μ = (.ok (), ν) ∧
      mat B.m B.n (entry ν C) = alpha • (mat B.m B.n (entry μ B) *
        mat B.n B.n (F (readTri uplo) (entry μ A))) + beta.toVal • mat B.m B.n (entry μ C) ∧
      ∀ l, ¬ C.Owns l → ν l = μ l) ∧
  ∀ (uplo : Uplo), (uplo = .Upper ∨ uplo = .Lower ∨ uplo = .General) → ∀ (n : Nat) (A : MatV Nat)
    (μ : Store Nat T), mat n n (F (readTri (lgFlip uplo)) (entry μ A)) =
      (mat n n (F (usedTri .RowMajor uplo) (entry μ A.tr))).transpose

theorem hemmSpec_herm : HemmSpec (T := T) hemm hermF :=
  ⟨fun _ alpha _ _ _ beta h μ => C14_hemm_left alpha beta h μ,
    fun _ alpha _ _ _ beta h μ => C14_hemm_right alpha beta h μ,
    fun _ h n A μ => hermMat_flip h n A μ⟩

theorem hemmSpec_symm : HemmSpec (T := T) symm symF :=
  ⟨fun _ alpha _ _ _ beta h μ => C14_symm_left alpha beta h μ,
    fun _ alpha _ _ _ beta h μ => C14_symm_right alpha beta h μ,
    fun _ h n A μ => symMat_flip h n A μ⟩

theorem lgHemm_gen {f : Side → Uplo → T → MatV Nat → MatV Nat → Coef T → MatV Nat → M Nat T Unit}
    {F : Uplo → (Nat → Nat → T) → Nat → Nat → T} (hf : HemmSpec f F)
    {layout : Layout} {side : Side} {uplo : Uplo} {m n q : Nat} (alpha beta : T)
    {A lda B ldb C ldc : Nat} (hs : side = .Left ∨ side = .Right)
    (hu : uplo = .Upper ∨ uplo = .Lower ∨ uplo = .General)
    (hq : q = if side = .Left then m else n) (la : q ≤ lda) (lb : minLd layout m n ≤ ldb)
    (lc : minLd layout m n ≤ ldc)
    (hAC : (stMat layout q q A lda).Disj (stMat layout m n C ldc))
    (hBC : (stMat layout m n B ldb).Disj (stMat layout m n C ldc)) (μ : Store Nat T) :
    ∃ ν, lgHemmWith f layout side uplo m n alpha A lda B ldb beta C ldc μ = (.ok (), ν) ∧
      (side = .Left → mat m n (entry ν (stMat layout m n C ldc)) = alpha •
        (mat m m (F (usedTri layout uplo) (entry μ (stMat layout q q A lda))) *
          mat m n (entry μ (stMat layout m n B ldb)))
        + beta • mat m n (entry μ (stMat layout m n C ldc))) ∧
      (side = .Right → mat m n (entry ν (stMat layout m n C ldc)) = alpha •
        (mat m n (entry μ (stMat layout m n B ldb)) *
          mat n n (F (usedTri layout uplo) (entry μ (stMat layout q q A lda))))
        + beta • mat m n (entry μ (stMat layout m n C ldc))) ∧
      ∀ l, ¬ (stMat layout m n C ldc).Owns l → ν l = μ l := by
  refine wp_ex ?_
  unfold lgHemmWith
  simp only [wp_bind, wp_check, notTriGen_false hu, Bool.not_false, if_true]
  rw [if_pos (by rcases hs with rfl | rfl <;> rfl), if_pos (by rw [← hq]; simpa using la),
    if_pos (by cases layout <;> (simp; exact lb)), if_pos (by cases layout <;> (simp; exact lc)),
    wp_ite]
  by_cases h0 : m = 0 ∨ n = 0 ∨ (alpha = 0 ∧ beta = 1)
  · rw [if_pos h0, wp_pure]
    rcases h0 with h | h | ⟨h, h'⟩
    · subst h; exact ⟨fun _ => funext fun i => i.elim0, fun _ => funext fun i => i.elim0,
        fun _ _ => rfl⟩
    · subst h; exact ⟨fun _ => funext fun i => funext fun j => j.elim0,
        fun _ => funext fun i => funext fun j => j.elim0, fun _ _ => rfl⟩
    · rw [h, h']
      refine ⟨fun _ => ?_, fun _ => ?_, fun _ _ => rfl⟩ <;> rw [zero_smul, zero_add, one_smul]
  rw [if_neg h0]
  clear h0
  cases layout
  · rw [usedTri_col hu]
    rcases hs with rfl | rfl
    · simp only [if_true] at hq
      subst hq
      simp only [show decide (Layout.ColMajor = Layout.RowMajor) = false from rfl, if_false, if_true,
        Bool.false_eq_true, reduceCtorEq, wp_bind]
      refine wp_lgCol la (wp_lgCol lb (wp_lgCol lc ?_))
      refine wp_conseq (wp_lgTail lc (hf.1 uplo alpha (stMat .ColMajor q q A lda)
        (stMat .ColMajor q n B ldb) (stMat .ColMajor q n C ldc) (lgCoef beta)
        ⟨Or.inl rfl, hu, rfl, rfl, rfl, rfl, stCol_inj lc, hAC, hBC⟩ μ)) ?_
      rintro _ ν ⟨h1, h2⟩
      exact ⟨fun _ => h1, fun h => absurd h (by decide), h2⟩
    · simp only [reduceCtorEq, if_false] at hq
      subst hq
      simp only [show decide (Layout.ColMajor = Layout.RowMajor) = false from rfl, if_false, if_true,
        Bool.false_eq_true, reduceCtorEq, wp_bind]
      refine wp_lgCol la (wp_lgCol lb (wp_lgCol lc ?_))
      refine wp_conseq (wp_lgTail lc (hf.2.1 uplo alpha (stMat .ColMajor q q A lda)
        (stMat .ColMajor m q B ldb) (stMat .ColMajor m q C ldc) (lgCoef beta)
        ⟨Or.inr rfl, hu, rfl, rfl, rfl, rfl, stCol_inj lc, hAC, hBC⟩ μ)) ?_
      rintro _ ν ⟨h1, h2⟩
      exact ⟨fun h => absurd h (by decide), fun _ => h1, h2⟩
  · rw [stMat_row, stMat_row] at hAC hBC
    rw [stMat_row, stMat_row, stMat_row]
    have hAC := disj_tr hAC
    have hBC := disj_tr hBC
    rcases hs with rfl | rfl
    · simp only [if_true] at hq
      subst hq
      simp only [decide_true, if_false, if_true, lgFlipSide,
        Bool.false_eq_true, reduceCtorEq, wp_bind]
      refine wp_lgCol la (wp_lgCol lb (wp_lgCol lc ?_))
      refine wp_conseq (wp_lgTail lc (hf.2.1 (lgFlip uplo) alpha (stMat .ColMajor q q A lda)
        (stMat .ColMajor n q B ldb) (stMat .ColMajor n q C ldc) (lgCoef beta)
        ⟨Or.inr rfl, lgFlip_gen hu, rfl, rfl, rfl, rfl, stCol_inj lc, hAC, hBC⟩ μ)) ?_
      rintro _ ν ⟨h1, h2⟩
      refine ⟨fun _ => ?_, fun h => absurd h (by decide), fun l hl => h2 l (fun h =>
        hl (MatV.tr_owns.2 h))⟩
      apply Matrix.transpose_injective
      rw [Matrix.transpose_add, Matrix.transpose_smul, Matrix.transpose_smul, Matrix.transpose_mul,
        ← hf.2.2 uplo hu]
      exact h1
    · simp only [reduceCtorEq, if_false] at hq
      subst hq
      simp only [decide_true, if_false, if_true, lgFlipSide,
        Bool.false_eq_true, reduceCtorEq, wp_bind]
      refine wp_lgCol la (wp_lgCol lb (wp_lgCol lc ?_))
      refine wp_conseq (wp_lgTail lc (hf.1 (lgFlip uplo) alpha (stMat .ColMajor q q A lda)
        (stMat .ColMajor q m B ldb) (stMat .ColMajor q m C ldc) (lgCoef beta)
        ⟨Or.inl rfl, lgFlip_gen hu, rfl, rfl, rfl, rfl, stCol_inj lc, hAC, hBC⟩ μ)) ?_
      rintro _ ν ⟨h1, h2⟩
      refine ⟨fun h => absurd h (by decide), fun _ => ?_, fun l hl => h2 l (fun h =>
        hl (MatV.tr_owns.2 h))⟩
      apply Matrix.transpose_injective
      rw [Matrix.transpose_add, Matrix.transpose_smul, Matrix.transpose_smul, Matrix.transpose_mul,
        ← hf.2.2 uplo hu]
      exact h1

/-- **C86, hemm.** `C := alpha H B + beta C` or `C := alpha B H + beta C`, in both layouts; H is
`q × q`, Hermitian, read from one triangle. -/
theorem C86_hemm {layout : Layout} {side : Side} {uplo : Uplo} {m n q : Nat} (alpha beta : T)
    {A lda B ldb C ldc : Nat} (hs : side = .Left ∨ side = .Right)
    (hu : uplo = .Upper ∨ uplo = .Lower ∨ uplo = .General)
    (hq : q = if side = .Left then m else n) (la : q ≤ lda) (lb : minLd layout m n ≤ ldb)
    (lc : minLd layout m n ≤ ldc)
    (hAC : (stMat layout q q A lda).Disj (stMat layout m n C ldc))
    (hBC : (stMat layout m n B ldb).Disj (stMat layout m n C ldc)) (μ : Store Nat T) :
    ∃ ν, lgHemm layout side uplo m n alpha A lda B ldb beta C ldc μ = (.ok (), ν) ∧
      (side = .Left → mat m n (entry ν (stMat layout m n C ldc)) = alpha •
        (mat m m (hermF (usedTri layout uplo) (entry μ (stMat layout q q A lda))) *
          mat m n (entry μ (stMat layout m n B ldb)))
        + beta • mat m n (entry μ (stMat layout m n C ldc))) ∧
      (side = .Right → mat m n (entry ν (stMat layout m n C ldc)) = alpha •
        (mat m n (entry μ (stMat layout m n B ldb)) *
          mat n n (hermF (usedTri layout uplo) (entry μ (stMat layout q q A lda))))
        + beta • mat m n (entry μ (stMat layout m n C ldc))) ∧
      ∀ l, ¬ (stMat layout m n C ldc).Owns l → ν l = μ l :=
  lgHemm_gen hemmSpec_herm alpha beta hs hu hq la lb lc hAC hBC μ

/-- **C86, symm.** The same with a symmetric matrix. -/
theorem C86_symm {layout : Layout} {side : Side} {uplo : Uplo} {m n q : Nat} (alpha beta : T)
    {A lda B ldb C ldc : Nat} (hs : side = .Left ∨ side = .Right)
    (hu : uplo = .Upper ∨ uplo = .Lower ∨ uplo = .General)
    (hq : q = if side = .Left then m else n) (la : q ≤ lda) (lb : minLd layout m n ≤ ldb)
    (lc : minLd layout m n ≤ ldc)
    (hAC : (stMat layout q q A lda).Disj (stMat layout m n C ldc))
    (hBC : (stMat layout m n B ldb).Disj (stMat layout m n C ldc)) (μ : Store Nat T) :
    ∃ ν, lgSymm layout side uplo m n alpha A lda B ldb beta C ldc μ = (.ok (), ν) ∧
      (side = .Left → mat m n (entry ν (stMat layout m n C ldc)) = alpha •
        (mat m m (symF (usedTri layout uplo) (entry μ (stMat layout q q A lda))) *
          mat m n (entry μ (stMat layout m n B ldb)))
        + beta • mat m n (entry μ (stMat layout m n C ldc))) ∧
      (side = .Right → mat m n (entry ν (stMat layout m n C ldc)) = alpha •
        (mat m n (entry μ (stMat layout m n B ldb)) *
          mat n n (symF (usedTri layout uplo) (entry μ (stMat layout q q A lda))))
        + beta • mat m n (entry μ (stMat layout m n C ldc))) ∧
      ∀ l, ¬ (stMat layout m n C ldc).Owns l → ν l = μ l :=
  lgHemm_gen hemmSpec_symm alpha beta hs hu hq la lb lc hAC hBC μ

/-! ### trmm, trsm -/

theorem triMat_flip {uplo : Uplo} (hu : uplo = .Upper ∨ uplo = .Lower) (trans : Op) (diag : Diag)
    (n : Nat) (A : MatV Nat) (μ : Store Nat T) :
    mat n n (opF trans (triF (lgFlip uplo) diag (entry μ A))) =
      (mat n n (opF trans (triF uplo diag (entry μ A.tr)))).transpose := by
  funext i j
  show opF trans _ _ _ = opF trans _ _ _
  cases trans <;> simp only [opF, triF_flip_tr hu]

/-- What trmm or trsm is known to do: `R` relates (size, alpha, op(A), B before, B after) for the
left side, `R'` for the right side. -/
structure TrmSpec (f : Side → Uplo → Op → Diag → T → MatV Nat → MatV Nat → M Nat T Unit)
    (D : Diag → Nat → MatV Nat → Store Nat T → Prop)
    (R : (p q : Nat) → T → Matrix (Fin p) (Fin p) T → Matrix (Fin p) (Fin q) T →
      Matrix (Fin p) (Fin q) T → Prop)
    (R' : (p q : Nat) → T → Matrix (Fin q) (Fin q) T → Matrix (Fin p) (Fin q) T →
      Matrix (Fin p) (Fin q) T → Prop) : Prop where
  left : ∀ (uplo : Uplo) (trans : Op) (diag : Diag) (alpha : T) (A B : MatV Nat) (p q : Nat),
    TrmOK .Left uplo trans A B → B.m = p → B.n = q → ∀ μ, D diag p A μ →
    ∃ ν, f .Left uplo trans diag alpha A B μ = (.ok (), ν) ∧
      R p q alpha (mat p p (opF trans (triF uplo diag (entry μ A)))) (mat p q (entry μ B))
        (mat p q (entry ν B)) ∧ ∀ l, ¬ B.Owns l → ν l = μ l
  right : ∀ (uplo : Uplo) (trans : Op) (diag : Diag) (alpha : T) (A B : MatV Nat) (p q : Nat),
    TrmOK .Right uplo trans A B → B.m = p → B.n = q → ∀ μ, D diag q A μ →
    ∃ ν, f .Right uplo trans diag alpha A B μ = (.ok (), ν) ∧
      R' p q alpha (mat q q (opF trans (triF uplo diag (entry μ A)))) (mat p q (entry μ B))
        (mat p q (entry ν B)) ∧ ∀ l, ¬ B.Owns l → ν l = μ l
  flip : ∀ p q alpha X B0 B1, R p q alpha X B0 B1 ↔
    R' q p alpha X.transpose B0.transpose B1.transpose
  zero : ∀ p q X B0, R p q 0 X B0 0
  empty : ∀ p q alpha X B0, (p = 0 ∨ q = 0) → R p q alpha X B0 B0
  dtr : ∀ diag n A μ, D diag n A.tr μ ↔ D diag n A μ

theorem TrmSpec.flip' {f : Side → Uplo → Op → Diag → T → MatV Nat → MatV Nat → M Nat T Unit}
    {D R R'} (hf : TrmSpec f D R R') {p q : Nat} {alpha : T} {X : Matrix (Fin q) (Fin q) T}
    {B0 B1 : Matrix (Fin p) (Fin q) T} : R' p q alpha X B0 B1 ↔
    R q p alpha X.transpose B0.transpose B1.transpose := by
  rw [hf.flip]; simp only [Matrix.transpose_transpose]

theorem lgTrm_gen {f : Side → Uplo → Op → Diag → T → MatV Nat → MatV Nat → M Nat T Unit}
    {D R R'} (hf : TrmSpec f D R R')
    {layout : Layout} {side : Side} {uplo : Uplo} {trans : Op} {diag : Diag} {m n q : Nat} (alpha : T)
    {A lda B ldb : Nat} (hs : side = .Left ∨ side = .Right) (hu : uplo = .Upper ∨ uplo = .Lower)
    (ht : trans = .NoTrans ∨ trans = .Trans ∨ trans = .ConjTrans)
    (hq : q = if side = .Left then m else n) (la : q ≤ lda) (lb : minLd layout m n ≤ ldb)
    (hAB : (stMat layout q q A lda).Disj (stMat layout m n B ldb)) (μ : Store Nat T)
    (hD : D diag q (stMat layout q q A lda) μ) :
    ∃ ν, lgTrmWith f layout side uplo trans diag m n alpha A lda B ldb μ = (.ok (), ν) ∧
      (side = .Left → R m n alpha
        (mat m m (opF trans (triF uplo diag (entry μ (stMat layout q q A lda)))))
        (mat m n (entry μ (stMat layout m n B ldb))) (mat m n (entry ν (stMat layout m n B ldb)))) ∧
      (side = .Right → R' m n alpha
        (mat n n (opF trans (triF uplo diag (entry μ (stMat layout q q A lda)))))
        (mat m n (entry μ (stMat layout m n B ldb))) (mat m n (entry ν (stMat layout m n B ldb)))) ∧
      ∀ l, ¬ (stMat layout m n B ldb).Owns l → ν l = μ l := by
  refine wp_ex ?_
  have hcj : trans ≠ .Conj := by rcases ht with rfl | rfl | rfl <;> simp
  unfold lgTrmWith
  simp only [wp_bind, wp_check, notTri_false hu, lgBadOp_false ht, Bool.not_false, if_true]
  rw [if_pos (by rcases hs with rfl | rfl <;> rfl), if_pos (by rw [← hq]; simpa using la),
    if_pos (by cases layout <;> (simp; exact lb)), wp_ite]
  by_cases h0 : m = 0 ∨ n = 0
  · rw [if_pos h0, wp_pure]
    exact ⟨fun _ => hf.empty _ _ _ _ _ h0, fun _ => hf.flip'.2 (hf.empty _ _ _ _ _ h0.symm),
      fun _ _ => rfl⟩
  rw [if_neg h0]
  clear h0
  have tail : ∀ {p r : Nat} (hl : p ≤ ldb) (g : M Nat T Unit)
      (P : Matrix (Fin p) (Fin r) T → Prop), P 0 ∨ alpha ≠ 0 →
      (∃ ν, g μ = (.ok (), ν) ∧ P (mat p r (entry ν (stMat .ColMajor p r B ldb))) ∧
        ∀ l, ¬ (stMat .ColMajor p r B ldb).Owns l → ν l = μ l) →
      wp (if alpha = 0 then forUp_ 0 r fun j => forUp_ 0 p fun i =>
        (stMat .ColMajor p r B ldb).set i j 0 else g) μ (fun _ ν =>
        P (mat p r (entry ν (stMat .ColMajor p r B ldb))) ∧
        ∀ l, ¬ (stMat .ColMajor p r B ldb).Owns l → ν l = μ l) := by
    intro p r hl g P hP hg
    rw [wp_ite]
    by_cases ha : alpha = 0
    · rw [if_pos ha]
      refine wp_conseq (wp_lgZero rfl rfl (stCol_inj hl)) (fun _ ν hν => ⟨?_, hν.frame⟩)
      have : mat p r (entry ν (stMat .ColMajor p r B ldb)) = 0 := by
        funext i j
        exact hν.val i j i.2 j.2
      rw [this]
      exact hP.resolve_right (fun h => h ha)
    · rw [if_neg ha]
      obtain ⟨ν, h1, h2⟩ := hg
      exact wp_of_eq h1 h2
  have z1 : ∀ p q X B0, R p q alpha X B0 0 ∨ alpha ≠ 0 := fun p q X B0 => by
    by_cases ha : alpha = 0
    · subst ha; exact Or.inl (hf.zero _ _ _ _)
    · exact Or.inr ha
  have z2 : ∀ p q X B0, R' p q alpha X B0 0 ∨ alpha ≠ 0 := fun p q X B0 => by
    rw [hf.flip']
    exact z1 _ _ _ _
  cases layout
  · rcases hs with rfl | rfl
    · simp only [if_true] at hq
      subst hq
      simp only [show decide (Layout.ColMajor = Layout.RowMajor) = false from rfl, if_false, if_true,
        Bool.false_eq_true, reduceCtorEq, wp_bind]
      refine wp_lgCol la (wp_lgCol lb ?_)
      refine wp_conseq (tail lb _ _ (z1 _ _ _ _) (hf.left uplo trans diag alpha
        (stMat .ColMajor q q A lda) (stMat .ColMajor q n B ldb) q n
        ⟨Or.inl rfl, hu, hcj, rfl, rfl, stCol_inj lb, hAB⟩ rfl rfl μ hD)) ?_
      rintro _ ν ⟨h1, h2⟩
      exact ⟨fun _ => h1, fun h => absurd h (by decide), h2⟩
    · simp only [reduceCtorEq, if_false] at hq
      subst hq
      simp only [show decide (Layout.ColMajor = Layout.RowMajor) = false from rfl, if_false, if_true,
        Bool.false_eq_true, reduceCtorEq, wp_bind]
      refine wp_lgCol la (wp_lgCol lb ?_)
      refine wp_conseq (tail lb _ _ (z2 _ _ _ _) (hf.right uplo trans diag alpha
        (stMat .ColMajor q q A lda) (stMat .ColMajor m q B ldb) m q
        ⟨Or.inr rfl, hu, hcj, rfl, rfl, stCol_inj lb, hAB⟩ rfl rfl μ hD)) ?_
      rintro _ ν ⟨h1, h2⟩
      exact ⟨fun h => absurd h (by decide), fun _ => h1, h2⟩
  · rw [stMat_row] at hD
    rw [stMat_row, stMat_row] at hAB
    rw [stMat_row, stMat_row]
    have hAB := disj_tr hAB
    have hD := (hf.dtr _ _ _ _).1 hD
    rcases hs with rfl | rfl
    · simp only [if_true] at hq
      subst hq
      simp only [decide_true, if_false, if_true, lgFlipSide,
        Bool.false_eq_true, reduceCtorEq, wp_bind]
      refine wp_lgCol la (wp_lgCol lb ?_)
      refine wp_conseq (tail lb _ _ (z2 _ _ _ _) (hf.right (lgFlip uplo) trans diag alpha
        (stMat .ColMajor q q A lda) (stMat .ColMajor n q B ldb) n q
        ⟨Or.inr rfl, lgFlip_tri hu, hcj, rfl, rfl, stCol_inj lb, hAB⟩ rfl rfl μ hD)) ?_
      rintro _ ν ⟨h1, h2⟩
      refine ⟨fun _ => ?_, fun h => absurd h (by decide), fun l hl => h2 l (fun h =>
        hl (MatV.tr_owns.2 h))⟩
      rw [hf.flip, ← triMat_flip hu]
      exact h1
    · simp only [reduceCtorEq, if_false] at hq
      subst hq
      simp only [decide_true, if_false, if_true, lgFlipSide,
        Bool.false_eq_true, reduceCtorEq, wp_bind]
      refine wp_lgCol la (wp_lgCol lb ?_)
      refine wp_conseq (tail lb _ _ (z1 _ _ _ _) (hf.left (lgFlip uplo) trans diag alpha
        (stMat .ColMajor q q A lda) (stMat .ColMajor q m B ldb) q m
        ⟨Or.inl rfl, lgFlip_tri hu, hcj, rfl, rfl, stCol_inj lb, hAB⟩ rfl rfl μ hD)) ?_
      rintro _ ν ⟨h1, h2⟩
      refine ⟨fun h => absurd h (by decide), fun _ => ?_, fun l hl => h2 l (fun h =>
        hl (MatV.tr_owns.2 h))⟩
      rw [hf.flip', ← triMat_flip hu]
      exact h1

theorem trmSpec_trmm : TrmSpec (T := T) trmm (fun _ _ _ _ => True)
    (fun p q alpha X B0 B1 => B1 = alpha • (X * B0))
    (fun p q alpha X B0 B1 => B1 = alpha • (B0 * X)) where
  left := by
    rintro uplo trans diag alpha A B p q h rfl rfl μ -
    exact C16_trmm_left alpha h μ
  right := by
    rintro uplo trans diag alpha A B p q h rfl rfl μ -
    exact C16_trmm_right alpha h μ
  flip := by
    intro p q alpha X B0 B1
    rw [← Matrix.transpose_mul, ← Matrix.transpose_smul, Matrix.transpose_inj]
  zero := by intro p q X B0; rw [zero_smul]
  empty := by
    rintro p q alpha X B0 (rfl | rfl)
    · exact funext fun i => i.elim0
    · exact funext fun i => funext fun j => j.elim0
  dtr := fun _ _ _ _ => Iff.rfl

theorem trmSpec_trsm : TrmSpec (T := T) trsm
    (fun diag n A μ => A.m = n ∧ A.n = n ∧ (diag = .NonUnit → ∀ i, i < n → entry μ A i i ≠ 0))
    (fun p q alpha X B0 B1 => X * B1 = alpha • B0)
    (fun p q alpha X B0 B1 => B1 * X = alpha • B0) where
  left := by
    rintro uplo trans diag alpha A B p q h rfl rfl μ ⟨e, -, hd⟩
    exact C17_trsm_left alpha h μ (by rw [e]; exact hd)
  right := by
    rintro uplo trans diag alpha A B p q h rfl rfl μ ⟨e, -, hd⟩
    exact C17_trsm_right alpha h μ (by rw [e]; exact hd)
  flip := by
    intro p q alpha X B0 B1
    rw [← Matrix.transpose_mul, ← Matrix.transpose_smul, Matrix.transpose_inj]
  zero := by intro p q X B0; rw [zero_smul, Matrix.mul_zero]
  empty := by
    rintro p q alpha X B0 (rfl | rfl)
    · exact funext fun i => i.elim0
    · exact funext fun i => funext fun j => j.elim0
  dtr := fun _ _ _ _ => ⟨fun h => ⟨h.2.1, h.1, h.2.2⟩, fun h => ⟨h.2.1, h.1, h.2.2⟩⟩

/-- **C86, trmm.** `B := alpha op(A) B` or `B := alpha B op(A)`, in both layouts. -/
theorem C86_trmm {layout : Layout} {side : Side} {uplo : Uplo} {trans : Op} {diag : Diag}
    {m n q : Nat} (alpha : T)
    {A lda B ldb : Nat} (hs : side = .Left ∨ side = .Right) (hu : uplo = .Upper ∨ uplo = .Lower)
    (ht : trans = .NoTrans ∨ trans = .Trans ∨ trans = .ConjTrans)
    (hq : q = if side = .Left then m else n) (la : q ≤ lda) (lb : minLd layout m n ≤ ldb)
    (hAB : (stMat layout q q A lda).Disj (stMat layout m n B ldb)) (μ : Store Nat T) :
    ∃ ν, lgTrmm layout side uplo trans diag m n alpha A lda B ldb μ = (.ok (), ν) ∧
      (side = .Left → mat m n (entry ν (stMat layout m n B ldb)) = alpha •
        (mat m m (opF trans (triF uplo diag (entry μ (stMat layout q q A lda)))) *
        mat m n (entry μ (stMat layout m n B ldb)))) ∧
      (side = .Right → mat m n (entry ν (stMat layout m n B ldb)) = alpha •
        (mat m n (entry μ (stMat layout m n B ldb)) *
        mat n n (opF trans (triF uplo diag (entry μ (stMat layout q q A lda)))))) ∧
      ∀ l, ¬ (stMat layout m n B ldb).Owns l → ν l = μ l :=
  lgTrm_gen trmSpec_trmm alpha hs hu ht hq la lb hAB μ trivial

/-- **C86, trsm.** `op(A) X = alpha B` or `X op(A) = alpha B`, in both layouts, X what B holds on
exit. -/
theorem C86_trsm {layout : Layout} {side : Side} {uplo : Uplo} {trans : Op} {diag : Diag}
    {m n q : Nat} (alpha : T)
    {A lda B ldb : Nat} (hs : side = .Left ∨ side = .Right) (hu : uplo = .Upper ∨ uplo = .Lower)
    (ht : trans = .NoTrans ∨ trans = .Trans ∨ trans = .ConjTrans)
    (hq : q = if side = .Left then m else n) (la : q ≤ lda) (lb : minLd layout m n ≤ ldb)
    (hAB : (stMat layout q q A lda).Disj (stMat layout m n B ldb)) (μ : Store Nat T)
    (hd : diag = .NonUnit → ∀ i, i < q → entry μ (stMat layout q q A lda) i i ≠ 0) :
    ∃ ν, lgTrsm layout side uplo trans diag m n alpha A lda B ldb μ = (.ok (), ν) ∧
      (side = .Left → mat m m (opF trans (triF uplo diag (entry μ (stMat layout q q A lda)))) *
        mat m n (entry ν (stMat layout m n B ldb)) =
        alpha • mat m n (entry μ (stMat layout m n B ldb))) ∧
      (side = .Right → mat m n (entry ν (stMat layout m n B ldb)) *
        mat n n (opF trans (triF uplo diag (entry μ (stMat layout q q A lda)))) =
        alpha • mat m n (entry μ (stMat layout m n B ldb))) ∧
      ∀ l, ¬ (stMat layout m n B ldb).Owns l → ν l = μ l :=
  lgTrm_gen trmSpec_trsm alpha hs hu ht hq la lb hAB μ ⟨rfl, rfl, hd⟩

end TLA
