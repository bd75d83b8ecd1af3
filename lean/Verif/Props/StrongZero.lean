import Verif.Proofs.Congr
import Verif.Props.Level3

/-!
# C06: without `beta` the old contents of the output are ignored

Law-free: `T` only has the operations, so these statements cover floating point with NaN and Inf.
Two runs whose memories differ at most in the output cells that the routine overwrites end in the
same memory.
-/

namespace TLA
set_option linter.unusedSectionVars false
variable {L T : Type} [DecidableEq L]

theorem run_eq {x : M L T Unit} {μ μ' ν ν' : Store L T} (h : x μ = (.ok (), ν))
    (h' : x μ' = (.ok (), ν')) (e : ν = ν') : x μ = x μ' := by rw [h, h', e]

/-- gemv without beta (op(A) with at least one column). -/
theorem C06_gemv [Zero T] [Add T] [Mul T] [Star T] {trans : Op} (alpha : T) {A : MatV L}
    {x y : VecV L} {m n : Nat} (h : GemvOK trans A x y m n) (hn : 0 < n) {μ μ' : Store L T}
    (hag : ∀ l, ¬ y.Owns l → μ l = μ' l) :
    gemv trans alpha A x .strongZero y μ = gemv trans alpha A x .strongZero y μ' := by
  obtain ⟨ν, h1, h2⟩ := wp_unit (wp_gemv (alpha := alpha) (beta := .strongZero) (μ := μ) h)
  obtain ⟨ν', h1', h2'⟩ := wp_unit (wp_gemv (alpha := alpha) (beta := .strongZero) (μ := μ') h)
  by_cases hm : m = 0
  · rw [if_pos (Or.inl hm)] at h2 h2'
    refine run_eq h1 h1' ?_
    rw [h2, h2']
    funext l
    refine hag l ?_
    rintro ⟨i, hi, _⟩
    rw [h.yn, hm] at hi
    omega
  · rw [if_neg (by omega)] at h2 h2'
    refine run_eq h1 h1' (h2.ext h2' (fun i hi => gemvVal_congr ?_ ?_ (Or.inl rfl)) hag)
    · intro l hl
      have hi' : i < m := by rw [← h.yn]; exact hi
      have hA := h.Ay
      have e1 := h.Am
      have e2 := h.An
      cases trans <;> simp at e1 e2 <;> simp only [opF, entry]
      · exact hag _ (hA i l (by omega) (by omega))
      · exact hag _ (hA l i (by omega) (by omega))
      · rw [hag _ (hA l i (by omega) (by omega))]
      · rw [hag _ (hA i l (by omega) (by omega))]
    · intro l hl
      exact hag _ (h.xy l (by rw [h.xn]; exact hl))

example : GemvOK .NoTrans (mkM 0 2 3) (mkV 1 3) (mkV 2 2) 2 3 ∧ 0 < 3 := by
  refine ⟨?_, by omega⟩; constructor <;> adm

/-- gemm without beta. -/
theorem C06_gemm [Zero T] [Add T] [Mul T] [Star T] {transA transB : Op} (alpha : T) {A B C : MatV L}
    {m n k : Nat} (h : GemmOK transA transB A B C m n k) {μ μ' : Store L T}
    (hag : ∀ l, ¬ C.Owns l → μ l = μ' l) :
    gemm transA transB alpha A B .strongZero C μ = gemm transA transB alpha A B .strongZero C μ' := by
  obtain ⟨ν, h1, h2⟩ := wp_unit (wp_gemm (alpha := alpha) (beta := .strongZero) (μ := μ) h)
  obtain ⟨ν', h1', h2'⟩ := wp_unit (wp_gemm (alpha := alpha) (beta := .strongZero) (μ := μ') h)
  refine run_eq h1 h1' (h2.ext h2' (fun i j hi hj => gemmVal_congr h.opA h.opB ?_ ?_ (Or.inl rfl)) hag)
  · intro l hl
    have hi' : i < m := by rw [← h.Cm]; exact hi
    have e1 := h.Am
    have e2 := h.An
    split <;> rename_i e <;> simp only [e, if_true, if_false] at e1 e2
    · exact hag _ (h.AC i l (by omega) (by omega))
    · exact hag _ (h.AC l i (by omega) (by omega))
  · intro l hl
    have hj' : j < n := by rw [← h.Cn]; exact hj
    have e1 := h.Bm
    have e2 := h.Bn
    split <;> rename_i e <;> simp only [e, if_true, if_false] at e1 e2
    · exact hag _ (h.BC l j (by omega) (by omega))
    · exact hag _ (h.BC j l (by omega) (by omega))

/-- hemv without beta. -/
theorem C06_hemv [Zero T] [Add T] [Mul T] [Star T] [ReIm T] {uplo : Uplo} (alpha : T) {A : MatV L}
    {x y : VecV L} {n : Nat} (h : HemvOK uplo A x y n) {μ μ' : Store L T}
    (hag : ∀ l, ¬ y.Owns l → μ l = μ' l) :
    hemv uplo alpha A x .strongZero y μ = hemv uplo alpha A x .strongZero y μ' := by
  obtain ⟨ν, h1, h2⟩ := wp_unit (wp_hemv (alpha := alpha) (beta := .strongZero) (μ := μ) h)
  obtain ⟨ν', h1', h2'⟩ := wp_unit (wp_hemv (alpha := alpha) (beta := .strongZero) (μ := μ') h)
  refine run_eq h1 h1' (h2.ext h2' (fun i hi => hemvVal_congr h.tri (by rw [← h.yn]; exact hi) ?_ ?_ rfl) hag)
  · intro i j hi hj _
    exact hag _ (h.Ay i j (by rw [h.Am]; exact hi) (by rw [h.An]; exact hj))
  · intro l hl
    exact hag _ (h.xy l (by rw [h.xn]; exact hl))

/-- symv without beta. -/
theorem C06_symv [Zero T] [Add T] [Mul T] {uplo : Uplo} (alpha : T) {A : MatV L}
    {x y : VecV L} {n : Nat} (h : HemvOK uplo A x y n) {μ μ' : Store L T}
    (hag : ∀ l, ¬ y.Owns l → μ l = μ' l) :
    symv uplo alpha A x .strongZero y μ = symv uplo alpha A x .strongZero y μ' := by
  obtain ⟨ν, h1, h2⟩ := wp_unit (wp_symv (alpha := alpha) (beta := .strongZero) (μ := μ) h)
  obtain ⟨ν', h1', h2'⟩ := wp_unit (wp_symv (alpha := alpha) (beta := .strongZero) (μ := μ') h)
  refine run_eq h1 h1' (h2.ext h2' (fun i hi => hemvVal_congr h.tri (by rw [← h.yn]; exact hi) ?_ ?_ rfl) hag)
  · intro i j hi hj _
    exact hag _ (h.Ay i j (by rw [h.Am]; exact hi) (by rw [h.An]; exact hj))
  · intro l hl
    exact hag _ (h.xy l (by rw [h.xn]; exact hl))

/-- hemm without beta. -/
theorem C06_hemm [Zero T] [Add T] [Mul T] [Star T] [ReIm T] {side : Side} {uplo : Uplo} (alpha : T)
    {A B C : MatV L} (h : HemmOK side uplo A B C) {μ μ' : Store L T}
    (hag : ∀ l, ¬ C.Owns l → μ l = μ' l) :
    hemm side uplo alpha A B .strongZero C μ = hemm side uplo alpha A B .strongZero C μ' := by
  obtain ⟨ν, h1, h2⟩ := wp_unit (wp_hemm (alpha := alpha) (beta := .strongZero) (μ := μ) h)
  obtain ⟨ν', h1', h2'⟩ := wp_unit (wp_hemm (alpha := alpha) (beta := .strongZero) (μ := μ') h)
  refine run_eq h1 h1' (h2.ext h2' (fun i j hi hj =>
    hemmVal_congr h.hside h.AB (by rw [← h.Cm]; exact hi) (by rw [← h.Cn]; exact hj) ?_ ?_ (Or.inl rfl)) hag)
  · intro i j hi hj _
    exact hag _ (h.AC i j hi (by rw [← h.Am]; exact hj))
  · intro i j hi hj
    exact hag _ (h.BC i j hi hj)

/-- symm without beta. -/
theorem C06_symm [Zero T] [Add T] [Mul T] {side : Side} {uplo : Uplo} (alpha : T)
    {A B C : MatV L} (h : HemmOK side uplo A B C) {μ μ' : Store L T}
    (hag : ∀ l, ¬ C.Owns l → μ l = μ' l) :
    symm side uplo alpha A B .strongZero C μ = symm side uplo alpha A B .strongZero C μ' := by
  obtain ⟨ν, h1, h2⟩ := wp_unit (wp_symm (alpha := alpha) (beta := .strongZero) (μ := μ) h)
  obtain ⟨ν', h1', h2'⟩ := wp_unit (wp_symm (alpha := alpha) (beta := .strongZero) (μ := μ') h)
  refine run_eq h1 h1' (h2.ext h2' (fun i j hi hj =>
    hemmVal_congr h.hside h.AB (by rw [← h.Cm]; exact hi) (by rw [← h.Cn]; exact hj) ?_ ?_ (Or.inl rfl)) hag)
  · intro i j hi hj _
    exact hag _ (h.AC i j hi (by rw [← h.Am]; exact hj))
  · intro i j hi hj
    exact hag _ (h.BC i j hi hj)

/-- herk without beta: the old selected triangle is ignored (the rest is kept). -/
theorem C06_herk [Zero T] [Add T] [Mul T] [Sub T] [Star T] [ReIm T] {uplo : Uplo} {trans : Op} (alpha : T)
    {A C : MatV L} {n k : Nat} (h : RankOK .ConjTrans uplo trans A A C n k) {μ μ' : Store L T}
    (hag : ∀ l, (∀ i j, i < C.m → j < C.n → inTri uplo i j → C.cell i j ≠ l) → μ l = μ' l) :
    herk uplo trans alpha A .strongZero C μ = herk uplo trans alpha A .strongZero C μ' := by
  obtain ⟨ν, h1, h2⟩ := wp_unit (wp_herk (alpha := alpha) (beta := .strongZero) (μ := μ) h)
  obtain ⟨ν', h1', h2'⟩ := wp_unit (wp_herk (alpha := alpha) (beta := .strongZero) (μ := μ') h)
  have hC : ∀ l, ¬ C.Owns l → μ l = μ' l := fun l hl =>
    hag l (fun i j hi hj _ e => hl ⟨i, j, hi, hj, e⟩)
  have hA : ∀ i l, i < n → l < k → (if trans = .NoTrans then entry μ A i l = entry μ' A i l
      else entry μ A l i = entry μ' A l i) := by
    intro i l hi hl
    have e1 := h.An
    have e2 := h.Ak
    split <;> rename_i e <;> simp only [e, if_true, if_false] at e1 e2
    · exact hC _ (h.AC i l (by omega) (by omega))
    · exact hC _ (h.AC l i (by omega) (by omega))
  refine run_eq h1 h1' (h2.ext h2' (fun i j hi hj => ?_) hC)
  refine rankRes_congr (n := n) h.tri (by rw [← h.Cm]; exact hi) (by rw [← h.Cn]; exact hj) ?_ ?_
  · intro i j hi hj _
    exact herkVal_congr h.hop hi hj hA (Or.inl rfl)
  · intro ht
    refine hag _ (fun i' j' hi' hj' ht' e => ?_)
    obtain ⟨rfl, rfl⟩ := h.inj _ _ _ _ hi' hj' hi hj e
    exact ht ht'

/-- syrk without beta: the old selected triangle is ignored (the rest is kept). -/
theorem C06_syrk [Zero T] [Add T] [Mul T] {uplo : Uplo} {trans : Op} (alpha : T)
    {A C : MatV L} {n k : Nat} (h : RankOK .Trans uplo trans A A C n k) {μ μ' : Store L T}
    (hag : ∀ l, (∀ i j, i < C.m → j < C.n → inTri uplo i j → C.cell i j ≠ l) → μ l = μ' l) :
    syrk uplo trans alpha A .strongZero C μ = syrk uplo trans alpha A .strongZero C μ' := by
  obtain ⟨ν, h1, h2⟩ := wp_unit (wp_syrk (alpha := alpha) (beta := .strongZero) (μ := μ) h)
  obtain ⟨ν', h1', h2'⟩ := wp_unit (wp_syrk (alpha := alpha) (beta := .strongZero) (μ := μ') h)
  have hC : ∀ l, ¬ C.Owns l → μ l = μ' l := fun l hl =>
    hag l (fun i j hi hj _ e => hl ⟨i, j, hi, hj, e⟩)
  have hA : ∀ i l, i < n → l < k → (if trans = .NoTrans then entry μ A i l = entry μ' A i l
      else entry μ A l i = entry μ' A l i) := by
    intro i l hi hl
    have e1 := h.An
    have e2 := h.Ak
    split <;> rename_i e <;> simp only [e, if_true, if_false] at e1 e2
    · exact hC _ (h.AC i l (by omega) (by omega))
    · exact hC _ (h.AC l i (by omega) (by omega))
  refine run_eq h1 h1' (h2.ext h2' (fun i j hi hj => ?_) hC)
  refine rankRes_congr (n := n) h.tri (by rw [← h.Cm]; exact hi) (by rw [← h.Cn]; exact hj) ?_ ?_
  · intro i j hi hj _
    exact syrkVal_congr h.hop hi hj hA (Or.inl rfl)
  · intro ht
    refine hag _ (fun i' j' hi' hj' ht' e => ?_)
    obtain ⟨rfl, rfl⟩ := h.inj _ _ _ _ hi' hj' hi hj e
    exact ht ht'

/-- her2k without beta: the old selected triangle is ignored (the rest is kept). -/
theorem C06_her2k [Zero T] [Add T] [Mul T] [Sub T] [Star T] [ReIm T] [OfNat T 2] {uplo : Uplo} {trans : Op} (alpha : T)
    {A B C : MatV L} {n k : Nat} (h : RankOK .ConjTrans uplo trans A B C n k) {μ μ' : Store L T}
    (hag : ∀ l, (∀ i j, i < C.m → j < C.n → inTri uplo i j → C.cell i j ≠ l) → μ l = μ' l) :
    her2k uplo trans alpha A B .strongZero C μ = her2k uplo trans alpha A B .strongZero C μ' := by
  obtain ⟨ν, h1, h2⟩ := wp_unit (wp_her2k (alpha := alpha) (beta := .strongZero) (μ := μ) h)
  obtain ⟨ν', h1', h2'⟩ := wp_unit (wp_her2k (alpha := alpha) (beta := .strongZero) (μ := μ') h)
  have hC : ∀ l, ¬ C.Owns l → μ l = μ' l := fun l hl =>
    hag l (fun i j hi hj _ e => hl ⟨i, j, hi, hj, e⟩)
  have hA : ∀ i l, i < n → l < k → (if trans = .NoTrans then entry μ A i l = entry μ' A i l
      else entry μ A l i = entry μ' A l i) := by
    intro i l hi hl
    have e1 := h.An
    have e2 := h.Ak
    split <;> rename_i e <;> simp only [e, if_true, if_false] at e1 e2
    · exact hC _ (h.AC i l (by omega) (by omega))
    · exact hC _ (h.AC l i (by omega) (by omega))
  have hB : ∀ i l, i < n → l < k → (if trans = .NoTrans then entry μ B i l = entry μ' B i l
      else entry μ B l i = entry μ' B l i) := by
    intro i l hi hl
    have e1 := h.An
    have e2 := h.Ak
    have e3 := h.Bm
    have e4 := h.Bn
    split <;> rename_i e <;> simp only [e, if_true, if_false] at e1 e2
    · exact hC _ (h.BC i l (by omega) (by omega))
    · exact hC _ (h.BC l i (by omega) (by omega))
  refine run_eq h1 h1' (h2.ext h2' (fun i j hi hj => ?_) hC)
  refine rankRes_congr (n := n) h.tri (by rw [← h.Cm]; exact hi) (by rw [← h.Cn]; exact hj) ?_ ?_
  · intro i j hi hj _
    exact her2kVal_congr h.hop hi hj hA hB (Or.inl rfl)
  · intro ht
    refine hag _ (fun i' j' hi' hj' ht' e => ?_)
    obtain ⟨rfl, rfl⟩ := h.inj _ _ _ _ hi' hj' hi hj e
    exact ht ht'

/-- syr2k without beta: the old selected triangle is ignored (the rest is kept). -/
theorem C06_syr2k [Zero T] [Add T] [Mul T] {uplo : Uplo} {trans : Op} (alpha : T)
    {A B C : MatV L} {n k : Nat} (h : RankOK .Trans uplo trans A B C n k) {μ μ' : Store L T}
    (hag : ∀ l, (∀ i j, i < C.m → j < C.n → inTri uplo i j → C.cell i j ≠ l) → μ l = μ' l) :
    syr2k uplo trans alpha A B .strongZero C μ = syr2k uplo trans alpha A B .strongZero C μ' := by
  obtain ⟨ν, h1, h2⟩ := wp_unit (wp_syr2k (alpha := alpha) (beta := .strongZero) (μ := μ) h)
  obtain ⟨ν', h1', h2'⟩ := wp_unit (wp_syr2k (alpha := alpha) (beta := .strongZero) (μ := μ') h)
  have hC : ∀ l, ¬ C.Owns l → μ l = μ' l := fun l hl =>
    hag l (fun i j hi hj _ e => hl ⟨i, j, hi, hj, e⟩)
  have hA : ∀ i l, i < n → l < k → (if trans = .NoTrans then entry μ A i l = entry μ' A i l
      else entry μ A l i = entry μ' A l i) := by
    intro i l hi hl
    have e1 := h.An
    have e2 := h.Ak
    split <;> rename_i e <;> simp only [e, if_true, if_false] at e1 e2
    · exact hC _ (h.AC i l (by omega) (by omega))
    · exact hC _ (h.AC l i (by omega) (by omega))
  have hB : ∀ i l, i < n → l < k → (if trans = .NoTrans then entry μ B i l = entry μ' B i l
      else entry μ B l i = entry μ' B l i) := by
    intro i l hi hl
    have e1 := h.An
    have e2 := h.Ak
    have e3 := h.Bm
    have e4 := h.Bn
    split <;> rename_i e <;> simp only [e, if_true, if_false] at e1 e2
    · exact hC _ (h.BC i l (by omega) (by omega))
    · exact hC _ (h.BC l i (by omega) (by omega))
  refine run_eq h1 h1' (h2.ext h2' (fun i j hi hj => ?_) hC)
  refine rankRes_congr (n := n) h.tri (by rw [← h.Cm]; exact hi) (by rw [← h.Cn]; exact hj) ?_ ?_
  · intro i j hi hj _
    exact syr2kVal_congr h.hop hi hj hA hB (Or.inl rfl)
  · intro ht
    refine hag _ (fun i' j' hi' hj' ht' e => ?_)
    obtain ⟨rfl, rfl⟩ := h.inj _ _ _ _ hi' hj' hi hj e
    exact ht ht'

/-! In exact arithmetic StrongZero is `beta = 0`. -/

theorem C06_gemv_zero [Field T] [StarRing T] {trans : Op} (alpha : T) {A : MatV L}
    {x y : VecV L} {m n : Nat} (h : GemvOK trans A x y m n) (μ : Store L T) :
    gemv trans alpha A x .strongZero y μ = gemv trans alpha A x (.val 0) y μ := by
  obtain ⟨ν, h1, h2⟩ := wp_unit (wp_gemv (alpha := alpha) (beta := .strongZero) (μ := μ) h)
  obtain ⟨ν', h1', h2'⟩ := wp_unit (wp_gemv (alpha := alpha) (beta := .val 0) (μ := μ) h)
  rw [h1, h1']
  congr 1
  split at h2 <;> rename_i c
  · rw [if_pos c] at h2'; rw [h2, h2']
  · rw [if_neg c] at h2'
    exact h2.ext h2' (fun i hi => by rw [gemvVal_exact, gemvVal_exact]; rfl) (fun _ _ => rfl)

theorem C06_gemm_zero [Field T] [StarRing T] {transA transB : Op} (alpha : T) {A B C : MatV L}
    {m n k : Nat} (h : GemmOK transA transB A B C m n k) (μ : Store L T) :
    gemm transA transB alpha A B .strongZero C μ = gemm transA transB alpha A B (.val 0) C μ := by
  obtain ⟨ν, h1, h2⟩ := wp_unit (wp_gemm (alpha := alpha) (beta := .strongZero) (μ := μ) h)
  obtain ⟨ν', h1', h2'⟩ := wp_unit (wp_gemm (alpha := alpha) (beta := .val 0) (μ := μ) h)
  rw [h1, h1']
  congr 1
  exact h2.ext h2' (fun i j hi hj => by
    rw [gemmVal_exact _ _ _ _ _ _ _ _ _ _ h.opB, gemmVal_exact _ _ _ _ _ _ _ _ _ _ h.opB]; rfl)
    (fun _ _ => rfl)

theorem C06_hemv_zero [Field T] [StarRing T] [ReIm T] {uplo : Uplo} (alpha : T) {A : MatV L}
    {x y : VecV L} {n : Nat} (h : HemvOK uplo A x y n) (μ : Store L T) :
    hemv uplo alpha A x .strongZero y μ = hemv uplo alpha A x (.val 0) y μ := by
  obtain ⟨ν, h1, h2⟩ := wp_unit (wp_hemv (alpha := alpha) (beta := .strongZero) (μ := μ) h)
  obtain ⟨ν', h1', h2'⟩ := wp_unit (wp_hemv (alpha := alpha) (beta := .val 0) (μ := μ) h)
  rw [h1, h1']
  congr 1
  exact h2.ext h2' (fun i hi => hemvVal_congr h.tri (by rw [← h.yn]; exact hi)
    (fun _ _ _ _ _ => rfl) (fun _ _ => rfl) (by simp [Coef.mulAssign])) (fun _ _ => rfl)

theorem C06_symv_zero [Field T] {uplo : Uplo} (alpha : T) {A : MatV L}
    {x y : VecV L} {n : Nat} (h : HemvOK uplo A x y n) (μ : Store L T) :
    symv uplo alpha A x .strongZero y μ = symv uplo alpha A x (.val 0) y μ := by
  obtain ⟨ν, h1, h2⟩ := wp_unit (wp_symv (alpha := alpha) (beta := .strongZero) (μ := μ) h)
  obtain ⟨ν', h1', h2'⟩ := wp_unit (wp_symv (alpha := alpha) (beta := .val 0) (μ := μ) h)
  rw [h1, h1']
  congr 1
  exact h2.ext h2' (fun i hi => hemvVal_congr h.tri (by rw [← h.yn]; exact hi)
    (fun _ _ _ _ _ => rfl) (fun _ _ => rfl) (by simp [Coef.mulAssign])) (fun _ _ => rfl)

theorem C06_hemm_zero [Field T] [StarRing T] [ReIm T] {side : Side} {uplo : Uplo} (alpha : T)
    {A B C : MatV L} (h : HemmOK side uplo A B C) (μ : Store L T) :
    hemm side uplo alpha A B .strongZero C μ = hemm side uplo alpha A B (.val 0) C μ := by
  obtain ⟨ν, h1, h2⟩ := wp_unit (wp_hemm (alpha := alpha) (beta := .strongZero) (μ := μ) h)
  obtain ⟨ν', h1', h2'⟩ := wp_unit (wp_hemm (alpha := alpha) (beta := .val 0) (μ := μ) h)
  rw [h1, h1']
  congr 1
  refine h2.ext h2' (fun i j hi hj => ?_) (fun _ _ => rfl)
  have hk : (if side = .Left then i else j) < A.m := by
    have hAB := h.AB
    have := h.Cm
    have := h.Cn
    rw [hAB]
    split <;> omega
  rw [hemmVal_exact _ _ _ _ _ _ _ h.hside hk, hemmVal_exact _ _ _ _ _ _ _ h.hside hk]
  rfl

theorem C06_symm_zero [Field T] {side : Side} {uplo : Uplo} (alpha : T)
    {A B C : MatV L} (h : HemmOK side uplo A B C) (μ : Store L T) :
    symm side uplo alpha A B .strongZero C μ = symm side uplo alpha A B (.val 0) C μ := by
  obtain ⟨ν, h1, h2⟩ := wp_unit (wp_symm (alpha := alpha) (beta := .strongZero) (μ := μ) h)
  obtain ⟨ν', h1', h2'⟩ := wp_unit (wp_symm (alpha := alpha) (beta := .val 0) (μ := μ) h)
  rw [h1, h1']
  congr 1
  refine h2.ext h2' (fun i j hi hj => ?_) (fun _ _ => rfl)
  have hk : (if side = .Left then i else j) < A.m := by
    have hAB := h.AB
    have := h.Cm
    have := h.Cn
    rw [hAB]
    split <;> omega
  rw [hemmVal_exact _ _ _ _ _ _ _ h.hside hk, hemmVal_exact _ _ _ _ _ _ _ h.hside hk]
  rfl

theorem C06_herk_zero [Field T] [StarRing T] [ReIm T] {uplo : Uplo} {trans : Op} (alpha : T)
    {A C : MatV L} {n k : Nat} (h : RankOK .ConjTrans uplo trans A A C n k) (μ : Store L T) :
    herk uplo trans alpha A .strongZero C μ = herk uplo trans alpha A (.val 0) C μ := by
  obtain ⟨ν, h1, h2⟩ := wp_unit (wp_herk (alpha := alpha) (beta := .strongZero) (μ := μ) h)
  obtain ⟨ν', h1', h2'⟩ := wp_unit (wp_herk (alpha := alpha) (beta := .val 0) (μ := μ) h)
  rw [h1, h1']
  congr 1
  refine h2.ext h2' (fun i j hi hj => ?_) (fun _ _ => rfl)
  refine rankRes_congr (n := n) h.tri (by rw [← h.Cm]; exact hi) (by rw [← h.Cn]; exact hj) ?_ (fun _ => rfl)
  intro i j hi hj _
  rcases h.hop with rfl | rfl <;> simp [herkVal, Coef.mulAssign, Coef.mulVal, Coef.addMul]

theorem C06_syrk_zero [Field T] [StarRing T] {uplo : Uplo} {trans : Op} (alpha : T)
    {A C : MatV L} {n k : Nat} (h : RankOK .Trans uplo trans A A C n k) (μ : Store L T) :
    syrk uplo trans alpha A .strongZero C μ = syrk uplo trans alpha A (.val 0) C μ := by
  obtain ⟨ν, h1, h2⟩ := wp_unit (wp_syrk (alpha := alpha) (beta := .strongZero) (μ := μ) h)
  obtain ⟨ν', h1', h2'⟩ := wp_unit (wp_syrk (alpha := alpha) (beta := .val 0) (μ := μ) h)
  rw [h1, h1']
  congr 1
  refine h2.ext h2' (fun i j hi hj => ?_) (fun _ _ => rfl)
  refine rankRes_congr (n := n) h.tri (by rw [← h.Cm]; exact hi) (by rw [← h.Cn]; exact hj) ?_ (fun _ => rfl)
  intro i j hi hj _
  rcases h.hop with rfl | rfl <;> simp [syrkVal, Coef.mulAssign, Coef.mulVal, Coef.addMul]

theorem C06_her2k_zero [Field T] [StarRing T] [ReIm T] {uplo : Uplo} {trans : Op} (alpha : T)
    {A B C : MatV L} {n k : Nat} (h : RankOK .ConjTrans uplo trans A B C n k) (μ : Store L T) :
    her2k uplo trans alpha A B .strongZero C μ = her2k uplo trans alpha A B (.val 0) C μ := by
  obtain ⟨ν, h1, h2⟩ := wp_unit (wp_her2k (alpha := alpha) (beta := .strongZero) (μ := μ) h)
  obtain ⟨ν', h1', h2'⟩ := wp_unit (wp_her2k (alpha := alpha) (beta := .val 0) (μ := μ) h)
  rw [h1, h1']
  congr 1
  refine h2.ext h2' (fun i j hi hj => ?_) (fun _ _ => rfl)
  refine rankRes_congr (n := n) h.tri (by rw [← h.Cm]; exact hi) (by rw [← h.Cn]; exact hj) ?_ (fun _ => rfl)
  intro i j hi hj _
  rcases h.hop with rfl | rfl <;> simp [her2kVal, Coef.mulAssign, Coef.mulVal, Coef.addMul]

theorem C06_syr2k_zero [Field T] [StarRing T] {uplo : Uplo} {trans : Op} (alpha : T)
    {A B C : MatV L} {n k : Nat} (h : RankOK .Trans uplo trans A B C n k) (μ : Store L T) :
    syr2k uplo trans alpha A B .strongZero C μ = syr2k uplo trans alpha A B (.val 0) C μ := by
  obtain ⟨ν, h1, h2⟩ := wp_unit (wp_syr2k (alpha := alpha) (beta := .strongZero) (μ := μ) h)
  obtain ⟨ν', h1', h2'⟩ := wp_unit (wp_syr2k (alpha := alpha) (beta := .val 0) (μ := μ) h)
  rw [h1, h1']
  congr 1
  refine h2.ext h2' (fun i j hi hj => ?_) (fun _ _ => rfl)
  refine rankRes_congr (n := n) h.tri (by rw [← h.Cm]; exact hi) (by rw [← h.Cn]; exact hj) ?_ (fun _ => rfl)
  intro i j hi hj _
  rcases h.hop with rfl | rfl <;> simp [syr2kVal, Coef.mulAssign, Coef.mulVal, Coef.addMul]

end TLA
