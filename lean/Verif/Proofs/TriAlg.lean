import Verif.Proofs.Sub

/-! Algebra of op of a triangle, shared by the triangular routines. -/

namespace TLA
variable {T : Type}

theorem opTri_self [Field T] [StarRing T] (op : Op) (uplo : Uplo) (diag : Diag)
    (a : Nat → Nat → T) (i : Nat) :
    opF op (triF uplo diag a) i i = if diag = .NonUnit then opF op a i i else 1 := by
  cases op <;> cases diag <;> simp [opF, triF]

/-- op of the triangle is upper triangular. -/
def effUp (uplo : Uplo) (op : Op) : Bool :=
  (uplo = .Upper : Bool) == (op = .NoTrans || op = .Conj : Bool)

theorem opTri_ne [Field T] [StarRing T] {op : Op} {uplo : Uplo} {diag : Diag}
    {a : Nat → Nat → T} {i j : Nat} (hu : uplo = .Upper ∨ uplo = .Lower) (h : i ≠ j) :
    opF op (triF uplo diag a) i j =
      if effUp uplo op = true then (if i < j then opF op a i j else 0)
      else (if j < i then opF op a i j else 0) := by
  rcases hu with rfl | rfl <;> cases op <;>
    simp only [opF, triF, effUp, if_neg h, if_neg (Ne.symm h), ite_upper, ite_lower] <;>
    simp <;> split_ifs <;> first | rfl | (exfalso; omega) | (simp; done)

/-- The off-diagonal columns of row `i` of op of the triangle. -/
def offCols (uplo : Uplo) (op : Op) (n i : Nat) : Finset Nat :=
  if effUp uplo op = true then Finset.Ico (i + 1) n else Finset.range i

theorem offCols_UNoTrans (n i : Nat) : offCols .Upper .NoTrans n i = Finset.Ico (i + 1) n := rfl
theorem offCols_UTrans (n i : Nat) : offCols .Upper .Trans n i = Finset.Ico 0 i := Finset.range_eq_Ico i
theorem offCols_UConjTrans (n i : Nat) : offCols .Upper .ConjTrans n i = Finset.Ico 0 i := Finset.range_eq_Ico i
theorem offCols_UConj (n i : Nat) : offCols .Upper .Conj n i = Finset.Ico (i + 1) n := rfl
theorem offCols_LNoTrans (n i : Nat) : offCols .Lower .NoTrans n i = Finset.Ico 0 i := Finset.range_eq_Ico i
theorem offCols_LTrans (n i : Nat) : offCols .Lower .Trans n i = Finset.Ico (i + 1) n := rfl
theorem offCols_LConjTrans (n i : Nat) : offCols .Lower .ConjTrans n i = Finset.Ico (i + 1) n := rfl
theorem offCols_LConj (n i : Nat) : offCols .Lower .Conj n i = Finset.Ico 0 i := Finset.range_eq_Ico i

theorem tri_row_sum [Field T] [StarRing T] {op : Op} {uplo : Uplo} {diag : Diag}
    {a : Nat → Nat → T} {n i : Nat} (hu : uplo = .Upper ∨ uplo = .Lower) (hi : i < n)
    (x : Nat → T) :
    ∑ l ∈ Finset.range n, opF op (triF uplo diag a) i l * x l =
      mulD diag (x i) (opF op a i i) + ∑ l ∈ offCols uplo op n i, opF op a i l * x l := by
  have hself : opF op (triF uplo diag a) i i * x i = mulD diag (x i) (opF op a i i) := by
    rw [opTri_self]; unfold mulD; split_ifs <;> ring
  unfold offCols
  by_cases hE : effUp uplo op = true
  · rw [if_pos hE, sum_upper hi, hself]
    · congr 1
      refine Finset.sum_congr rfl (fun l hl => ?_)
      have := Finset.mem_Ico.1 hl
      rw [opTri_ne hu (by omega), if_pos hE, if_pos (by omega)]
    · intro l hl
      rw [opTri_ne hu (by omega), if_pos hE, if_neg (by omega)]
  · rw [if_neg hE, sum_lower hi, hself, add_comm]
    · congr 1
      refine Finset.sum_congr rfl (fun l hl => ?_)
      have := Finset.mem_range.1 hl
      rw [opTri_ne hu (by omega), if_neg hE, if_pos (by omega)]
    · intro l hl
      rw [opTri_ne hu (by omega), if_neg hE, if_neg (by omega)]

theorem tri_solve [Field T] [StarRing T] {op : Op} {uplo : Uplo} {diag : Diag}
    {a : Nat → Nat → T} {n i : Nat} (hu : uplo = .Upper ∨ uplo = .Lower) (hi : i < n)
    {X : Nat → T} {b : T} (hd : diag = .NonUnit → opF op a i i ≠ 0)
    (hX : X i = divD diag (b - ∑ l ∈ offCols uplo op n i, opF op a i l * X l) (opF op a i i)) :
    ∑ l ∈ Finset.range n, opF op (triF uplo diag a) i l * X l = b := by
  rw [tri_row_sum hu hi, hX]
  unfold divD mulD
  split_ifs with h
  · rw [div_mul_cancel₀ _ (hd h)]; ring
  · ring

/-- Transposing once more. -/
def flipOp : Op → Op
  | .NoTrans => .Trans | .Trans => .NoTrans | .ConjTrans => .Conj | .Conj => .ConjTrans

theorem opF_flip [Star T] (op : Op) (a : Nat → Nat → T) (i j : Nat) :
    opF op a i j = opF (flipOp op) a j i := by cases op <;> rfl

theorem tri_col_sum [Field T] [StarRing T] {op : Op} {uplo : Uplo} {diag : Diag}
    {a : Nat → Nat → T} {n j : Nat} (hu : uplo = .Upper ∨ uplo = .Lower) (hj : j < n)
    (x : Nat → T) :
    ∑ l ∈ Finset.range n, x l * opF op (triF uplo diag a) l j =
      mulD diag (x j) (opF op a j j) + ∑ l ∈ offCols uplo (flipOp op) n j, x l * opF op a l j := by
  have := tri_row_sum (op := flipOp op) (diag := diag) (a := a) hu hj x
  simp only [← opF_flip] at this
  simpa only [mul_comm (x _)] using this

theorem tri_solveR [Field T] [StarRing T] {op : Op} {uplo : Uplo} {diag : Diag}
    {a : Nat → Nat → T} {n j : Nat} (hu : uplo = .Upper ∨ uplo = .Lower) (hj : j < n)
    {X : Nat → T} {b : T} (hd : diag = .NonUnit → opF op a j j ≠ 0)
    (hX : X j = divD diag (b - ∑ l ∈ offCols uplo (flipOp op) n j, X l * opF op a l j)
      (opF op a j j)) :
    ∑ l ∈ Finset.range n, X l * opF op (triF uplo diag a) l j = b := by
  rw [tri_col_sum hu hj, hX]
  unfold divD mulD
  split_ifs with h
  · rw [div_mul_cancel₀ _ (hd h)]; ring
  · ring

theorem opF_ne_zero [Field T] [StarRing T] {op : Op} {a : Nat → Nat → T} {i : Nat}
    (h : a i i ≠ 0) : opF op a i i ≠ 0 := by
  cases op <;> simpa [opF] using h

end TLA
