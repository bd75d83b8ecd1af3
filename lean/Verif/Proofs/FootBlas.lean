import Verif.Proofs.Foot

/-!
# Footprints of the BLAS models
-/

set_option linter.unusedTactic false
set_option linter.unusedVariables false
set_option linter.unusedSectionVars false

namespace TLA

variable {L T : Type} [DecidableEq L] {R W : L → Prop}

/-! ### Level 1 -/

theorem foot_copy {x y : VecV L} (hx : CovV R x) (hy : CovV W y) :
    Foot R W (copy x y : M L T Unit) := by
  unfold copy; foot

theorem foot_swap {x y : VecV L} (hx : CovV R x) (hy : CovV R y) (hx' : CovV W x)
    (hy' : CovV W y) : Foot R W (swap x y : M L T Unit) := by
  unfold swap; foot

theorem foot_conjugate [Star T] {x : VecV L} (hx : CovV R x) (hx' : CovV W x) :
    Foot R W (conjugate x : M L T Unit) := by
  unfold conjugate; foot

theorem foot_scal [Mul T] {alpha : T} {x : VecV L} (hx : CovV R x) (hx' : CovV W x) :
    Foot R W (scal alpha x) := by
  unfold scal; foot

theorem foot_axpy [Add T] [Mul T] {alpha : T} {x y : VecV L} (hx : CovV R x) (hy : CovV R y)
    (hy' : CovV W y) : Foot R W (axpy alpha x y) := by
  unfold axpy; foot

theorem foot_dot [Zero T] [Add T] [Mul T] [Star T] {x y : VecV L} (hx : CovV R x)
    (hy : CovV R y) : Foot R W (dot x y : M L T T) := by
  unfold dot; foot

theorem foot_dotu [Zero T] [Add T] [Mul T] {x y : VecV L} (hx : CovV R x)
    (hy : CovV R y) : Foot R W (dotu x y : M L T T) := by
  unfold dotu; foot

theorem foot_asum {S : Type} [Zero S] [Add S] {abs1 : T → S} {x : VecV L} (hx : CovV R x) :
    Foot R W (asum abs1 x) := by
  unfold asum; foot

theorem foot_rot [Zero T] [One T] [Add T] [Mul T] [Sub T] [Star T] [DecidableEq T]
    {x y : VecV L} {c s : T} (hx : CovV R x) (hy : CovV R y) (hx' : CovV W x)
    (hy' : CovV W y) : Foot R W (rot x y c s) := by
  unfold rot; foot

theorem foot_rotm [Zero T] [One T] [Add T] [Mul T] [Sub T] (flag : ℤ)
    {x y : VecV L} {h : ℕ → T} (hx : CovV R x) (hy : CovV R y) (hx' : CovV W x)
    (hy' : CovV W y) : Foot R W (rotm flag x y h) := by
  unfold rotm; foot

/-! ### Level 2 -/

theorem foot_gemv [Zero T] [Add T] [Mul T] [Star T] {trans : Op} {alpha : T} {A : MatV L}
    {x : VecV L} {beta : Coef T} {y : VecV L} (hA : CovM R A) (hx : CovV R x) (hy : CovV R y)
    (hy' : CovV W y) : Foot R W (gemv trans alpha A x beta y) := by
  unfold gemv scaleVec gemvN gemvT; foot

theorem foot_ger [Add T] [Mul T] [Star T] {alpha : T} {x y : VecV L} {A : MatV L}
    (hA : CovM R A) (hA' : CovM W A) (hx : CovV R x) (hy : CovV R y) :
    Foot R W (ger alpha x y A) := by
  unfold ger gerLoop; foot

theorem foot_geru [Add T] [Mul T] {alpha : T} {x y : VecV L} {A : MatV L}
    (hA : CovM R A) (hA' : CovM W A) (hx : CovV R x) (hy : CovV R y) :
    Foot R W (geru alpha x y A) := by
  unfold geru gerLoop; foot

/-- Case on a triangular `uplo`; the other values are rejected by the first check. -/
macro "fcases" : tactic => `(tactic| (
  cases ‹Uplo› <;> first
    | (refine Foot.check_bind (fun h => ?_); exact absurd h (by decide))
    | simp only [reduceCtorEq, reduceIte, ne_eq, not_true, not_false_eq_true]))

theorem foot_her [Add T] [Mul T] [Sub T] [Star T] [ReIm T] {uplo : Uplo} {alpha : T}
    {x : VecV L} {A : MatV L} (hA : CovT R uplo .NonUnit A) (hA' : CovT W uplo .NonUnit A)
    (hx : CovV R x) : Foot R W (her uplo alpha x A) := by
  unfold her; fcases <;> foot

theorem foot_her2 [Add T] [Mul T] [Sub T] [Star T] [ReIm T] {uplo : Uplo} {alpha : T}
    {x y : VecV L} {A : MatV L} (hA : CovT R uplo .NonUnit A) (hA' : CovT W uplo .NonUnit A)
    (hx : CovV R x) (hy : CovV R y) : Foot R W (her2 uplo alpha x y A) := by
  unfold her2; fcases <;> foot

theorem foot_syr [Add T] [Mul T] {uplo : Uplo} {alpha : T}
    {x : VecV L} {A : MatV L} (hA : CovT R uplo .NonUnit A) (hA' : CovT W uplo .NonUnit A)
    (hx : CovV R x) : Foot R W (syr uplo alpha x A) := by
  unfold syr; fcases <;> foot

theorem foot_syr2 [Add T] [Mul T] {uplo : Uplo} {alpha : T}
    {x y : VecV L} {A : MatV L} (hA : CovT R uplo .NonUnit A) (hA' : CovT W uplo .NonUnit A)
    (hx : CovV R x) (hy : CovV R y) : Foot R W (syr2 uplo alpha x y A) := by
  unfold syr2; fcases <;> foot

theorem foot_hemv [Zero T] [Add T] [Mul T] [Star T] [ReIm T] {uplo : Uplo} {alpha : T}
    {A : MatV L} {x : VecV L} {beta : Coef T} {y : VecV L} (hA : CovT R uplo .NonUnit A)
    (hx : CovV R x) (hy : CovV R y) (hy' : CovV W y) :
    Foot R W (hemv uplo alpha A x beta y) := by
  unfold hemv scaleVec hemvLoop; fcases <;> foot

theorem foot_symv [Zero T] [Add T] [Mul T] {uplo : Uplo} {alpha : T}
    {A : MatV L} {x : VecV L} {beta : Coef T} {y : VecV L} (hA : CovT R uplo .NonUnit A)
    (hx : CovV R x) (hy : CovV R y) (hy' : CovV W y) :
    Foot R W (symv uplo alpha A x beta y) := by
  unfold symv scaleVec hemvLoop; fcases <;> foot

theorem foot_trmv [Add T] [Mul T] [Star T] {uplo : Uplo} {trans : Op} {diag : Diag}
    {A : MatV L} {x : VecV L} (hA : CovT R uplo diag A) (hx : CovV R x) (hx' : CovV W x) :
    Foot R W (trmv uplo trans diag A x : M L T Unit) := by
  unfold trmv trmvN trmvT; fcases <;> foot

theorem foot_trsv [Mul T] [Sub T] [Div T] [Star T] {uplo : Uplo} {trans : Op} {diag : Diag}
    {A : MatV L} {x : VecV L} (hA : CovT R uplo diag A) (hx : CovV R x) (hx' : CovV W x) :
    Foot R W (trsv uplo trans diag A x : M L T Unit) := by
  unfold trsv trsvN trsvT; fcases <;> foot

/-! ### Level 3 -/

theorem foot_opGet [Star T] {op : Op} {B : MatV L} {l j : Nat} (hB : CovM R B) :
    Foot R W (opGet op B l j : M L T T) := by
  unfold opGet; foot

theorem foot_gemm [Zero T] [Add T] [Mul T] [Star T] {transA transB : Op} {alpha : T}
    {A B : MatV L} {beta : Coef T} {C : MatV L} (hA : CovM R A) (hB : CovM R B) (hC : CovM R C)
    (hC' : CovM W C) : Foot R W (gemm transA transB alpha A B beta C) := by
  unfold gemm gemmN gemmT opGet; foot

theorem foot_hemmChecks {side : Side} {uplo : Uplo} {A B C : MatV L} :
    Foot R W (hemmChecks side uplo A B C : M L T Unit) := by
  unfold hemmChecks; foot

/-- `General` reads only the upper triangle in hemm and symm. -/
theorem CovT.gen {P : L → Prop} {A : MatV L} (h : CovT P .General .NonUnit A) (uplo : Uplo) :
    CovT P uplo .NonUnit A := fun i j hi hj _ hd => h i j hi hj trivial hd

theorem foot_hemmL [Zero T] [Add T] [Mul T] {f g : T → T} {uplo : Uplo} {alpha : T}
    {A B : MatV L} {beta : Coef T} {C : MatV L} {m n : Nat}
    (hA : CovT R (if uplo = .Lower then .Lower else .Upper) .NonUnit A)
    (hB : CovM R B) (hC : CovM R C) (hC' : CovM W C) :
    Foot R W (hemmL f g uplo alpha A B beta C m n) := by
  unfold hemmL
  by_cases hu : uplo = .Lower
  · simp only [hu, reduceIte, ne_eq, not_true] at hA ⊢; foot
  · simp only [hu, reduceIte, ne_eq, not_false_eq_true] at hA ⊢; foot

theorem foot_hemmR [Add T] [Mul T] {f g : T → T} {uplo : Uplo} {alpha : T}
    {A B : MatV L} {beta : Coef T} {C : MatV L} {m n : Nat}
    (hA : CovT R (if uplo = .Lower then .Lower else .Upper) .NonUnit A)
    (hB : CovM R B) (hC : CovM R C) (hC' : CovM W C) :
    Foot R W (hemmR f g uplo alpha A B beta C m n) := by
  unfold hemmR
  by_cases hu : uplo = .Lower
  · simp only [hu, reduceIte, ne_eq, not_true] at hA ⊢; foot
  · simp only [hu, reduceIte, ne_eq, not_false_eq_true] at hA ⊢; foot

theorem foot_hemm [Zero T] [Add T] [Mul T] [Star T] [ReIm T] {side : Side} {uplo : Uplo}
    {alpha : T} {A B : MatV L} {beta : Coef T} {C : MatV L}
    (hA : CovT R (if uplo = .Lower then .Lower else .Upper) .NonUnit A)
    (hB : CovM R B) (hC : CovM R C) (hC' : CovM W C) :
    Foot R W (hemm side uplo alpha A B beta C) := by
  unfold hemm
  refine Foot.bind foot_hemmChecks (fun _ => Foot.ite (fun _ => ?_) (fun _ => ?_))
  · exact foot_hemmL hA hB hC hC'
  · exact foot_hemmR hA hB hC hC'

theorem foot_symm [Zero T] [Add T] [Mul T] {side : Side} {uplo : Uplo}
    {alpha : T} {A B : MatV L} {beta : Coef T} {C : MatV L}
    (hA : CovT R (if uplo = .Lower then .Lower else .Upper) .NonUnit A)
    (hB : CovM R B) (hC : CovM R C) (hC' : CovM W C) :
    Foot R W (symm side uplo alpha A B beta C) := by
  unfold symm
  refine Foot.bind foot_hemmChecks (fun _ => Foot.ite (fun _ => ?_) (fun _ => ?_))
  · exact foot_hemmL hA hB hC hC'
  · exact foot_hemmR hA hB hC hC'

theorem foot_mirror {f : T → T} {C : MatV L} {n : Nat} (hC : CovM R C) (hC' : CovM W C) :
    Foot R W (mirror f C n) := by
  unfold mirror; foot

/-- Case on `uplo` in the rank-k routines: reads and writes. -/
theorem foot_rank {A C : MatV L} {uplo : Uplo} {x : M L T Unit} {x' : M L T Unit}
    (hC : CovT R uplo .NonUnit C) (hC' : CovT W uplo .NonUnit C)
    (hU : uplo ≠ .Lower → CovT R .Upper .NonUnit C → CovT W .Upper .NonUnit C → Foot R W x)
    (hL : uplo = .Lower → CovT R .Lower .NonUnit C → CovT W .Lower .NonUnit C → Foot R W x')
    (ht : uplo = .Upper ∨ uplo = .Lower ∨ uplo = .General) :
    Foot R W (if uplo ≠ .Lower then x else x') := by
  rcases ht with rfl | rfl | rfl
  · exact hU (by decide) hC hC'
  · exact hL rfl hC hC'
  · exact hU (by decide) (hC.gen _) (hC'.gen _)

theorem notTriGen_cases {uplo : Uplo} (h : (!notTriGen uplo) = true) :
    uplo = .Upper ∨ uplo = .Lower ∨ uplo = .General := by
  cases uplo <;> first | exact .inl rfl | exact .inr (.inl rfl) | exact .inr (.inr rfl) |
    exact absurd h (by decide)

theorem foot_herk [Zero T] [Add T] [Mul T] [Sub T] [Star T] [ReIm T] {uplo : Uplo} {trans : Op}
    {alpha : T} {A : MatV L} {beta : Coef T} {C : MatV L} (hA : CovM R A)
    (hC : CovT R uplo .NonUnit C) (hC' : CovT W uplo .NonUnit C) :
    Foot R W (herk uplo trans alpha A beta C) := by
  unfold herk mirror
  refine Foot.check_bind (fun ht => ?_)
  rcases notTriGen_cases ht with rfl | rfl | rfl
  · simp only [reduceCtorEq, reduceIte, ne_eq, not_true, not_false_eq_true]; foot
  · simp only [reduceCtorEq, reduceIte, ne_eq, not_true, not_false_eq_true]; foot
  · have hCu := hC.gen .Upper
    have hCu' := hC'.gen .Upper
    have hCm : CovM R C := fun i j hi hj => hC i j hi hj trivial (fun h => nomatch h)
    have hCm' : CovM W C := fun i j hi hj => hC' i j hi hj trivial (fun h => nomatch h)
    clear hC hC'
    simp only [reduceCtorEq, reduceIte, ne_eq, not_true, not_false_eq_true]
    foot

theorem foot_syrk [Zero T] [Add T] [Mul T] {uplo : Uplo} {trans : Op}
    {alpha : T} {A : MatV L} {beta : Coef T} {C : MatV L} (hA : CovM R A)
    (hC : CovT R uplo .NonUnit C) (hC' : CovT W uplo .NonUnit C) :
    Foot R W (syrk uplo trans alpha A beta C) := by
  unfold syrk mirror
  refine Foot.check_bind (fun ht => ?_)
  rcases notTriGen_cases ht with rfl | rfl | rfl
  · simp only [reduceCtorEq, reduceIte, ne_eq, not_true, not_false_eq_true]; foot
  · simp only [reduceCtorEq, reduceIte, ne_eq, not_true, not_false_eq_true]; foot
  · have hCu := hC.gen .Upper
    have hCu' := hC'.gen .Upper
    have hCm : CovM R C := fun i j hi hj => hC i j hi hj trivial (fun h => nomatch h)
    have hCm' : CovM W C := fun i j hi hj => hC' i j hi hj trivial (fun h => nomatch h)
    clear hC hC'
    simp only [reduceCtorEq, reduceIte, ne_eq, not_true, not_false_eq_true]
    foot

theorem foot_her2k [Zero T] [Add T] [Mul T] [Sub T] [Star T] [ReIm T] [OfNat T 2] {uplo : Uplo}
    {trans : Op} {alpha : T} {A B : MatV L} {beta : Coef T} {C : MatV L} (hA : CovM R A)
    (hB : CovM R B) (hC : CovT R uplo .NonUnit C) (hC' : CovT W uplo .NonUnit C) :
    Foot R W (her2k uplo trans alpha A B beta C) := by
  unfold her2k mirror
  refine Foot.check_bind (fun ht => ?_)
  rcases notTriGen_cases ht with rfl | rfl | rfl
  · simp only [reduceCtorEq, reduceIte, ne_eq, not_true, not_false_eq_true]; foot
  · simp only [reduceCtorEq, reduceIte, ne_eq, not_true, not_false_eq_true]; foot
  · have hCu := hC.gen .Upper
    have hCu' := hC'.gen .Upper
    have hCm : CovM R C := fun i j hi hj => hC i j hi hj trivial (fun h => nomatch h)
    have hCm' : CovM W C := fun i j hi hj => hC' i j hi hj trivial (fun h => nomatch h)
    clear hC hC'
    simp only [reduceCtorEq, reduceIte, ne_eq, not_true, not_false_eq_true]
    foot

theorem foot_syr2k [Zero T] [Add T] [Mul T] {uplo : Uplo}
    {trans : Op} {alpha : T} {A B : MatV L} {beta : Coef T} {C : MatV L} (hA : CovM R A)
    (hB : CovM R B) (hC : CovT R uplo .NonUnit C) (hC' : CovT W uplo .NonUnit C) :
    Foot R W (syr2k uplo trans alpha A B beta C) := by
  unfold syr2k mirror
  refine Foot.check_bind (fun ht => ?_)
  rcases notTriGen_cases ht with rfl | rfl | rfl
  · simp only [reduceCtorEq, reduceIte, ne_eq, not_true, not_false_eq_true]; foot
  · simp only [reduceCtorEq, reduceIte, ne_eq, not_true, not_false_eq_true]; foot
  · have hCu := hC.gen .Upper
    have hCu' := hC'.gen .Upper
    have hCm : CovM R C := fun i j hi hj => hC i j hi hj trivial (fun h => nomatch h)
    have hCm' : CovM W C := fun i j hi hj => hC' i j hi hj trivial (fun h => nomatch h)
    clear hC hC'
    simp only [reduceCtorEq, reduceIte, ne_eq, not_true, not_false_eq_true]
    foot

theorem foot_trmmChecks {side : Side} {uplo : Uplo} {trans : Op} {A B : MatV L}
    {f : Unit → M L T Unit} (h : uplo = .Upper ∨ uplo = .Lower → Foot R W (f ())) :
    Foot R W (trmmChecks side uplo trans A B >>= f) := by
  by_cases ht : uplo = .Upper ∨ uplo = .Lower
  · refine Foot.bind ?_ (fun _ => h ht)
    unfold trmmChecks; foot
  · have : (trmmChecks side uplo trans A B >>= f : M L T Unit) = M.fail .check := by
      have h2 : (!notTri uplo) = false := by cases uplo <;> first | rfl | exact absurd (by simp) ht
      unfold trmmChecks
      rw [h2]
      cases (!(side ≠ .Left && side ≠ .Right) : Bool) <;> rfl
    rw [this]; exact Foot.fail _

theorem foot_trmm [Add T] [Mul T] [Star T] {side : Side} {uplo : Uplo} {trans : Op} {diag : Diag}
    {alpha : T} {A B : MatV L} (hA : CovT R uplo diag A) (hB : CovM R B) (hB' : CovM W B) :
    Foot R W (trmm side uplo trans diag alpha A B) := by
  unfold trmm
  refine foot_trmmChecks (fun ht => ?_)
  unfold trmmLN trmmLT trmmRN trmmRT
  rcases ht with rfl | rfl <;> simp only [reduceCtorEq, reduceIte] <;> foot

theorem foot_trsm [Mul T] [Sub T] [Div T] [Star T] {side : Side} {uplo : Uplo} {trans : Op}
    {diag : Diag} {alpha : T} {A B : MatV L} (hA : CovT R uplo diag A) (hB : CovM R B)
    (hB' : CovM W B) : Foot R W (trsm side uplo trans diag alpha A B) := by
  unfold trsm
  refine foot_trmmChecks (fun ht => ?_)
  unfold trsmLN trsmLT trsmRN trsmRT
  rcases ht with rfl | rfl <;> simp only [reduceCtorEq, reduceIte] <;> foot

end TLA
