import Verif.Props.Level3

/-!
# C18: inadmissible arguments are rejected before anything is written

For every BLAS routine: if the options or sizes are not the documented ones, the call throws
`std::domain_error` (`Err.check`) and memory is exactly what it was.  That admissible calls do not
throw and do not access out of range is part of every theorem of C06-C17 (they end in `.ok`).
-/

namespace TLA
set_option linter.unusedSectionVars false
variable {L T : Type} [DecidableEq L]

theorem ite_intro {c : Bool} {P Q : Prop} (h : c = true → P) (hq : Q) : if c = true then P else Q := by
  split
  · exact h ‹_›
  · exact hq

theorem reject_iff {α : Type} {x : M L T α} {μ : Store L T}
    (h : wp x μ (fun _ _ => False) (fun e ν => e = .check ∧ ν = μ)) :
    x μ = (.error .check, μ) := by
  unfold wp at h
  rcases hx : x μ with ⟨r, ν⟩
  rw [hx] at h
  cases r with
  | ok a => exact h.elim
  | error e => obtain ⟨rfl, rfl⟩ := h; rfl

theorem C18_copy {x y : VecV L} (μ : Store L T)
    (h : ¬ (x.n ≤ y.n)) : copy x y μ = (.error .check, μ) := by
  unfold copy
  apply reject_iff
  simp only [wp_bind, wp_check]
  repeat refine ite_intro (fun _ => ?_) (by simp)
  exfalso
  simp_all [notTri, notTriGen]

example : ¬ ((mkV 0 4).n ≤ (mkV 1 3).n) := by decide

theorem C18_swap {x y : VecV L} (μ : Store L T)
    (h : ¬ (y.n = x.n)) : swap x y μ = (.error .check, μ) := by
  unfold swap
  apply reject_iff
  simp only [wp_bind, wp_check]
  repeat refine ite_intro (fun _ => ?_) (by simp)
  exfalso
  simp_all [notTri, notTriGen]

example : ¬ ((mkV 0 4).n = (mkV 1 3).n) := by decide

theorem C18_axpy [Add T] [Mul T] (alpha : T) {x y : VecV L} (μ : Store L T)
    (h : ¬ (x.n ≤ y.n)) : axpy alpha x y μ = (.error .check, μ) := by
  unfold axpy
  apply reject_iff
  simp only [wp_bind, wp_check]
  repeat refine ite_intro (fun _ => ?_) (by simp)
  exfalso
  simp_all [notTri, notTriGen]

example : ¬ ((mkV 0 4).n ≤ (mkV 1 3).n) := by decide

theorem C18_dot [Zero T] [Add T] [Mul T] [Star T] {x y : VecV L} (μ : Store L T)
    (h : ¬ (y.n = x.n)) : dot (T := T) x y μ = (.error .check, μ) := by
  unfold dot
  apply reject_iff
  simp only [wp_bind, wp_check]
  repeat refine ite_intro (fun _ => ?_) (by simp)
  exfalso
  simp_all [notTri, notTriGen]

example : ¬ ((mkV 0 4).n = (mkV 1 3).n) := by decide

theorem C18_dotu [Zero T] [Add T] [Mul T] {x y : VecV L} (μ : Store L T)
    (h : ¬ (y.n = x.n)) : dotu (T := T) x y μ = (.error .check, μ) := by
  unfold dotu
  apply reject_iff
  simp only [wp_bind, wp_check]
  repeat refine ite_intro (fun _ => ?_) (by simp)
  exfalso
  simp_all [notTri, notTriGen]

example : ¬ ((mkV 0 4).n = (mkV 1 3).n) := by decide

theorem C18_rot [Zero T] [One T] [Add T] [Mul T] [Sub T] [Star T] [DecidableEq T] (c s : T) {x y : VecV L} (μ : Store L T)
    (h : ¬ (y.n = x.n)) : rot x y c s μ = (.error .check, μ) := by
  unfold rot
  apply reject_iff
  simp only [wp_bind, wp_check]
  repeat refine ite_intro (fun _ => ?_) (by simp)
  exfalso
  simp_all [notTri, notTriGen]

example : ¬ ((mkV 0 4).n = (mkV 1 3).n) := by decide

theorem C18_rotm [Zero T] [One T] [Add T] [Mul T] [Sub T] (flag : ℤ) (h : ℕ → T) {x y : VecV L} (μ : Store L T)
    (hn : ¬ (y.n = x.n)) : rotm flag x y h μ = (.error .check, μ) := by
  unfold rotm
  apply reject_iff
  simp only [wp_bind, wp_check]
  repeat refine ite_intro (fun _ => ?_) (by simp)
  exfalso
  simp_all [notTri, notTriGen]

example : ¬ ((mkV 0 4).n = (mkV 1 3).n) := by decide

theorem C18_gemv [Zero T] [Add T] [Mul T] [Star T] (trans : Op) (alpha : T) (beta : Coef T) {A : MatV L} {x y : VecV L} (μ : Store L T)
    (h : ¬ (x.n = (if trans = .NoTrans ∨ trans = .Conj then A.n else A.m) ∧
      y.n = (if trans = .NoTrans ∨ trans = .Conj then A.m else A.n))) : gemv trans alpha A x beta y μ = (.error .check, μ) := by
  unfold gemv
  apply reject_iff
  simp only [wp_bind, wp_check]
  repeat refine ite_intro (fun _ => ?_) (by simp)
  exfalso
  simp_all [notTri, notTriGen]

example : ¬ ((mkV 0 4).n = (mkM 1 4 3).n ∧ (mkV 1 3).n = (mkM 1 4 3).m) := by decide

theorem C18_ger [Add T] [Mul T] [Star T] (alpha : T) {A : MatV L} {x y : VecV L} (μ : Store L T)
    (h : ¬ (x.n = A.m ∧ y.n = A.n)) : ger alpha x y A μ = (.error .check, μ) := by
  unfold ger
  apply reject_iff
  simp only [wp_bind, wp_check]
  repeat refine ite_intro (fun _ => ?_) (by simp)
  exfalso
  simp_all [notTri, notTriGen]

example : ¬ ((mkV 0 4).n = (mkM 1 3 4).m ∧ (mkV 1 3).n = (mkM 1 3 4).n) := by decide

theorem C18_geru [Add T] [Mul T] (alpha : T) {A : MatV L} {x y : VecV L} (μ : Store L T)
    (h : ¬ (x.n = A.m ∧ y.n = A.n)) : geru alpha x y A μ = (.error .check, μ) := by
  unfold geru
  apply reject_iff
  simp only [wp_bind, wp_check]
  repeat refine ite_intro (fun _ => ?_) (by simp)
  exfalso
  simp_all [notTri, notTriGen]

example : ¬ ((mkV 0 4).n = (mkM 1 3 4).m ∧ (mkV 1 3).n = (mkM 1 3 4).n) := by decide

theorem C18_her [Add T] [Mul T] [Sub T] [Star T] [ReIm T] (uplo : Uplo) (alpha : T) {A : MatV L} {x : VecV L} (μ : Store L T)
    (h : ¬ ((uplo = .Upper ∨ uplo = .Lower) ∧ A.m = A.n ∧ x.n = A.m)) : her uplo alpha x A μ = (.error .check, μ) := by
  unfold her
  apply reject_iff
  simp only [wp_bind, wp_check]
  repeat refine ite_intro (fun _ => ?_) (by simp)
  exfalso
  simp_all [notTri, notTriGen]

example : ¬ ((Uplo.General = .Upper ∨ Uplo.General = .Lower)) := by decide

theorem C18_syr [Add T] [Mul T] (uplo : Uplo) (alpha : T) {A : MatV L} {x : VecV L} (μ : Store L T)
    (h : ¬ ((uplo = .Upper ∨ uplo = .Lower) ∧ A.m = A.n ∧ x.n = A.m)) : syr uplo alpha x A μ = (.error .check, μ) := by
  unfold syr
  apply reject_iff
  simp only [wp_bind, wp_check]
  repeat refine ite_intro (fun _ => ?_) (by simp)
  exfalso
  simp_all [notTri, notTriGen]

example : ¬ ((Uplo.General = .Upper ∨ Uplo.General = .Lower)) := by decide

theorem C18_her2 [Add T] [Mul T] [Sub T] [Star T] [ReIm T] (uplo : Uplo) (alpha : T) {A : MatV L} {x y : VecV L} (μ : Store L T)
    (h : ¬ ((uplo = .Upper ∨ uplo = .Lower) ∧ A.m = A.n ∧ x.n = A.m ∧ y.n = A.m)) : her2 uplo alpha x y A μ = (.error .check, μ) := by
  unfold her2
  apply reject_iff
  simp only [wp_bind, wp_check]
  repeat refine ite_intro (fun _ => ?_) (by simp)
  exfalso
  simp_all [notTri, notTriGen]

example : ¬ ((Uplo.General = .Upper ∨ Uplo.General = .Lower)) := by decide

theorem C18_syr2 [Add T] [Mul T] (uplo : Uplo) (alpha : T) {A : MatV L} {x y : VecV L} (μ : Store L T)
    (h : ¬ ((uplo = .Upper ∨ uplo = .Lower) ∧ A.m = A.n ∧ x.n = A.m ∧ y.n = A.m)) : syr2 uplo alpha x y A μ = (.error .check, μ) := by
  unfold syr2
  apply reject_iff
  simp only [wp_bind, wp_check]
  repeat refine ite_intro (fun _ => ?_) (by simp)
  exfalso
  simp_all [notTri, notTriGen]

example : ¬ ((Uplo.General = .Upper ∨ Uplo.General = .Lower)) := by decide

theorem C18_hemv [Zero T] [Add T] [Mul T] [Star T] [ReIm T] (uplo : Uplo) (alpha : T) (beta : Coef T) {A : MatV L} {x y : VecV L} (μ : Store L T)
    (h : ¬ ((uplo = .Upper ∨ uplo = .Lower) ∧ A.m = A.n ∧ x.n = A.m ∧ y.n = A.m)) : hemv uplo alpha A x beta y μ = (.error .check, μ) := by
  unfold hemv
  apply reject_iff
  simp only [wp_bind, wp_check]
  repeat refine ite_intro (fun _ => ?_) (by simp)
  exfalso
  simp_all [notTri, notTriGen]

example : ¬ ((Uplo.General = .Upper ∨ Uplo.General = .Lower)) := by decide

theorem C18_symv [Zero T] [Add T] [Mul T] (uplo : Uplo) (alpha : T) (beta : Coef T) {A : MatV L} {x y : VecV L} (μ : Store L T)
    (h : ¬ ((uplo = .Upper ∨ uplo = .Lower) ∧ A.m = A.n ∧ x.n = A.m ∧ y.n = A.m)) : symv uplo alpha A x beta y μ = (.error .check, μ) := by
  unfold symv
  apply reject_iff
  simp only [wp_bind, wp_check]
  repeat refine ite_intro (fun _ => ?_) (by simp)
  exfalso
  simp_all [notTri, notTriGen]

example : ¬ ((Uplo.General = .Upper ∨ Uplo.General = .Lower)) := by decide

theorem C18_trmv [Add T] [Mul T] [Star T] (uplo : Uplo) (trans : Op) (diag : Diag) {A : MatV L} {x : VecV L} (μ : Store L T)
    (h : ¬ ((uplo = .Upper ∨ uplo = .Lower) ∧ A.m = A.n ∧ x.n = A.m)) : trmv (T := T) uplo trans diag A x μ = (.error .check, μ) := by
  unfold trmv
  apply reject_iff
  simp only [wp_bind, wp_check]
  repeat refine ite_intro (fun _ => ?_) (by simp)
  exfalso
  simp_all [notTri, notTriGen]

example : ¬ ((Uplo.General = .Upper ∨ Uplo.General = .Lower)) := by decide

theorem C18_trsv [Mul T] [Sub T] [Div T] [Star T] (uplo : Uplo) (trans : Op) (diag : Diag) {A : MatV L} {x : VecV L} (μ : Store L T)
    (h : ¬ ((uplo = .Upper ∨ uplo = .Lower) ∧ A.m = A.n ∧ x.n = A.m)) : trsv (T := T) uplo trans diag A x μ = (.error .check, μ) := by
  unfold trsv
  apply reject_iff
  simp only [wp_bind, wp_check]
  repeat refine ite_intro (fun _ => ?_) (by simp)
  exfalso
  simp_all [notTri, notTriGen]

example : ¬ ((Uplo.General = .Upper ∨ Uplo.General = .Lower)) := by decide

theorem C18_gemm [Zero T] [Add T] [Mul T] [Star T] (transA transB : Op) (alpha : T) (beta : Coef T) {A B C : MatV L} (μ : Store L T)
    (h : ¬ (transA ≠ .Conj ∧ transB ≠ .Conj ∧
      C.m = (if transA = .NoTrans then A.m else A.n) ∧
      C.n = (if transB = .NoTrans then B.n else B.m) ∧
      (if transA = .NoTrans then A.n else A.m) = (if transB = .NoTrans then B.m else B.n))) : gemm transA transB alpha A B beta C μ = (.error .check, μ) := by
  unfold gemm
  apply reject_iff
  simp only [wp_bind, wp_check]
  repeat refine ite_intro (fun _ => ?_) (by simp)
  exfalso
  cases transA <;> cases transB <;>
  simp_all [notTri, notTriGen] <;> done

example : ¬ ((mkM 0 2 3).n = (mkM 1 4 5).m) := by decide

theorem C18_hemm [Zero T] [Add T] [Mul T] [Star T] [ReIm T] (side : Side) (uplo : Uplo) (alpha : T) (beta : Coef T) {A B C : MatV L} (μ : Store L T)
    (h : ¬ ((side = .Left ∨ side = .Right) ∧ (uplo = .Upper ∨ uplo = .Lower ∨ uplo = .General) ∧ A.m = A.n ∧
      A.m = (if side = .Left then B.m else B.n) ∧ C.m = B.m ∧ C.n = B.n)) : hemm side uplo alpha A B beta C μ = (.error .check, μ) := by
  unfold hemm hemmChecks
  apply reject_iff
  simp only [wp_bind, wp_check]
  repeat refine ite_intro (fun _ => ?_) (by simp)
  exfalso
  simp_all [notTri, notTriGen]

example : ¬ ((Side.Both = .Left ∨ Side.Both = .Right)) := by decide

theorem C18_symm [Zero T] [Add T] [Mul T] (side : Side) (uplo : Uplo) (alpha : T) (beta : Coef T) {A B C : MatV L} (μ : Store L T)
    (h : ¬ ((side = .Left ∨ side = .Right) ∧ (uplo = .Upper ∨ uplo = .Lower ∨ uplo = .General) ∧ A.m = A.n ∧
      A.m = (if side = .Left then B.m else B.n) ∧ C.m = B.m ∧ C.n = B.n)) : symm side uplo alpha A B beta C μ = (.error .check, μ) := by
  unfold symm hemmChecks
  apply reject_iff
  simp only [wp_bind, wp_check]
  repeat refine ite_intro (fun _ => ?_) (by simp)
  exfalso
  simp_all [notTri, notTriGen]

example : ¬ ((Side.Both = .Left ∨ Side.Both = .Right)) := by decide

theorem C18_herk [Zero T] [Add T] [Mul T] [Sub T] [Star T] [ReIm T] (uplo : Uplo) (trans : Op) (alpha : T) (beta : Coef T) {A C : MatV L} (μ : Store L T)
    (h : ¬ ((uplo = .Upper ∨ uplo = .Lower ∨ uplo = .General) ∧ (trans = .NoTrans ∨ trans = .ConjTrans) ∧
      C.m = C.n ∧ C.m = (if trans = .NoTrans then A.m else A.n))) : herk uplo trans alpha A beta C μ = (.error .check, μ) := by
  unfold herk
  apply reject_iff
  simp only [wp_bind, wp_check]
  repeat refine ite_intro (fun _ => ?_) (by simp)
  exfalso
  simp_all [notTri, notTriGen]

example : ¬ ((mkM 0 2 3).m = (mkM 0 2 3).n) := by decide

theorem C18_syrk [Zero T] [Add T] [Mul T] (uplo : Uplo) (trans : Op) (alpha : T) (beta : Coef T) {A C : MatV L} (μ : Store L T)
    (h : ¬ ((uplo = .Upper ∨ uplo = .Lower ∨ uplo = .General) ∧ (trans = .NoTrans ∨ trans = .Trans) ∧
      C.m = C.n ∧ C.m = (if trans = .NoTrans then A.m else A.n))) : syrk uplo trans alpha A beta C μ = (.error .check, μ) := by
  unfold syrk
  apply reject_iff
  simp only [wp_bind, wp_check]
  repeat refine ite_intro (fun _ => ?_) (by simp)
  exfalso
  simp_all [notTri, notTriGen]

example : ¬ ((mkM 0 2 3).m = (mkM 0 2 3).n) := by decide

theorem C18_her2k [Zero T] [Add T] [Mul T] [Sub T] [Star T] [ReIm T] [OfNat T 2] (uplo : Uplo) (trans : Op) (alpha : T) (beta : Coef T) {A B C : MatV L} (μ : Store L T)
    (h : ¬ ((uplo = .Upper ∨ uplo = .Lower ∨ uplo = .General) ∧ (trans = .NoTrans ∨ trans = .ConjTrans) ∧ B.m = A.m ∧ B.n = A.n ∧
      C.m = C.n ∧ C.m = (if trans = .NoTrans then A.m else A.n))) : her2k uplo trans alpha A B beta C μ = (.error .check, μ) := by
  unfold her2k
  apply reject_iff
  simp only [wp_bind, wp_check]
  repeat refine ite_intro (fun _ => ?_) (by simp)
  exfalso
  simp_all [notTri, notTriGen]

example : ¬ ((mkM 0 2 3).m = (mkM 0 2 3).n) := by decide

theorem C18_syr2k [Zero T] [Add T] [Mul T] (uplo : Uplo) (trans : Op) (alpha : T) (beta : Coef T) {A B C : MatV L} (μ : Store L T)
    (h : ¬ ((uplo = .Upper ∨ uplo = .Lower ∨ uplo = .General) ∧ (trans = .NoTrans ∨ trans = .Trans) ∧ B.m = A.m ∧ B.n = A.n ∧
      C.m = C.n ∧ C.m = (if trans = .NoTrans then A.m else A.n))) : syr2k uplo trans alpha A B beta C μ = (.error .check, μ) := by
  unfold syr2k
  apply reject_iff
  simp only [wp_bind, wp_check]
  repeat refine ite_intro (fun _ => ?_) (by simp)
  exfalso
  simp_all [notTri, notTriGen]

example : ¬ ((mkM 0 2 3).m = (mkM 0 2 3).n) := by decide

theorem C18_trmm [Add T] [Mul T] [Star T] (side : Side) (uplo : Uplo) (trans : Op) (diag : Diag) (alpha : T) {A B : MatV L} (μ : Store L T)
    (h : ¬ ((side = .Left ∨ side = .Right) ∧ (uplo = .Upper ∨ uplo = .Lower) ∧ trans ≠ .Conj ∧ A.m = A.n ∧
      A.m = (if side = .Left then B.m else B.n))) : trmm side uplo trans diag alpha A B μ = (.error .check, μ) := by
  unfold trmm trmmChecks
  apply reject_iff
  simp only [wp_bind, wp_check]
  repeat refine ite_intro (fun _ => ?_) (by simp)
  exfalso
  cases trans <;> cases uplo <;>
  simp_all [notTri, notTriGen] <;> done

example : ¬ ((mkM 0 3 3).m = (mkM 0 2 3).m) := by decide

theorem C18_trsm [Mul T] [Sub T] [Div T] [Star T] (side : Side) (uplo : Uplo) (trans : Op) (diag : Diag) (alpha : T) {A B : MatV L} (μ : Store L T)
    (h : ¬ ((side = .Left ∨ side = .Right) ∧ (uplo = .Upper ∨ uplo = .Lower) ∧ trans ≠ .Conj ∧ A.m = A.n ∧
      A.m = (if side = .Left then B.m else B.n))) : trsm side uplo trans diag alpha A B μ = (.error .check, μ) := by
  unfold trsm trmmChecks
  apply reject_iff
  simp only [wp_bind, wp_check]
  repeat refine ite_intro (fun _ => ?_) (by simp)
  exfalso
  cases trans <;> cases uplo <;>
  simp_all [notTri, notTriGen] <;> done

example : ¬ ((mkM 0 3 3).m = (mkM 0 2 3).m) := by decide

end TLA
