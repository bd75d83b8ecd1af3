import Verif.Proofs.FootHouse
import Verif.Proofs.FootBlock
import Verif.Proofs.FootReduce
import Verif.Proofs.FootBlasX
import Verif.Props.Examples

/-!
# C40: the unselected triangle is never referenced.  C44: calls are confined to their operands.

The statements need no admissibility hypotheses and no laws of arithmetic: they hold for every
scalar type (floating point with its NaNs and infinities included), for calls with wrong sizes or
overlapping operands, and for calls that end with an exception.
-/

set_option linter.unusedSectionVars false
set_option linter.unusedDecidableInType false

namespace TLA

variable {L T : Type} [DecidableEq L]

/-- What `Confined` means for cells a call has no business with: if none of the cells `U` may be
looked at or changed, then overwriting them with anything before the call neither changes the
result nor any other cell, and they keep what was put there. -/
theorem C40_independent {α : Type} {R W : L → Prop} {x : M L T α} (h : Confined R W x)
    (U : L → Prop) (hR : ∀ l, U l → ¬ R l) (hW : ∀ l, U l → ¬ W l) (μ μ' : Store L T)
    (hμ : ∀ l, ¬ U l → μ l = μ' l) :
    (x μ).1 = (x μ').1 ∧ (∀ l, ¬ U l → (x μ).2 l = (x μ').2 l) ∧
      ∀ l, U l → (x μ).2 l = μ l ∧ (x μ').2 l = μ' l :=
  have e : ∀ l, R l → μ l = μ' l := fun l hl => hμ l (fun u => hR l u hl)
  ⟨h.result μ μ' e, fun l hl => h.values μ μ' e l (hμ l hl),
    fun l hl => ⟨h.writes μ l (hW l hl), h.writes μ' l (hW l hl)⟩⟩

/-- In a matrix whose entries are distinct cells, a cell outside the selected triangle is not
one of the selected cells. -/
theorem C40_unselected {A : MatV L} (hA : A.Inj) (uplo : Uplo) (diag : Diag) {i j : Nat}
    (hi : i < A.m) (hj : j < A.n) (h : ¬ inTri uplo i j ∨ (diag = .Unit ∧ i = j)) :
    ¬ A.OwnsTri uplo diag (A.cell i j) := by
  rintro ⟨i', j', hi', hj', ht, hd, e⟩
  obtain ⟨rfl, rfl⟩ := hA _ _ _ _ hi' hj' hi hj e
  rcases h with h | ⟨rfl, rfl⟩
  · exact h ht
  · exact hd rfl rfl

/-- trmv. -/
theorem C40_trmv [Add T] [Mul T] [Star T] (uplo : Uplo) (trans : Op) (diag : Diag) (A : MatV L) (x : VecV L) :
    Confined (fun l => MatV.OwnsTri A uplo diag l ∨ VecV.Owns x l) (fun l => VecV.Owns x l) (trmv uplo trans diag A x : M L T Unit) :=
  (foot_trmv ((covT_owns A uplo diag).imp fun _ h => .inl h) ((covV_owns x).imp fun _ h => .inr h) ((covV_owns x).imp fun _ h => h)).confined

/-- trsv. -/
theorem C40_trsv [Mul T] [Sub T] [Div T] [Star T] (uplo : Uplo) (trans : Op) (diag : Diag) (A : MatV L) (x : VecV L) :
    Confined (fun l => MatV.OwnsTri A uplo diag l ∨ VecV.Owns x l) (fun l => VecV.Owns x l) (trsv uplo trans diag A x : M L T Unit) :=
  (foot_trsv ((covT_owns A uplo diag).imp fun _ h => .inl h) ((covV_owns x).imp fun _ h => .inr h) ((covV_owns x).imp fun _ h => h)).confined

/-- trmm. -/
theorem C40_trmm [Add T] [Mul T] [Star T] (side : Side) (uplo : Uplo) (trans : Op) (diag : Diag) (alpha : T) (A B : MatV L) :
    Confined (fun l => MatV.OwnsTri A uplo diag l ∨ MatV.Owns B l) (fun l => MatV.Owns B l) (trmm side uplo trans diag alpha A B : M L T Unit) :=
  (foot_trmm ((covT_owns A uplo diag).imp fun _ h => .inl h) ((covM_owns B).imp fun _ h => .inr h) ((covM_owns B).imp fun _ h => h)).confined

/-- trsm. -/
theorem C40_trsm [Mul T] [Sub T] [Div T] [Star T] (side : Side) (uplo : Uplo) (trans : Op) (diag : Diag) (alpha : T) (A B : MatV L) :
    Confined (fun l => MatV.OwnsTri A uplo diag l ∨ MatV.Owns B l) (fun l => MatV.Owns B l) (trsm side uplo trans diag alpha A B : M L T Unit) :=
  (foot_trsm ((covT_owns A uplo diag).imp fun _ h => .inl h) ((covM_owns B).imp fun _ h => .inr h) ((covM_owns B).imp fun _ h => h)).confined

/-- hemv. -/
theorem C40_hemv [Zero T] [Add T] [Mul T] [Star T] [ReIm T] (uplo : Uplo) (alpha : T) (A : MatV L) (x : VecV L) (beta : Coef T) (y : VecV L) :
    Confined (fun l => MatV.OwnsTri A uplo .NonUnit l ∨ VecV.Owns x l ∨ VecV.Owns y l) (fun l => VecV.Owns y l) (hemv uplo alpha A x beta y : M L T Unit) :=
  (foot_hemv ((covT_owns A uplo .NonUnit).imp fun _ h => .inl h) ((covV_owns x).imp fun _ h => .inr (.inl h)) ((covV_owns y).imp fun _ h => .inr (.inr h)) ((covV_owns y).imp fun _ h => h)).confined

/-- symv. -/
theorem C40_symv [Zero T] [Add T] [Mul T] (uplo : Uplo) (alpha : T) (A : MatV L) (x : VecV L) (beta : Coef T) (y : VecV L) :
    Confined (fun l => MatV.OwnsTri A uplo .NonUnit l ∨ VecV.Owns x l ∨ VecV.Owns y l) (fun l => VecV.Owns y l) (symv uplo alpha A x beta y : M L T Unit) :=
  (foot_symv ((covT_owns A uplo .NonUnit).imp fun _ h => .inl h) ((covV_owns x).imp fun _ h => .inr (.inl h)) ((covV_owns y).imp fun _ h => .inr (.inr h)) ((covV_owns y).imp fun _ h => h)).confined

/-- her. -/
theorem C40_her [Add T] [Mul T] [Sub T] [Star T] [ReIm T] (uplo : Uplo) (alpha : T) (x : VecV L) (A : MatV L) :
    Confined (fun l => MatV.OwnsTri A uplo .NonUnit l ∨ VecV.Owns x l) (fun l => MatV.OwnsTri A uplo .NonUnit l) (her uplo alpha x A : M L T Unit) :=
  (foot_her ((covT_owns A uplo .NonUnit).imp fun _ h => .inl h) ((covT_owns A uplo .NonUnit).imp fun _ h => h) ((covV_owns x).imp fun _ h => .inr h)).confined

/-- her2. -/
theorem C40_her2 [Add T] [Mul T] [Sub T] [Star T] [ReIm T] (uplo : Uplo) (alpha : T) (x y : VecV L) (A : MatV L) :
    Confined (fun l => MatV.OwnsTri A uplo .NonUnit l ∨ VecV.Owns x l ∨ VecV.Owns y l) (fun l => MatV.OwnsTri A uplo .NonUnit l) (her2 uplo alpha x y A : M L T Unit) :=
  (foot_her2 ((covT_owns A uplo .NonUnit).imp fun _ h => .inl h) ((covT_owns A uplo .NonUnit).imp fun _ h => h) ((covV_owns x).imp fun _ h => .inr (.inl h)) ((covV_owns y).imp fun _ h => .inr (.inr h))).confined

/-- syr. -/
theorem C40_syr [Add T] [Mul T] (uplo : Uplo) (alpha : T) (x : VecV L) (A : MatV L) :
    Confined (fun l => MatV.OwnsTri A uplo .NonUnit l ∨ VecV.Owns x l) (fun l => MatV.OwnsTri A uplo .NonUnit l) (syr uplo alpha x A : M L T Unit) :=
  (foot_syr ((covT_owns A uplo .NonUnit).imp fun _ h => .inl h) ((covT_owns A uplo .NonUnit).imp fun _ h => h) ((covV_owns x).imp fun _ h => .inr h)).confined

/-- syr2. -/
theorem C40_syr2 [Add T] [Mul T] (uplo : Uplo) (alpha : T) (x y : VecV L) (A : MatV L) :
    Confined (fun l => MatV.OwnsTri A uplo .NonUnit l ∨ VecV.Owns x l ∨ VecV.Owns y l) (fun l => MatV.OwnsTri A uplo .NonUnit l) (syr2 uplo alpha x y A : M L T Unit) :=
  (foot_syr2 ((covT_owns A uplo .NonUnit).imp fun _ h => .inl h) ((covT_owns A uplo .NonUnit).imp fun _ h => h) ((covV_owns x).imp fun _ h => .inr (.inl h)) ((covV_owns y).imp fun _ h => .inr (.inr h))).confined

/-- hemm (`uplo = General` also uses the upper triangle only). -/
theorem C40_hemm [Zero T] [Add T] [Mul T] [Star T] [ReIm T] (side : Side) (uplo : Uplo) (alpha : T) (A B : MatV L) (beta : Coef T) (C : MatV L) :
    Confined (fun l => MatV.OwnsTri A (if uplo = .Lower then .Lower else .Upper) .NonUnit l ∨ MatV.Owns B l ∨ MatV.Owns C l) (fun l => MatV.Owns C l) (hemm side uplo alpha A B beta C : M L T Unit) :=
  (foot_hemm ((covT_owns A _ _).imp fun _ h => .inl h) ((covM_owns B).imp fun _ h => .inr (.inl h)) ((covM_owns C).imp fun _ h => .inr (.inr h)) ((covM_owns C).imp fun _ h => h)).confined

/-- symm (`uplo = General` also uses the upper triangle only). -/
theorem C40_symm [Zero T] [Add T] [Mul T] (side : Side) (uplo : Uplo) (alpha : T) (A B : MatV L) (beta : Coef T) (C : MatV L) :
    Confined (fun l => MatV.OwnsTri A (if uplo = .Lower then .Lower else .Upper) .NonUnit l ∨ MatV.Owns B l ∨ MatV.Owns C l) (fun l => MatV.Owns C l) (symm side uplo alpha A B beta C : M L T Unit) :=
  (foot_symm ((covT_owns A _ _).imp fun _ h => .inl h) ((covM_owns B).imp fun _ h => .inr (.inl h)) ((covM_owns C).imp fun _ h => .inr (.inr h)) ((covM_owns C).imp fun _ h => h)).confined

/-- herk. -/
theorem C40_herk [Zero T] [Add T] [Mul T] [Sub T] [Star T] [ReIm T] (uplo : Uplo) (trans : Op) (alpha : T) (A : MatV L) (beta : Coef T) (C : MatV L) :
    Confined (fun l => MatV.OwnsTri C uplo .NonUnit l ∨ MatV.Owns A l) (fun l => MatV.OwnsTri C uplo .NonUnit l) (herk uplo trans alpha A beta C : M L T Unit) :=
  (foot_herk ((covM_owns A).imp fun _ h => .inr h) ((covT_owns C uplo .NonUnit).imp fun _ h => .inl h) ((covT_owns C uplo .NonUnit).imp fun _ h => h)).confined

/-- syrk. -/
theorem C40_syrk [Zero T] [Add T] [Mul T] (uplo : Uplo) (trans : Op) (alpha : T) (A : MatV L) (beta : Coef T) (C : MatV L) :
    Confined (fun l => MatV.OwnsTri C uplo .NonUnit l ∨ MatV.Owns A l) (fun l => MatV.OwnsTri C uplo .NonUnit l) (syrk uplo trans alpha A beta C : M L T Unit) :=
  (foot_syrk ((covM_owns A).imp fun _ h => .inr h) ((covT_owns C uplo .NonUnit).imp fun _ h => .inl h) ((covT_owns C uplo .NonUnit).imp fun _ h => h)).confined

/-- her2k. -/
theorem C40_her2k [Zero T] [Add T] [Mul T] [Sub T] [Star T] [ReIm T] [OfNat T 2] (uplo : Uplo) (trans : Op) (alpha : T) (A B : MatV L) (beta : Coef T) (C : MatV L) :
    Confined (fun l => MatV.OwnsTri C uplo .NonUnit l ∨ MatV.Owns A l ∨ MatV.Owns B l) (fun l => MatV.OwnsTri C uplo .NonUnit l) (her2k uplo trans alpha A B beta C : M L T Unit) :=
  (foot_her2k ((covM_owns A).imp fun _ h => .inr (.inl h)) ((covM_owns B).imp fun _ h => .inr (.inr h)) ((covT_owns C uplo .NonUnit).imp fun _ h => .inl h) ((covT_owns C uplo .NonUnit).imp fun _ h => h)).confined

/-- syr2k. -/
theorem C40_syr2k [Zero T] [Add T] [Mul T] (uplo : Uplo) (trans : Op) (alpha : T) (A B : MatV L) (beta : Coef T) (C : MatV L) :
    Confined (fun l => MatV.OwnsTri C uplo .NonUnit l ∨ MatV.Owns A l ∨ MatV.Owns B l) (fun l => MatV.OwnsTri C uplo .NonUnit l) (syr2k uplo trans alpha A B beta C : M L T Unit) :=
  (foot_syr2k ((covM_owns A).imp fun _ h => .inr (.inl h)) ((covM_owns B).imp fun _ h => .inr (.inr h)) ((covT_owns C uplo .NonUnit).imp fun _ h => .inl h) ((covT_owns C uplo .NonUnit).imp fun _ h => h)).confined

/-- potf2. -/
theorem C40_potf2 [Zero T] [One T] [Add T] [Mul T] [Sub T] [Neg T] [Div T] [Star T] [ReIm T] [RealOps T] (thr : Bool) (uplo : Uplo) (A : MatV L) :
    Confined (fun l => MatV.OwnsTri A uplo .NonUnit l) (fun l => MatV.OwnsTri A uplo .NonUnit l) (potf2 thr uplo A : M L T Nat) :=
  (foot_potf2 ((covT_owns A uplo .NonUnit).imp fun _ h => h) ((covT_owns A uplo .NonUnit).imp fun _ h => h)).confined

/-- potrf in all variants: potf2, potrf2, potrf_blocked, potrf_rl, for any block size. -/
theorem C40_potrf [Zero T] [One T] [Add T] [Mul T] [Sub T] [Neg T] [Div T] [Star T] [ReIm T] [RealOps T] (dbg internal : Bool) (nb : Nat) (variant : PotrfVariant) (uplo : Uplo) (A : MatV L) :
    Confined (fun l => MatV.OwnsTri A uplo .NonUnit l) (fun l => MatV.OwnsTri A uplo .NonUnit l) (potrf dbg internal nb variant uplo A : M L T Nat) :=
  (foot_potrf ((covT_owns A uplo .NonUnit).imp fun _ h => h) ((covT_owns A uplo .NonUnit).imp fun _ h => h)).confined

/-- potrs. -/
theorem C40_potrs [Zero T] [One T] [Add T] [Mul T] [Sub T] [Neg T] [Div T] [Star T] [ReIm T] (uplo : Uplo) (A B : MatV L) :
    Confined (fun l => MatV.OwnsTri A uplo .NonUnit l ∨ MatV.Owns B l) (fun l => MatV.Owns B l) (potrs uplo A B : M L T Unit) :=
  (foot_potrs ((covT_owns A uplo .NonUnit).imp fun _ h => .inl h) ((covM_owns B).imp fun _ h => .inr h) ((covM_owns B).imp fun _ h => h)).confined

/-- trtri_recursive. -/
theorem C40_trtri [Zero T] [One T] [Add T] [Mul T] [Sub T] [Neg T] [Div T] [Star T] [ReIm T] [DecidableEq T] (thr : Bool) (uplo : Uplo) (diag : Diag) (A : MatV L) :
    Confined (fun l => MatV.OwnsTri A uplo diag l) (fun l => MatV.OwnsTri A uplo diag l) (trtri thr uplo diag A : M L T Nat) :=
  (foot_trtri ((covT_owns A uplo diag).imp fun _ h => h) ((covT_owns A uplo diag).imp fun _ h => h)).confined

/-- lauum_recursive. -/
theorem C40_lauum [Zero T] [One T] [Add T] [Mul T] [Sub T] [Neg T] [Div T] [Star T] [ReIm T] (uplo : Uplo) (A : MatV L) :
    Confined (fun l => MatV.OwnsTri A uplo .NonUnit l) (fun l => MatV.OwnsTri A uplo .NonUnit l) (lauum uplo A : M L T Unit) :=
  (foot_lauum ((covT_owns A uplo .NonUnit).imp fun _ h => h) ((covT_owns A uplo .NonUnit).imp fun _ h => h)).confined

/-- potri. -/
theorem C40_potri [Zero T] [One T] [Add T] [Mul T] [Sub T] [Neg T] [Div T] [Star T] [ReIm T] [RealOps T] [DecidableEq T] (dbg : Bool) (uplo : Uplo) (A : MatV L) :
    Confined (fun l => MatV.OwnsTri A uplo .NonUnit l) (fun l => MatV.OwnsTri A uplo .NonUnit l) (potri dbg uplo A : M L T Unit) :=
  (foot_potri ((covT_owns A uplo .NonUnit).imp fun _ h => h) ((covT_owns A uplo .NonUnit).imp fun _ h => h)).confined

/-- mult_llh. -/
theorem C40_mult_llh [Zero T] [One T] [Add T] [Mul T] [Sub T] [Neg T] [Div T] [Star T] [ReIm T] (nx : Nat) (A : MatV L) :
    Confined (fun l => MatV.OwnsTri A .Lower .NonUnit l) (fun l => MatV.OwnsTri A .Lower .NonUnit l) (multLlh nx A : M L T Unit) :=
  (foot_multLlh ((covT_owns A .Lower .NonUnit).imp fun _ h => h) ((covT_owns A .Lower .NonUnit).imp fun _ h => h)).confined

/-- mult_uhu. -/
theorem C40_mult_uhu [Zero T] [One T] [Add T] [Mul T] [Sub T] [Neg T] [Div T] [Star T] [ReIm T] (nx : Nat) (A : MatV L) :
    Confined (fun l => MatV.OwnsTri A .Upper .NonUnit l) (fun l => MatV.OwnsTri A .Upper .NonUnit l) (multUhu nx A : M L T Unit) :=
  (foot_multUhu ((covT_owns A .Upper .NonUnit).imp fun _ h => h) ((covT_owns A .Upper .NonUnit).imp fun _ h => h)).confined

/-- lacpy. -/
theorem C40_lacpy  (uplo : Uplo) (A B : MatV L) :
    Confined (fun l => MatV.OwnsTri A uplo .NonUnit l) (fun l => MatV.OwnsTri B uplo .NonUnit l) (lacpy uplo A B : M L T Unit) :=
  (foot_lacpy ((covT_owns A uplo .NonUnit).imp fun _ h => h) ((covT_owns B uplo .NonUnit).imp fun _ h => h)).confined

/-- hasnan, hasinf: only the selected part is looked at, nothing is written. -/
theorem C40_hasnan  (p : T → Bool) (uplo : Uplo) (A : MatV L) :
    Confined (fun l => MatV.OwnsTri A uplo .NonUnit l) (fun l => False) (hasP p uplo A : M L T Bool) :=
  (foot_hasP ((covT_owns A uplo .NonUnit).imp fun _ h => h)).confined

/-- lascl. -/
theorem C40_lascl [Mul T] {K : Type} [Field K] [LinearOrder K] (emb : K → T) (small big : K) (fuel : Nat) (uplo : Uplo) (b a : K) (A : MatV L) :
    Confined (fun l => MatV.OwnsTri A uplo .NonUnit l) (fun l => MatV.OwnsTri A uplo .NonUnit l) (lascl emb small big fuel uplo b a A : M L T Nat) :=
  (foot_lascl ((covT_owns A uplo .NonUnit).imp fun _ h => h) ((covT_owns A uplo .NonUnit).imp fun _ h => h)).confined

/-- copy. -/
theorem C44_copy  (x y : VecV L) :
    Confined (fun l => VecV.Owns x l) (fun l => VecV.Owns y l) (copy x y : M L T Unit) :=
  (foot_copy ((covV_owns x).imp fun _ h => h) ((covV_owns y).imp fun _ h => h)).confined

/-- swap. -/
theorem C44_swap  (x y : VecV L) :
    Confined (fun l => VecV.Owns x l ∨ VecV.Owns y l) (fun l => VecV.Owns x l ∨ VecV.Owns y l) (swap x y : M L T Unit) :=
  (foot_swap ((covV_owns x).imp fun _ h => .inl h) ((covV_owns y).imp fun _ h => .inr h) ((covV_owns x).imp fun _ h => .inl h) ((covV_owns y).imp fun _ h => .inr h)).confined

/-- scal. -/
theorem C44_scal [Mul T] (alpha : T) (x : VecV L) :
    Confined (fun l => VecV.Owns x l) (fun l => VecV.Owns x l) (scal alpha x : M L T Unit) :=
  (foot_scal ((covV_owns x).imp fun _ h => h) ((covV_owns x).imp fun _ h => h)).confined

/-- axpy. -/
theorem C44_axpy [Add T] [Mul T] (alpha : T) (x y : VecV L) :
    Confined (fun l => VecV.Owns x l ∨ VecV.Owns y l) (fun l => VecV.Owns y l) (axpy alpha x y : M L T Unit) :=
  (foot_axpy ((covV_owns x).imp fun _ h => .inl h) ((covV_owns y).imp fun _ h => .inr h) ((covV_owns y).imp fun _ h => h)).confined

/-- dot. -/
theorem C44_dot [Zero T] [Add T] [Mul T] [Star T] (x y : VecV L) :
    Confined (fun l => VecV.Owns x l ∨ VecV.Owns y l) (fun l => False) (dot x y : M L T T) :=
  (foot_dot ((covV_owns x).imp fun _ h => .inl h) ((covV_owns y).imp fun _ h => .inr h)).confined

/-- dotu. -/
theorem C44_dotu [Zero T] [Add T] [Mul T] (x y : VecV L) :
    Confined (fun l => VecV.Owns x l ∨ VecV.Owns y l) (fun l => False) (dotu x y : M L T T) :=
  (foot_dotu ((covV_owns x).imp fun _ h => .inl h) ((covV_owns y).imp fun _ h => .inr h)).confined

/-- rot. -/
theorem C44_rot [Zero T] [One T] [Add T] [Mul T] [Sub T] [Star T] [DecidableEq T] (x y : VecV L) (c s : T) :
    Confined (fun l => VecV.Owns x l ∨ VecV.Owns y l) (fun l => VecV.Owns x l ∨ VecV.Owns y l) (rot x y c s : M L T Unit) :=
  (foot_rot ((covV_owns x).imp fun _ h => .inl h) ((covV_owns y).imp fun _ h => .inr h) ((covV_owns x).imp fun _ h => .inl h) ((covV_owns y).imp fun _ h => .inr h)).confined

theorem C44_rotm [Zero T] [One T] [Add T] [Mul T] [Sub T] (flag : ℤ) (x y : VecV L) (h : ℕ → T) :
    Confined (fun l => VecV.Owns x l ∨ VecV.Owns y l) (fun l => VecV.Owns x l ∨ VecV.Owns y l) (rotm flag x y h : M L T Unit) :=
  (foot_rotm flag ((covV_owns x).imp fun _ h => .inl h) ((covV_owns y).imp fun _ h => .inr h) ((covV_owns x).imp fun _ h => .inl h) ((covV_owns y).imp fun _ h => .inr h)).confined

/-- iamax. -/
theorem C44_iamax {K : Type} [LT K] [DecidableRel (α := K) (· < ·)] (o : IamaxOps T K) (x : VecV L) :
    Confined (fun l => VecV.Owns x l) (fun l => False) (iamaxEc o x : M L T (Option Nat)) :=
  (foot_iamaxEc ((covV_owns x).imp fun _ h => h)).confined

/-- gemv. -/
theorem C44_gemv [Zero T] [Add T] [Mul T] [Star T] (trans : Op) (alpha : T) (A : MatV L) (x : VecV L) (beta : Coef T) (y : VecV L) :
    Confined (fun l => MatV.Owns A l ∨ VecV.Owns x l ∨ VecV.Owns y l) (fun l => VecV.Owns y l) (gemv trans alpha A x beta y : M L T Unit) :=
  (foot_gemv ((covM_owns A).imp fun _ h => .inl h) ((covV_owns x).imp fun _ h => .inr (.inl h)) ((covV_owns y).imp fun _ h => .inr (.inr h)) ((covV_owns y).imp fun _ h => h)).confined

/-- ger. -/
theorem C44_ger [Add T] [Mul T] [Star T] (alpha : T) (x y : VecV L) (A : MatV L) :
    Confined (fun l => MatV.Owns A l ∨ VecV.Owns x l ∨ VecV.Owns y l) (fun l => MatV.Owns A l) (ger alpha x y A : M L T Unit) :=
  (foot_ger ((covM_owns A).imp fun _ h => .inl h) ((covM_owns A).imp fun _ h => h) ((covV_owns x).imp fun _ h => .inr (.inl h)) ((covV_owns y).imp fun _ h => .inr (.inr h))).confined

/-- geru. -/
theorem C44_geru [Add T] [Mul T] (alpha : T) (x y : VecV L) (A : MatV L) :
    Confined (fun l => MatV.Owns A l ∨ VecV.Owns x l ∨ VecV.Owns y l) (fun l => MatV.Owns A l) (geru alpha x y A : M L T Unit) :=
  (foot_geru ((covM_owns A).imp fun _ h => .inl h) ((covM_owns A).imp fun _ h => h) ((covV_owns x).imp fun _ h => .inr (.inl h)) ((covV_owns y).imp fun _ h => .inr (.inr h))).confined

/-- gemm. -/
theorem C44_gemm [Zero T] [Add T] [Mul T] [Star T] (transA transB : Op) (alpha : T) (A B : MatV L) (beta : Coef T) (C : MatV L) :
    Confined (fun l => MatV.Owns A l ∨ MatV.Owns B l ∨ MatV.Owns C l) (fun l => MatV.Owns C l) (gemm transA transB alpha A B beta C : M L T Unit) :=
  (foot_gemm ((covM_owns A).imp fun _ h => .inl h) ((covM_owns B).imp fun _ h => .inr (.inl h)) ((covM_owns C).imp fun _ h => .inr (.inr h)) ((covM_owns C).imp fun _ h => h)).confined

/-- transpose, conjtranspose. -/
theorem C44_transpose  (f : T → T) (nx : Nat) (A B : MatV L) :
    Confined (fun l => MatV.Owns A l) (fun l => MatV.Owns B l) (transposeRec f nx A B : M L T Unit) :=
  (foot_transpose ((covM_owns A).imp fun _ h => h) ((covM_owns B).imp fun _ h => h)).confined

/-- laset does not look at any memory. -/
theorem C44_laset (uplo : Uplo) (alpha beta : T) (A : MatV L) :
    Confined (fun _ => False) (A.OwnsTri uplo .NonUnit) (laset uplo alpha beta A : M L T Unit) :=
  (foot_laset (covT_owns A _ _)).confined

/-- getrf, both variants. -/
theorem C44_getrf [Zero T] [One T] [Add T] [Mul T] [Sub T] [Neg T] [Div T] [Star T] [ReIm T] [DecidableEq T] {K : Type} [Field K] [LinearOrder K] (o : LuOps T K) (variant : GetrfVariant) (A : MatV L) (piv : IArr) :
    Confined (fun l => MatV.Owns A l) (fun l => MatV.Owns A l) (getrf o variant A piv : M L T (Nat × IArr)) :=
  (foot_getrf ((covM_owns A).imp fun _ h => h) ((covM_owns A).imp fun _ h => h)).confined

/-- ul_mult. -/
theorem C44_ul_mult [Zero T] [One T] [Add T] [Mul T] [Sub T] [Neg T] [Div T] [Star T] [ReIm T] (A : MatV L) :
    Confined (fun l => MatV.Owns A l) (fun l => MatV.Owns A l) (ulMult A : M L T Unit) :=
  (foot_ulMult ((covM_owns A).imp fun _ h => h) ((covM_owns A).imp fun _ h => h)).confined

/-- lu_mult. -/
theorem C44_lu_mult [Zero T] [One T] [Add T] [Mul T] [Sub T] [Neg T] [Div T] [Star T] [ReIm T] (nx : Nat) (A : MatV L) :
    Confined (fun l => MatV.Owns A l) (fun l => MatV.Owns A l) (luMult nx A : M L T Unit) :=
  (foot_luMult ((covM_owns A).imp fun _ h => h) ((covM_owns A).imp fun _ h => h)).confined

/-- getri, variant UILI. -/
theorem C44_getri_uili [Zero T] [One T] [Add T] [Mul T] [Sub T] [Neg T] [Div T] [Star T] [ReIm T] [DecidableEq T] (dbg : Bool) (A : MatV L) (piv : IArr) :
    Confined (fun l => MatV.Owns A l) (fun l => MatV.Owns A l) (getriUILI dbg A piv : M L T Nat) :=
  (foot_getriUILI ((covM_owns A).imp fun _ h => h) ((covM_owns A).imp fun _ h => h)).confined

/-- getri, variant UXLI. -/
theorem C44_getri_uxli [Zero T] [One T] [Add T] [Mul T] [Sub T] [Neg T] [Div T] [Star T] [ReIm T] [DecidableEq T] (A : MatV L) (piv : IArr) (work : VecV L) :
    Confined (fun l => MatV.Owns A l ∨ VecV.Owns work l) (fun l => MatV.Owns A l ∨ VecV.Owns work l) (getriUXLI A piv work : M L T Nat) :=
  (foot_getriUXLI ((covM_owns A).imp fun _ h => .inl h) ((covM_owns A).imp fun _ h => .inl h) ((covV_owns work).imp fun _ h => .inr h) ((covV_owns work).imp fun _ h => .inr h)).confined

/-- pttrf. -/
theorem C44_pttrf [Zero T] [One T] [Add T] [Mul T] [Sub T] [Neg T] [Div T] [Star T] [ReIm T] [RealOps T] (thr : Bool) (D E : VecV L) :
    Confined (fun l => VecV.Owns D l ∨ VecV.Owns E l) (fun l => VecV.Owns D l ∨ VecV.Owns E l) (pttrf thr D E : M L T Nat) :=
  (foot_pttrf ((covV_owns D).imp fun _ h => .inl h) ((covV_owns E).imp fun _ h => .inr h) ((covV_owns D).imp fun _ h => .inl h) ((covV_owns E).imp fun _ h => .inr h)).confined

/-- nrm2. -/
theorem C44_nrm2 [Zero T] [One T] [Add T] [Mul T] [Sub T] [Neg T] [Div T] [Star T] [ReIm T] [DecidableEq T] {K : Type} [Field K] [LinearOrder K] (o : HhOps T K) (x : VecV L) :
    Confined (fun l => VecV.Owns x l) (fun l => False) (nrm2 o x : M L T K) :=
  (foot_nrm2 ((covV_owns x).imp fun _ h => h)).confined

/-- larfg. -/
theorem C44_larfg [Zero T] [One T] [Add T] [Mul T] [Sub T] [Neg T] [Div T] [Star T] [ReIm T] [DecidableEq T] {K : Type} [Field K] [LinearOrder K] (o : HhOps T K) (dir : Direction) (store : StoreV) (v : VecV L) :
    Confined (fun l => VecV.Owns v l) (fun l => VecV.Owns v l) (larfgV o dir store v : M L T T) :=
  (foot_larfgV ((covV_owns v).imp fun _ h => h) ((covV_owns v).imp fun _ h => h)).confined

/-- larf. -/
theorem C44_larf [Zero T] [One T] [Add T] [Mul T] [Sub T] [Neg T] [Div T] [Star T] [ReIm T] [DecidableEq T] (side : Side) (dir : Direction) (store : StoreV) (v : VecV L) (tau : T) (C : MatV L) (work : VecV L) :
    Confined (fun l => VecV.Owns v l ∨ MatV.Owns C l ∨ VecV.Owns work l) (fun l => MatV.Owns C l ∨ VecV.Owns work l) (larf side dir store v tau C work : M L T Unit) :=
  (foot_larf ((covV_owns v).imp fun _ h => .inl h) ((covM_owns C).imp fun _ h => .inr (.inl h)) ((covM_owns C).imp fun _ h => .inl h) ((covV_owns work).imp fun _ h => .inr (.inr h)) ((covV_owns work).imp fun _ h => .inr h)).confined

/-- geqr2. -/
theorem C44_geqr2 [Zero T] [One T] [Add T] [Mul T] [Sub T] [Neg T] [Div T] [Star T] [ReIm T] [DecidableEq T] {K : Type} [Field K] [LinearOrder K] (o : HhOps T K) (A : MatV L) (tau work : VecV L) :
    Confined (fun l => MatV.Owns A l ∨ VecV.Owns tau l ∨ VecV.Owns work l) (fun l => MatV.Owns A l ∨ VecV.Owns tau l ∨ VecV.Owns work l) (geqr2 o A tau work : M L T Nat) :=
  (foot_geqr2 ((covM_owns A).imp fun _ h => .inl h) ((covM_owns A).imp fun _ h => .inl h) ((covV_owns tau).imp fun _ h => .inr (.inl h)) ((covV_owns tau).imp fun _ h => .inr (.inl h)) ((covV_owns work).imp fun _ h => .inr (.inr h)) ((covV_owns work).imp fun _ h => .inr (.inr h))).confined

/-- geql2. -/
theorem C44_geql2 [Zero T] [One T] [Add T] [Mul T] [Sub T] [Neg T] [Div T] [Star T] [ReIm T] [DecidableEq T] {K : Type} [Field K] [LinearOrder K] (o : HhOps T K) (A : MatV L) (tau work : VecV L) :
    Confined (fun l => MatV.Owns A l ∨ VecV.Owns tau l ∨ VecV.Owns work l) (fun l => MatV.Owns A l ∨ VecV.Owns tau l ∨ VecV.Owns work l) (geql2 o A tau work : M L T Nat) :=
  (foot_geql2 ((covM_owns A).imp fun _ h => .inl h) ((covM_owns A).imp fun _ h => .inl h) ((covV_owns tau).imp fun _ h => .inr (.inl h)) ((covV_owns tau).imp fun _ h => .inr (.inl h)) ((covV_owns work).imp fun _ h => .inr (.inr h)) ((covV_owns work).imp fun _ h => .inr (.inr h))).confined

/-- gelq2. -/
theorem C44_gelq2 [Zero T] [One T] [Add T] [Mul T] [Sub T] [Neg T] [Div T] [Star T] [ReIm T] [DecidableEq T] {K : Type} [Field K] [LinearOrder K] (o : HhOps T K) (A : MatV L) (tau work : VecV L) :
    Confined (fun l => MatV.Owns A l ∨ VecV.Owns tau l ∨ VecV.Owns work l) (fun l => MatV.Owns A l ∨ VecV.Owns tau l ∨ VecV.Owns work l) (gelq2 o A tau work : M L T Nat) :=
  (foot_gelq2 ((covM_owns A).imp fun _ h => .inl h) ((covM_owns A).imp fun _ h => .inl h) ((covV_owns tau).imp fun _ h => .inr (.inl h)) ((covV_owns tau).imp fun _ h => .inr (.inl h)) ((covV_owns work).imp fun _ h => .inr (.inr h)) ((covV_owns work).imp fun _ h => .inr (.inr h))).confined

/-- gerq2. -/
theorem C44_gerq2 [Zero T] [One T] [Add T] [Mul T] [Sub T] [Neg T] [Div T] [Star T] [ReIm T] [DecidableEq T] {K : Type} [Field K] [LinearOrder K] (o : HhOps T K) (A : MatV L) (tau work : VecV L) :
    Confined (fun l => MatV.Owns A l ∨ VecV.Owns tau l ∨ VecV.Owns work l) (fun l => MatV.Owns A l ∨ VecV.Owns tau l ∨ VecV.Owns work l) (gerq2 o A tau work : M L T Nat) :=
  (foot_gerq2 ((covM_owns A).imp fun _ h => .inl h) ((covM_owns A).imp fun _ h => .inl h) ((covV_owns tau).imp fun _ h => .inr (.inl h)) ((covV_owns tau).imp fun _ h => .inr (.inl h)) ((covV_owns work).imp fun _ h => .inr (.inr h)) ((covV_owns work).imp fun _ h => .inr (.inr h))).confined

/-- ung2r, ung2l, ungl2, ungr2. -/
theorem C44_ungq [Zero T] [One T] [Add T] [Mul T] [Sub T] [Neg T] [Div T] [Star T] [ReIm T] [DecidableEq T] (dir : Direction) (store : StoreV) (A : MatV L) (tau work : VecV L) :
    Confined (fun l => MatV.Owns A l ∨ VecV.Owns tau l ∨ VecV.Owns work l) (fun l => MatV.Owns A l ∨ VecV.Owns work l) (ungq dir store A tau work : M L T Nat) :=
  (foot_ungq ((covM_owns A).imp fun _ h => .inl h) ((covM_owns A).imp fun _ h => .inl h) ((covV_owns tau).imp fun _ h => .inr (.inl h)) ((covV_owns work).imp fun _ h => .inr (.inr h)) ((covV_owns work).imp fun _ h => .inr h)).confined

/-- unm2r, unm2l, unml2, unmr2. -/
theorem C44_unmq [Zero T] [One T] [Add T] [Mul T] [Sub T] [Neg T] [Div T] [Star T] [ReIm T] [DecidableEq T] (isReal : Bool) (side : Side) (trans : Op) (dir : Direction) (store : StoreV) (V : MatV L) (tau : VecV L) (C : MatV L) (work : VecV L) :
    Confined (fun l => MatV.Owns V l ∨ VecV.Owns tau l ∨ MatV.Owns C l ∨ VecV.Owns work l) (fun l => MatV.Owns C l ∨ VecV.Owns work l) (unmq isReal side trans dir store V tau C work : M L T Nat) :=
  (foot_unmq ((covM_owns V).imp fun _ h => .inl h) ((covV_owns tau).imp fun _ h => .inr (.inl h)) ((covM_owns C).imp fun _ h => .inr (.inr (.inl h))) ((covM_owns C).imp fun _ h => .inl h) ((covV_owns work).imp fun _ h => .inr (.inr (.inr h))) ((covV_owns work).imp fun _ h => .inr h)).confined

/-- geqrf, every block size. -/
theorem C44_geqrf [Zero T] [One T] [Add T] [Mul T] [Sub T] [Neg T] [Div T] [Star T] [ReIm T] [DecidableEq T] {K : Type} [Field K] [LinearOrder K] (o : HhOps T K) (nb : Nat) (A : MatV L) (tau work : VecV L) :
    Confined (fun l => MatV.Owns A l ∨ VecV.Owns tau l ∨ VecV.Owns work l) (fun l => MatV.Owns A l ∨ VecV.Owns tau l ∨ VecV.Owns work l) (geqrf o nb A tau work : M L T Nat) :=
  (foot_geqrf ((covM_owns A).imp fun _ h => .inl h) ((covM_owns A).imp fun _ h => .inl h) ((covV_owns tau).imp fun _ h => .inr (.inl h)) ((covV_owns tau).imp fun _ h => .inr (.inl h)) ((covV_owns work).imp fun _ h => .inr (.inr h)) ((covV_owns work).imp fun _ h => .inr (.inr h))).confined

/-- geqlf, every block size. -/
theorem C44_geqlf [Zero T] [One T] [Add T] [Mul T] [Sub T] [Neg T] [Div T] [Star T] [ReIm T] [DecidableEq T] {K : Type} [Field K] [LinearOrder K] (o : HhOps T K) (nb : Nat) (A : MatV L) (tau work : VecV L) :
    Confined (fun l => MatV.Owns A l ∨ VecV.Owns tau l ∨ VecV.Owns work l) (fun l => MatV.Owns A l ∨ VecV.Owns tau l ∨ VecV.Owns work l) (geqlf o nb A tau work : M L T Nat) :=
  (foot_geqlf ((covM_owns A).imp fun _ h => .inl h) ((covM_owns A).imp fun _ h => .inl h) ((covV_owns tau).imp fun _ h => .inr (.inl h)) ((covV_owns tau).imp fun _ h => .inr (.inl h)) ((covV_owns work).imp fun _ h => .inr (.inr h)) ((covV_owns work).imp fun _ h => .inr (.inr h))).confined

/-- gelqf, every block size. -/
theorem C44_gelqf [Zero T] [One T] [Add T] [Mul T] [Sub T] [Neg T] [Div T] [Star T] [ReIm T] [DecidableEq T] {K : Type} [Field K] [LinearOrder K] (o : HhOps T K) (nb : Nat) (A : MatV L) (tau work : VecV L) :
    Confined (fun l => MatV.Owns A l ∨ VecV.Owns tau l ∨ VecV.Owns work l) (fun l => MatV.Owns A l ∨ VecV.Owns tau l ∨ VecV.Owns work l) (gelqf o nb A tau work : M L T Nat) :=
  (foot_gelqf ((covM_owns A).imp fun _ h => .inl h) ((covM_owns A).imp fun _ h => .inl h) ((covV_owns tau).imp fun _ h => .inr (.inl h)) ((covV_owns tau).imp fun _ h => .inr (.inl h)) ((covV_owns work).imp fun _ h => .inr (.inr h)) ((covV_owns work).imp fun _ h => .inr (.inr h))).confined

/-- gerqf, every block size. -/
theorem C44_gerqf [Zero T] [One T] [Add T] [Mul T] [Sub T] [Neg T] [Div T] [Star T] [ReIm T] [DecidableEq T] {K : Type} [Field K] [LinearOrder K] (o : HhOps T K) (nb : Nat) (A : MatV L) (tau work : VecV L) :
    Confined (fun l => MatV.Owns A l ∨ VecV.Owns tau l ∨ VecV.Owns work l) (fun l => MatV.Owns A l ∨ VecV.Owns tau l ∨ VecV.Owns work l) (gerqf o nb A tau work : M L T Nat) :=
  (foot_gerqf ((covM_owns A).imp fun _ h => .inl h) ((covM_owns A).imp fun _ h => .inl h) ((covV_owns tau).imp fun _ h => .inr (.inl h)) ((covV_owns tau).imp fun _ h => .inr (.inl h)) ((covV_owns work).imp fun _ h => .inr (.inr h)) ((covV_owns work).imp fun _ h => .inr (.inr h))).confined

/-- larft. -/
theorem C44_larft [Zero T] [One T] [Add T] [Mul T] [Sub T] [Neg T] [Div T] [Star T] [ReIm T] [DecidableEq T] (dir : Direction) (store : StoreV) (V : MatV L) (tau : VecV L) (Tm : MatV L) :
    Confined (fun l => MatV.Owns V l ∨ VecV.Owns tau l ∨ MatV.Owns Tm l) (fun l => MatV.Owns Tm l) (larft dir store V tau Tm : M L T Nat) :=
  (foot_larft ((covM_owns V).imp fun _ h => .inl h) ((covV_owns tau).imp fun _ h => .inr (.inl h)) ((covM_owns Tm).imp fun _ h => .inr (.inr h)) ((covM_owns Tm).imp fun _ h => h)).confined

/-- larfb. -/
theorem C44_larfb [Zero T] [One T] [Add T] [Mul T] [Sub T] [Neg T] [Div T] [Star T] [ReIm T] [DecidableEq T] (isReal : Bool) (side : Side) (trans : Op) (dir : Direction) (store : StoreV) (V Tm C : MatV L) (work : VecV L) :
    Confined (fun l => MatV.Owns V l ∨ MatV.Owns Tm l ∨ MatV.Owns C l ∨ VecV.Owns work l) (fun l => MatV.Owns C l ∨ VecV.Owns work l) (larfb isReal side trans dir store V Tm C work : M L T Nat) :=
  (foot_larfb ((covM_owns V).imp fun _ h => .inl h) ((covM_owns Tm).imp fun _ h => .inr (.inl h)) ((covM_owns C).imp fun _ h => .inr (.inr (.inl h))) ((covM_owns C).imp fun _ h => .inl h) ((covV_owns work).imp fun _ h => .inr (.inr (.inr h))) ((covV_owns work).imp fun _ h => .inr h)).confined

/-- unmqr, unmql, unmlq, unmrq, every block size. -/
theorem C44_unmqBlk [Zero T] [One T] [Add T] [Mul T] [Sub T] [Neg T] [Div T] [Star T] [ReIm T] [DecidableEq T] (isReal : Bool) (nb : Nat) (side : Side) (trans : Op) (dir : Direction) (store : StoreV) (V : MatV L) (tau : VecV L) (C : MatV L) (work : VecV L) :
    Confined (fun l => MatV.Owns V l ∨ VecV.Owns tau l ∨ MatV.Owns C l ∨ VecV.Owns work l) (fun l => MatV.Owns C l ∨ VecV.Owns work l) (unmqBlk isReal nb side trans dir store V tau C work : M L T Nat) :=
  (foot_unmqBlk ((covM_owns V).imp fun _ h => .inl h) ((covV_owns tau).imp fun _ h => .inr (.inl h)) ((covM_owns C).imp fun _ h => .inr (.inr (.inl h))) ((covM_owns C).imp fun _ h => .inl h) ((covV_owns work).imp fun _ h => .inr (.inr (.inr h))) ((covV_owns work).imp fun _ h => .inr h)).confined

/-- ungqr, ungql, unglq, ungrq, every block size. -/
theorem C44_ungqBlk [Zero T] [One T] [Add T] [Mul T] [Sub T] [Neg T] [Div T] [Star T] [ReIm T] [DecidableEq T] (isReal : Bool) (nb : Nat) (dir : Direction) (store : StoreV) (A : MatV L) (tau work : VecV L) :
    Confined (fun l => MatV.Owns A l ∨ VecV.Owns tau l ∨ VecV.Owns work l) (fun l => MatV.Owns A l ∨ VecV.Owns work l) (ungqBlk isReal nb dir store A tau work : M L T Nat) :=
  (foot_ungqBlk ((covM_owns A).imp fun _ h => .inl h) ((covM_owns A).imp fun _ h => .inl h) ((covV_owns tau).imp fun _ h => .inr (.inl h)) ((covV_owns work).imp fun _ h => .inr (.inr h)) ((covV_owns work).imp fun _ h => .inr h)).confined

/-- trmm_out: reads one triangle of `A`, `B` and `C`, writes `C`. -/
theorem C40_trmm_out [Zero T] [One T] [Add T] [Mul T] [Sub T] [Neg T] [Div T] [Star T] [ReIm T] (side : Side) {uplo : Uplo} (hu : uplo = .Upper ∨ uplo = .Lower) (transA : Op) (diag : Diag) (transB : Op) (alpha : T) (A B : MatV L) (beta : Coef T) (C : MatV L) :
    Confined (fun l => MatV.OwnsTri A uplo diag l ∨ MatV.Owns B l ∨ MatV.Owns C l) (fun l => MatV.Owns C l) (trmmOut side uplo transA diag transB alpha A B beta C) :=
  (foot_trmmOut hu ((covT_owns A uplo diag).imp fun _ h => .inl h) ((covM_owns B).imp fun _ h => .inr (.inl h)) ((covM_owns C).imp fun _ h => .inr (.inr h)) ((covM_owns C).imp fun _ h => h)).confined

/-- trsm_tri: reads the triangle of `A` that `op(A)` needs and one triangle of `B`, writes that triangle of `B`. -/
theorem C40_trsm_tri [Zero T] [One T] [Add T] [Mul T] [Sub T] [Neg T] [Div T] [Star T] [ReIm T] (side : Side) {uploB : Uplo} (hu : uploB = .Upper ∨ uploB = .Lower) (transA : Op) (diagA : Diag) (alpha : T) (A B : MatV L) :
    Confined (fun l => MatV.OwnsTri A (if transA ≠ .NoTrans then (if uploB = .Upper then .Lower else .Upper) else uploB) diagA l ∨ MatV.OwnsTri B uploB .NonUnit l) (fun l => MatV.OwnsTri B uploB .NonUnit l) (trsmTri side uploB transA diagA alpha A B) :=
  (foot_trsmTri hu ((covT_owns A _ diagA).imp fun _ h => .inl h) ((covT_owns B uploB .NonUnit).imp fun _ h => .inr h) ((covT_owns B uploB .NonUnit).imp fun _ h => h)).confined

/-- gemmtr: reads and writes one triangle of `C`. -/
theorem C40_gemmtr [Zero T] [One T] [Add T] [Mul T] [Sub T] [Neg T] [Div T] [Star T] [ReIm T] (uplo : Uplo) (transA transB : Op) (alpha : T) (A B : MatV L) (beta : Coef T) (C : MatV L) :
    Confined (fun l => MatV.OwnsTri C uplo .NonUnit l ∨ MatV.Owns A l ∨ MatV.Owns B l) (fun l => MatV.OwnsTri C uplo .NonUnit l) (gemmtr uplo transA transB alpha A B beta C) :=
  (foot_gemmtr ((covM_owns A).imp fun _ h => .inr (.inl h)) ((covM_owns B).imp fun _ h => .inr (.inr h)) ((covT_owns C uplo .NonUnit).imp fun _ h => .inl h) ((covT_owns C uplo .NonUnit).imp fun _ h => h)).confined

/-- hemm2: reads one triangle of `A`. -/
theorem C40_hemm2 [Zero T] [One T] [Add T] [Mul T] [Sub T] [Neg T] [Div T] [Star T] [ReIm T] (side : Side) (uplo : Uplo) (transB : Op) (alpha : T) (A B : MatV L) (beta : Coef T) (C : MatV L) :
    Confined (fun l => MatV.OwnsTri A uplo .NonUnit l ∨ MatV.Owns B l ∨ MatV.Owns C l) (fun l => MatV.Owns C l) (hemm2 side uplo transB alpha A B beta C) :=
  (foot_hemm2 ((covT_owns A uplo .NonUnit).imp fun _ h => .inl h) ((covM_owns B).imp fun _ h => .inr (.inl h)) ((covM_owns C).imp fun _ h => .inr (.inr h)) ((covM_owns C).imp fun _ h => h)).confined

/-- mult_hehe: reads one triangle of `A` and of `B`. -/
theorem C40_mult_hehe [Zero T] [One T] [Add T] [Mul T] [Sub T] [Neg T] [Div T] [Star T] [ReIm T] {uplo : Uplo} (hu : uplo = .Upper ∨ uplo = .Lower) (alpha : T) (A B : MatV L) (beta : Coef T) (C : MatV L) :
    Confined (fun l => MatV.OwnsTri A uplo .NonUnit l ∨ MatV.OwnsTri B uplo .NonUnit l ∨ MatV.Owns C l) (fun l => MatV.Owns C l) (multHehe uplo alpha A B beta C) :=
  (foot_multHehe hu ((covT_owns A uplo .NonUnit).imp fun _ h => .inl h) ((covT_owns B uplo .NonUnit).imp fun _ h => .inr (.inl h)) ((covM_owns C).imp fun _ h => .inr (.inr h)) ((covM_owns C).imp fun _ h => h)).confined

/-- trmm_blocked_mixed: reads one triangle of `A`, writes `B` and the workspace. -/
theorem C40_trmm_blocked [Zero T] [One T] [Add T] [Mul T] [Sub T] [Neg T] [Div T] [Star T] [ReIm T] (nb : Nat) (side : Side) (uplo : Uplo) (trans : Op) (diag : Diag) (alpha : T) (A B : MatV L) (work : VecV L) :
    Confined (fun l => MatV.OwnsTri A uplo diag l ∨ MatV.Owns B l ∨ VecV.Owns work l) (fun l => MatV.Owns B l ∨ VecV.Owns work l) (trmmBlockedMixed nb side uplo trans diag alpha A B work) :=
  (foot_trmmBlocked ((covT_owns A uplo diag).imp fun _ h => .inl h) ((covM_owns B).imp fun _ h => .inr (.inl h)) ((covM_owns B).imp fun _ h => .inl h) ((covV_owns work).imp fun _ h => .inr (.inr h)) ((covV_owns work).imp fun _ h => .inr h)).confined

/-- gehd2. -/
theorem C44_gehd2 [Zero T] [One T] [Add T] [Mul T] [Sub T] [Neg T] [Div T] [Star T] [ReIm T] [DecidableEq T] {K : Type} [Field K] [LinearOrder K] (o : HhOps T K) (ilo ihi : Nat) (A : MatV L) (tau work : VecV L) :
    Confined (fun l => MatV.Owns A l ∨ VecV.Owns tau l ∨ VecV.Owns work l) (fun l => MatV.Owns A l ∨ VecV.Owns tau l ∨ VecV.Owns work l) (gehd2 o ilo ihi A tau work : M L T Nat) :=
  (foot_gehd2 ((covM_owns A).imp fun _ h => .inl h) ((covM_owns A).imp fun _ h => .inl h) ((covV_owns tau).imp fun _ h => .inr (.inl h)) ((covV_owns tau).imp fun _ h => .inr (.inl h)) ((covV_owns work).imp fun _ h => .inr (.inr h)) ((covV_owns work).imp fun _ h => .inr (.inr h))).confined

/-- unghr. -/
theorem C44_unghr [Zero T] [One T] [Add T] [Mul T] [Sub T] [Neg T] [Div T] [Star T] [ReIm T] [DecidableEq T] (isReal : Bool) (ilo ihi : Nat) (A : MatV L) (tau work : VecV L) :
    Confined (fun l => MatV.Owns A l ∨ VecV.Owns tau l ∨ VecV.Owns work l) (fun l => MatV.Owns A l ∨ VecV.Owns work l) (unghr isReal ilo ihi A tau work : M L T Nat) :=
  (foot_unghr ((covM_owns A).imp fun _ h => .inl h) ((covM_owns A).imp fun _ h => .inl h) ((covV_owns tau).imp fun _ h => .inr (.inl h)) ((covV_owns work).imp fun _ h => .inr (.inr h)) ((covV_owns work).imp fun _ h => .inr h)).confined

/-- unmhr. -/
theorem C44_unmhr [Zero T] [One T] [Add T] [Mul T] [Sub T] [Neg T] [Div T] [Star T] [ReIm T] [DecidableEq T] (isReal : Bool) (side : Side) (trans : Op) (ilo ihi : Nat) (A : MatV L) (tau : VecV L) (C : MatV L) (work : VecV L) :
    Confined (fun l => MatV.Owns A l ∨ VecV.Owns tau l ∨ MatV.Owns C l ∨ VecV.Owns work l) (fun l => MatV.Owns C l ∨ VecV.Owns work l) (unmhr isReal side trans ilo ihi A tau C work : M L T Nat) :=
  (foot_unmhr ((covM_owns A).imp fun _ h => .inl h) ((covV_owns tau).imp fun _ h => .inr (.inl h)) ((covM_owns C).imp fun _ h => .inr (.inr (.inl h))) ((covM_owns C).imp fun _ h => .inl h) ((covV_owns work).imp fun _ h => .inr (.inr (.inr h))) ((covV_owns work).imp fun _ h => .inr h)).confined

/-- gebd2. -/
theorem C44_gebd2 [Zero T] [One T] [Add T] [Mul T] [Sub T] [Neg T] [Div T] [Star T] [ReIm T] [DecidableEq T] {K : Type} [Field K] [LinearOrder K] (o : HhOps T K) (A : MatV L) (tauv tauw work : VecV L) :
    Confined (fun l => MatV.Owns A l ∨ VecV.Owns tauv l ∨ VecV.Owns tauw l ∨ VecV.Owns work l) (fun l => MatV.Owns A l ∨ VecV.Owns tauv l ∨ VecV.Owns tauw l ∨ VecV.Owns work l) (gebd2 o A tauv tauw work : M L T Nat) :=
  (foot_gebd2 ((covM_owns A).imp fun _ h => .inl h) ((covM_owns A).imp fun _ h => .inl h) ((covV_owns tauv).imp fun _ h => .inr (.inl h)) ((covV_owns tauv).imp fun _ h => .inr (.inl h)) ((covV_owns tauw).imp fun _ h => .inr (.inr (.inl h))) ((covV_owns tauw).imp fun _ h => .inr (.inr (.inl h))) ((covV_owns work).imp fun _ h => .inr (.inr (.inr h))) ((covV_owns work).imp fun _ h => .inr (.inr (.inr h)))).confined

/-- ungtr. -/
theorem C44_ungtr [Zero T] [One T] [Add T] [Mul T] [Sub T] [Neg T] [Div T] [Star T] [ReIm T] [DecidableEq T] (isReal : Bool) (uplo : Uplo) (Q : MatV L) (tau work : VecV L) :
    Confined (fun l => MatV.Owns Q l ∨ VecV.Owns tau l ∨ VecV.Owns work l) (fun l => MatV.Owns Q l ∨ VecV.Owns work l) (ungtr isReal uplo Q tau work : M L T Nat) :=
  (foot_ungtr ((covM_owns Q).imp fun _ h => .inl h) ((covM_owns Q).imp fun _ h => .inl h) ((covV_owns tau).imp fun _ h => .inr (.inl h)) ((covV_owns work).imp fun _ h => .inr (.inr h)) ((covV_owns work).imp fun _ h => .inr h)).confined

/-- hetd2 works in the selected triangle and in `tau` only. -/
theorem C40_hetd2 [Zero T] [One T] [Add T] [Mul T] [Sub T] [Neg T] [Div T] [Star T] [ReIm T] [DecidableEq T] {K : Type} [Field K] [LinearOrder K] (o : HhOps T K) (half : T) (uplo : Uplo) (A : MatV L) (tau : VecV L) :
    Confined (fun l => MatV.OwnsTri A uplo .NonUnit l ∨ VecV.Owns tau l) (fun l => MatV.OwnsTri A uplo .NonUnit l ∨ VecV.Owns tau l) (hetd2 o half uplo A tau : M L T Nat) :=
  (foot_hetd2 ((covT_owns A uplo .NonUnit).imp fun _ h => .inl h) ((covT_owns A uplo .NonUnit).imp fun _ h => .inl h) ((covV_owns tau).imp fun _ h => .inr h) ((covV_owns tau).imp fun _ h => .inr h)).confined

/-- Two calls whose outputs are not touched by the other one can be made in either order. -/
theorem C44_commute {α β : Type} {R₁ W₁ R₂ W₂ : L → Prop} {x : M L T α} {y : M L T β}
    (hx : Confined R₁ W₁ x) (hy : Confined R₂ W₂ y)
    (h₁ : ∀ l, W₁ l → ¬ R₂ l ∧ ¬ W₂ l) (h₂ : ∀ l, W₂ l → ¬ R₁ l) (μ ν : Store L T) (a : α) (b : β) :
    (x >>= fun a => y >>= fun b => pure (a, b)) μ = (.ok (a, b), ν) ↔
      (y >>= fun b => x >>= fun a => pure (a, b)) μ = (.ok (a, b), ν) := by
  have ex : ∀ l, R₂ l → μ l = (x μ).2 l := fun l hl =>
    (hx.writes μ l (fun w => (h₁ l w).1 hl)).symm
  have ey : ∀ l, R₁ l → μ l = (y μ).2 l := fun l hl =>
    (hy.writes μ l (fun w => h₂ l w hl)).symm
  have r1 := hy.result _ _ ex
  have r2 := hx.result _ _ ey
  have st : (y (x μ).2).2 = (x (y μ).2).2 := by
    funext l
    by_cases w1 : W₁ l
    · have w2 := (h₁ l w1).2
      rw [hy.writes _ l w2, ← hx.values _ _ ey l (hy.writes μ l w2).symm]
    · by_cases w2 : W₂ l
      · rw [hx.writes _ l w1, ← hy.values _ _ ex l (hx.writes μ l w1).symm]
      · rw [hy.writes _ l w2, hx.writes _ l w1, hx.writes _ l w1, hy.writes _ l w2]
  have b1 : (x >>= fun a => y >>= fun b => pure (a, b) : M L T (α × β)) μ =
      match x μ with
      | (.ok a, ν) => (match y ν with
        | (.ok b, ν) => (.ok (a, b), ν)
        | (.error e, ν) => (.error e, ν))
      | (.error e, ν) => (.error e, ν) := rfl
  have b2 : (y >>= fun b => x >>= fun a => pure (a, b) : M L T (α × β)) μ =
      match y μ with
      | (.ok b, ν) => (match x ν with
        | (.ok a, ν) => (.ok (a, b), ν)
        | (.error e, ν) => (.error e, ν))
      | (.error e, ν) => (.error e, ν) := rfl
  rw [b1, b2]
  clear b1 b2 ex ey
  rcases hxm : x μ with ⟨r, ν1⟩
  rcases hym : y μ with ⟨s, ν2⟩
  rw [hxm, hym] at r1 r2 st
  simp only at r1 r2 st ⊢
  rcases hx2 : x ν2 with ⟨r', ν3⟩
  rcases hy2 : y ν1 with ⟨s', ν4⟩
  rw [hx2] at r2 st
  rw [hy2] at r1 st
  simp only at r1 r2 st
  subst r1 r2 st
  cases r <;> cases s <;> simp [hx2, hy2]

/-- `C44_commute` applies to two updates of different matrices with a common input. -/
example [Add T] [Mul T] [Star T] (alpha : T) (μ ν : Store (Nat × Nat × Nat) T) :
    (ger alpha (mkV 0 2) (mkV 1 3) (mkM 2 2 3) >>= fun a =>
        ger alpha (mkV 0 2) (mkV 1 3) (mkM 3 2 3) >>= fun b => pure (a, b)) μ = (.ok ((), ()), ν) ↔
      (ger alpha (mkV 0 2) (mkV 1 3) (mkM 3 2 3) >>= fun b =>
        ger alpha (mkV 0 2) (mkV 1 3) (mkM 2 2 3) >>= fun a => pure (a, b)) μ =
        (.ok ((), ()), ν) := by
  refine C44_commute (C44_ger _ _ _ _) (C44_ger _ _ _ _) ?_ ?_ μ ν () ()
  · rintro l ⟨i, j, _, _, rfl⟩
    constructor
    · rintro (⟨i', j', _, _, e⟩ | ⟨i', _, e⟩ | ⟨i', _, e⟩) <;> simp [mkM, mkV] at e
    · rintro ⟨i', j', _, _, e⟩
      simp [mkM] at e
  · rintro l ⟨i, j, _, _, rfl⟩
    rintro (⟨i', j', _, _, e⟩ | ⟨i', _, e⟩ | ⟨i', _, e⟩) <;> simp [mkM, mkV] at e

/-- The hypotheses of `C40_independent` are met: a unit triangular solve with a 3 × 3 matrix never
looks at its diagonal and upper triangle, whatever is stored there. -/
example [Mul T] [Sub T] [Div T] [Star T] (μ μ' : Store (Nat × Nat × Nat) T)
    (h : ∀ l, ¬ (∃ i j, i ≤ j ∧ j < 3 ∧ l = (0, i, j)) → μ l = μ' l) :
    (trsv .Lower .NoTrans .Unit (mkM 0 3 3) (mkV 1 3) μ).1 =
      (trsv .Lower .NoTrans .Unit (mkM 0 3 3) (mkV 1 3) μ').1 := by
  refine (C40_independent (C40_trsv .Lower .NoTrans .Unit (mkM 0 3 3) (mkV 1 3))
    (fun l => ∃ i j, i ≤ j ∧ j < 3 ∧ l = (0, i, j)) ?_ ?_ μ μ' h).1
  · rintro l ⟨i, j, h1, h2, rfl⟩ (h3 | ⟨k, h3, e⟩)
    · refine C40_unselected (mkM_inj 0 3 3) .Lower .Unit (i := i) (j := j) (by simp [mkM]; omega)
        (by simp [mkM]; omega) ?_ h3
      simp only [inTri, true_and]; omega
    · simp [mkV] at e
  · rintro l ⟨i, j, h1, h2, rfl⟩ ⟨k, h3, e⟩
    simp [mkV] at e

end TLA
