import Verif.Proofs.FootBlock
import Verif.Model.BlasX

/-!
# Footprints of the level-3 kernels that extend the BLAS
-/

set_option linter.unusedTactic false
set_option linter.unreachableTactic false
set_option linter.unusedVariables false
set_option linter.unusedSectionVars false

namespace TLA

variable {L T : Type} [DecidableEq L] {R W : L → Prop}
variable [Zero T] [One T] [Add T] [Mul T] [Sub T] [Neg T] [Div T] [Star T] [ReIm T]

theorem CovM.opSub {P : L → Prop} {op : Op} {B : MatV L} {r0 r1 c0 c1 : Nat} (h : CovM P B)
    (h1 : r1 ≤ opRows op B) (h2 : c1 ≤ opCols op B) : CovM P (opSub op B r0 r1 c0 c1) := by
  unfold TLA.opSub
  unfold opRows at h1
  unfold opCols at h2
  split <;> rename_i e <;> simp only [e, if_true, if_false] at h1 h2 <;> exact CovM.sub h (by omega) (by omega)

theorem Foot.opSlice_bind {α : Type} {op : Op} {B : MatV L} {r0 r1 c0 c1 : Nat} {f : MatV L → M L T α}
    (h : r0 ≤ r1 → r1 ≤ opRows op B → c0 ≤ c1 → c1 ≤ opCols op B → Foot R W (f (opSub op B r0 r1 c0 c1))) :
    Foot R W (opSlice op B r0 r1 c0 c1 >>= f) := by
  unfold opSlice
  unfold opSub opRows opCols at h
  split <;> rename_i e <;> simp only [e, if_true, if_false] at h
  · exact Foot.slice_bind fun a b c d => h a b c d
  · exact Foot.slice_bind fun a b c d => h c d a b

theorem foot_trmmOutTerm {diag : Diag} {alpha : T} {u : Uplo} {A : MatV L} {b : T}
    (hA : CovT R u diag A) (hu : inTri u 0 0) : Foot R W (trmmOutTerm diag alpha A b) := by
  unfold trmmOutTerm
  repeat' first | foot1 | assumption
  all_goals simp_all

/-- Calls and slices of this file. -/
macro "fx" : tactic => `(tactic| with_reducible first
  | refine Foot.opSlice_bind (fun _ _ _ _ => ?_)
  | foot1
  | fcall
  | ((apply foot_gemm) <;> first | fcov | exact CovM.opSub (by assumption) (by assumption) (by assumption)))

theorem foot_trmmOutR {u : Uplo} (hu : u = .Upper ∨ u = .Lower) {transA : Op} {diag : Diag} {transB : Op}
    {alpha : T} {A B : MatV L} {beta : Coef T} {C : MatV L} (hA : CovT R u diag A) (hB : CovM R B)
    (hC : CovM R C) (hC' : CovM W C) : Foot R W (trmmOutR u transA diag transB alpha A B beta C) := by
  induction hk : opCols transB B using Nat.strong_induction_on generalizing A B C beta with
  | _ k ih =>
    have d0 : inTri u 0 0 := by rcases hu with rfl | rfl <;> simp [inTri]
    rw [trmmOutR]
    rcases hu with rfl | rfl <;> simp only [reduceCtorEq, reduceIte] <;>
    repeat' first | fx | exact foot_opGet hB | exact foot_trmmOutTerm hA d0 | dsimp only
    all_goals refine ih _ ?_ ?_ ?_ ?_ ?_ rfl
    all_goals first | fcov | exact CovM.opSub hB (by assumption) (by assumption) | (rw [opCols_sub]; omega)

theorem foot_trmmOutL {u : Uplo} (hu : u = .Upper ∨ u = .Lower) {transA : Op} {diag : Diag} {transB : Op}
    {alpha : T} {A B : MatV L} {beta : Coef T} {C : MatV L} (hA : CovT R u diag A) (hB : CovM R B)
    (hC : CovM R C) (hC' : CovM W C) : Foot R W (trmmOutL u transA diag transB alpha A B beta C) := by
  induction hk : opRows transB B using Nat.strong_induction_on generalizing A B C beta with
  | _ k ih =>
    have d0 : inTri u 0 0 := by rcases hu with rfl | rfl <;> simp [inTri]
    rw [trmmOutL]
    rcases hu with rfl | rfl <;> simp only [reduceCtorEq, reduceIte] <;>
    repeat' first | fx | exact foot_opGet hB | exact foot_trmmOutTerm hA d0 | dsimp only
    all_goals refine ih _ ?_ ?_ ?_ ?_ ?_ rfl
    all_goals first | fcov | exact CovM.opSub hB (by assumption) (by assumption) | (rw [opRows_sub]; omega)

theorem foot_trmmOut {side : Side} {u : Uplo} (hu : u = .Upper ∨ u = .Lower) {transA : Op} {diag : Diag}
    {transB : Op} {alpha : T} {A B : MatV L} {beta : Coef T} {C : MatV L} (hA : CovT R u diag A) (hB : CovM R B)
    (hC : CovM R C) (hC' : CovM W C) : Foot R W (trmmOut side u transA diag transB alpha A B beta C) :=
  Foot.ite (fun _ => foot_trmmOutR hu hA hB hC hC') (fun _ => foot_trmmOutL hu hA hB hC hC')

theorem foot_gemmtr {u : Uplo} {transA transB : Op} {alpha : T} {A B : MatV L} {beta : Coef T} {C : MatV L}
    (hA : CovM R A) (hB : CovM R B) (hC : CovT R u .NonUnit C) (hC' : CovT W u .NonUnit C) :
    Foot R W (gemmtr u transA transB alpha A B beta C) := by
  unfold gemmtr
  dsimp only
  refine Foot.check_bind fun h0 => ?_
  have hu : u = .Upper ∨ u = .Lower := by cases u <;> simp at h0 ⊢
  have fin : ∀ (n k : Nat) (fA g : T → T) (op : Op), Foot R W (gemmtrN u (opGet op B) alpha A beta C n k) ∧
      Foot R W (gemmtrT u fA g (opGet op B) alpha A beta C n k) := by
    intro n k fA g op
    unfold gemmtrN gemmtrT triLo triHi
    rcases hu with rfl | rfl <;> simp only [reduceCtorEq, reduceIte] <;> constructor <;>
    repeat' first | foot1 | fdiag | ftri | exact foot_opGet hB | dsimp only | (intro e; cases e; done) | (simp only [inTri]; omega)
  repeat' first | foot1 | exact (fin _ _ id id _).1 | exact (fin _ _ _ _ _).2
  cases transB <;> exact (fin _ _ _ _ _).2

theorem foot_hemm2Row {u : Uplo} (hu : u = .Upper ∨ u = .Lower) {A : MatV L} {n j : Nat} {x : Nat → M L T T}
    (hA : CovT R u .NonUnit A) (hx : ∀ i, Foot R W (x i)) : Foot R W (hemm2Row u A n j x) := by
  unfold hemm2Row
  rcases hu with rfl | rfl <;> simp only [reduceCtorEq, reduceIte] <;>
  repeat' first | foot1 | exact hx _ | fdiag | ftri | dsimp only | (intro e; cases e; done) | (simp only [inTri]; omega)

theorem foot_hemm2Col {u : Uplo} (hu : u = .Upper ∨ u = .Lower) {A : MatV L} {n j : Nat} {x : Nat → M L T T}
    (hA : CovT R u .NonUnit A) (hx : ∀ i, Foot R W (x i)) : Foot R W (hemm2Col u A n j x) := by
  unfold hemm2Col
  rcases hu with rfl | rfl <;> simp only [reduceCtorEq, reduceIte] <;>
  repeat' first | foot1 | exact hx _ | fdiag | ftri | dsimp only | (intro e; cases e; done) | (simp only [inTri]; omega)

theorem foot_hemm2 {side : Side} {u : Uplo} {transB : Op} {alpha : T} {A B : MatV L} {beta : Coef T} {C : MatV L}
    (hA : CovT R u .NonUnit A) (hB : CovM R B) (hC : CovM R C) (hC' : CovM W C) :
    Foot R W (hemm2 side u transB alpha A B beta C) := by
  unfold hemm2 hemm2LT hemm2RT
  dsimp only
  refine Foot.check_bind fun _ => Foot.check_bind fun hg => ?_
  have hU : CovT R (if u = .Upper then .Upper else .Lower) .NonUnit A := by
    cases u <;> simp only [reduceCtorEq, reduceIte] <;> first | exact hA | exact CovT.gen hA _ | cases hg
  have hU' : CovT R (if u = .Lower then .Lower else .Upper) .NonUnit A := by
    cases u <;> simp only [reduceCtorEq, reduceIte] <;> first | exact hA | exact CovT.gen hA _ | cases hg
  have hu : (if u = .Upper then Uplo.Upper else .Lower) = .Upper ∨ (if u = .Upper then Uplo.Upper else .Lower) = .Lower := by
    split <;> simp
  have hU2 : CovT R (if (if u = .Upper then Uplo.Upper else .Lower) = .Lower then .Lower else .Upper) .NonUnit A := by
    cases u <;> simp only [reduceCtorEq, reduceIte] at hU ⊢ <;> exact hU
  repeat' first | foot1 | exact foot_hemmL hU2 hB hC hC' | exact foot_hemmR hU' hB hC hC'
    
  all_goals first | refine foot_hemm2Row hu hU fun i => ?_ | refine foot_hemm2Col hu hU fun i => ?_
  all_goals repeat' foot1

theorem foot_multHehe {u : Uplo} (hu : u = .Upper ∨ u = .Lower) {alpha : T} {A B : MatV L} {beta : Coef T} {C : MatV L}
    (hA : CovT R u .NonUnit A) (hB : CovT R u .NonUnit B) (hC : CovM R C) (hC' : CovM W C) :
    Foot R W (multHehe u alpha A B beta C) := by
  induction hk : A.n using Nat.strong_induction_on generalizing A B C beta with
  | _ k ih =>
    have d0 : inTri u 0 0 := by rcases hu with rfl | rfl <;> simp [inTri]
    rw [multHehe]
    rcases hu with rfl | rfl <;> simp only [reduceCtorEq, reduceIte] <;>
    repeat' first | foot1 | fcall | ((with_reducible apply foot_hemm2) <;> fcov) | fdiag | ftri | dsimp only
    all_goals refine ih _ ?_ ?_ ?_ ?_ ?_ rfl
    all_goals first | fcov | (simp only [MatV.sub] at *; omega)

set_option maxHeartbeats 4000000 in
theorem foot_trsmTri {side : Side} {u : Uplo} (hu : u = .Upper ∨ u = .Lower) {transA : Op} {diagA : Diag}
    {alpha : T} {A B : MatV L} (hA : CovT R (if transA ≠ .NoTrans then (if u = .Upper then .Lower else .Upper) else u) diagA A)
    (hB : CovT R u .NonUnit B) (hB' : CovT W u .NonUnit B) :
    Foot R W (trsmTri side u transA diagA alpha A B) := by
  induction hk : A.m using Nat.strong_induction_on generalizing A B alpha with
  | _ k ih =>
    have hscale : ∀ n, Foot R W (trsmTriScale u alpha B n) := by
      intro n
      unfold trsmTriScale triLo triHi
      rcases hu with rfl | rfl <;> simp only [reduceCtorEq, reduceIte] <;>
      repeat' first | foot1 | fdiag | ftri | dsimp only | (intro e; cases e; done) | (simp only [inTri]; omega)
    rw [trsmTri]
    unfold trsmTriOff opSlice
    cases transA <;> rcases hu with rfl | rfl <;> cases side <;>
      simp only [reduceCtorEq, reduceIte, ne_eq, not_true, not_false_eq_true] at hA ⊢ <;>
    repeat' first | foot1 | exact hscale _ | fcall | (apply foot_trmmOut (by simp) <;> fcov) | fdiag | ftri | dsimp only
    all_goals first
      | (intro e; cases e; done) | (simp only [inTri]; omega)
      | (refine ih _ ?_ ?_ ?_ ?_ rfl <;> (try simp only [reduceCtorEq, reduceIte, ne_eq, not_true, not_false_eq_true]) <;>
          first | fcov | (simp only [MatV.sub] at *; omega))

theorem foot_trmmBlocked {nb : Nat} {side : Side} {u : Uplo} {trans : Op} {diag : Diag} {alpha : T} {A B : MatV L}
    {work : VecV L} (hA : CovT R u diag A) (hB : CovM R B) (hB' : CovM W B) (hw : CovV R work) (hw' : CovV W work) :
    Foot R W (trmmBlockedMixed nb side u trans diag alpha A B work) := by
  unfold trmmBlockedMixed trmmBlockedStep
  dsimp only
  refine Foot.check_bind fun _ => Foot.check_bind fun _ => Foot.check_bind fun _ => Foot.check_bind fun _ =>
    Foot.check_bind fun _ => foot_reshapeWM_bind fun Wk w h => Foot.ite (fun hc => ?_) fun _ => Foot.error _
  obtain ⟨_, _, rfl⟩ := hc
  dsimp only
  refine Foot.bind (Foot.forStep (fun i hi => ?_) _) fun _ => Foot.pure _
  have hW := (h R hw).1
  have hW' := (h W hw').1
  generalize min (min nb B.m) (B.m - i) = b
  repeat' first | foot1 | fcall | ((with_reducible apply foot_lacpy) <;> fcov)
end TLA
