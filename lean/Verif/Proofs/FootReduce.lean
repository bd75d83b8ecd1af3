import Verif.Proofs.FootBlock
import Verif.Model.Reduce

/-!
# Footprints of the two-sided reductions
-/

set_option linter.unusedTactic false
set_option linter.unreachableTactic false
set_option linter.unusedVariables false
set_option linter.unusedSectionVars false

namespace TLA

variable {L T : Type} [DecidableEq L] {R W : L → Prop}
variable [Zero T] [One T] [Add T] [Mul T] [Sub T] [Neg T] [Div T] [Star T] [ReIm T] [DecidableEq T]
variable {K : Type} [Field K] [LinearOrder K]

theorem foot_gehd2 {o : HhOps T K} {ilo ihi : Nat} {A : MatV L} {tau work : VecV L} (hA : CovM R A)
    (hA' : CovM W A) (ht : CovV R tau) (ht' : CovV W tau) (hw : CovV R work) (hw' : CovV W work) :
    Foot R W (gehd2 o ilo ihi A tau work) := by
  unfold gehd2 gehd2Step; fhh

theorem foot_unghr {isReal : Bool} {ilo ihi : Nat} {A : MatV L} {tau work : VecV L} (hA : CovM R A)
    (hA' : CovM W A) (ht : CovV R tau) (hw : CovV R work) (hw' : CovV W work) :
    Foot R W (unghr isReal ilo ihi A tau work : M L T Nat) := by
  unfold unghr unghrShift unghrUnit unghrGen
  repeat' first | foot1 | ((with_reducible apply foot_ungqBlk) <;> fcov)

theorem foot_unmhr {isReal : Bool} {side : Side} {trans : Op} {ilo ihi : Nat} {A : MatV L}
    {tau : VecV L} {C : MatV L} {work : VecV L} (hA : CovM R A) (ht : CovV R tau)
    (hC : CovM R C) (hC' : CovM W C) (hw : CovV R work) (hw' : CovV W work) :
    Foot R W (unmhr isReal side trans ilo ihi A tau C work : M L T Nat) := by
  unfold unmhr unmqPart
  cases side <;> simp only [reduceCtorEq, reduceIte] <;>
  repeat' first | foot1 | ((with_reducible apply foot_unmq) <;> fcov)

theorem foot_gebd2 {o : HhOps T K} {A : MatV L} {tauv tauw work : VecV L} (hA : CovM R A)
    (hA' : CovM W A) (hv : CovV R tauv) (hv' : CovV W tauv) (hu : CovV R tauw) (hu' : CovV W tauw)
    (hw : CovV R work) (hw' : CovV W work) :
    Foot R W (gebd2 o A tauv tauw work) := by
  unfold gebd2 gebd2StepU gebd2StepL gebd2Row gebd2Col; fhh

theorem foot_ungtr {isReal : Bool} {uplo : Uplo} {Q : MatV L} {tau work : VecV L} (hA : CovM R Q)
    (hA' : CovM W Q) (ht : CovV R tau) (hw : CovV R work) (hw' : CovV W work) :
    Foot R W (ungtr isReal uplo Q tau work : M L T Nat) := by
  unfold ungtr ungtrL ungtrU
  repeat' first | foot1 | ((with_reducible apply foot_ungqBlk) <;> fcov) | dsimp only

theorem foot_hetd2 {o : HhOps T K} {half : T} {uplo : Uplo} {A : MatV L} {tau : VecV L}
    (hA : CovT R uplo .NonUnit A) (hA' : CovT W uplo .NonUnit A) (ht : CovV R tau)
    (ht' : CovV W tau) : Foot R W (hetd2 o half uplo A tau) := by
  unfold hetd2 hetd2StepU hetd2StepL hetd2Upd
  dsimp only
  refine Foot.check_bind fun h0 => Foot.check_bind fun h1 => Foot.check_bind fun h2 => ?_
  have h1' : A.m = A.n := by simpa using h1
  by_cases hu : uplo = .Upper
  · subst hu
    simp only [reduceIte]
    repeat' first
      | foot1
      | ((with_reducible apply foot_larfgV) <;> fcov)
      | ((with_reducible apply foot_hemv) <;> fcov)
      | ((with_reducible apply foot_her2) <;> fcov)
      | ((with_reducible apply foot_dot) <;> fcov)
      | ((with_reducible apply foot_axpy) <;> fcov)
      | (intro e; cases e; done)
      | (simp only [inTri]; omega)
  · have hl : uplo = .Lower := by
      cases uplo <;> simp at h0 hu ⊢
    subst hl
    simp only [reduceCtorEq, reduceIte]
    repeat' first
      | foot1
      | ((with_reducible apply foot_larfgV) <;> fcov)
      | ((with_reducible apply foot_hemv) <;> fcov)
      | ((with_reducible apply foot_her2) <;> fcov)
      | ((with_reducible apply foot_dot) <;> fcov)
      | ((with_reducible apply foot_axpy) <;> fcov)
      | (intro e; cases e; done)
      | (simp only [inTri]; omega)

end TLA
