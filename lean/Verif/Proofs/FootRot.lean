import Verif.Proofs.FootLapack
import Verif.Model.Rot

/-!
# Footprints of the routines built on plane rotations
-/

set_option linter.unusedTactic false
set_option linter.unreachableTactic false
set_option linter.unusedVariables false
set_option linter.unusedSectionVars false

namespace TLA

variable {L T : Type} [DecidableEq L] {R W : L → Prop}
variable [Zero T] [One T] [Add T] [Mul T] [Sub T] [Neg T] [Star T] [DecidableEq T]

theorem CovM.rsView {side : Side} {A : MatV L} (h : CovM R A) : CovM R (TLA.rsView side A) := by
  unfold TLA.rsView
  split
  · exact h
  · exact fun i j hi hj => h j i hj hi

theorem foot_rsPair {f : T → T} {X : MatV L} {c s : VecV L} {i j : Nat} (hX : CovM R X) (hX' : CovM W X)
    (hc : CovV R c) (hs : CovV R s) : Foot R W (rsPair f X c s i j) := by
  unfold rsPair; foot

theorem foot_rsTripleF {f : T → T} {X : MatV L} {c s : VecV L} {i j : Nat} (hX : CovM R X) (hX' : CovM W X)
    (hc : CovV R c) (hs : CovV R s) : Foot R W (rsTripleF f X c s i j) := by
  unfold rsTripleF; foot

theorem foot_rsTripleB {f : T → T} {X : MatV L} {c s : VecV L} {i j : Nat} (hX : CovM R X) (hX' : CovM W X)
    (hc : CovV R c) (hs : CovV R s) : Foot R W (rsTripleB f X c s i j) := by
  unfold rsTripleB; foot

theorem foot_rotSequence {cm : Bool} {side : Side} {dir : Direction} {c s : VecV L} {A : MatV L} (hA : CovM R A)
    (hA' : CovM W A) (hc : CovV R c) (hs : CovV R s) : Foot R W (rotSequence cm side dir c s A : M L T Nat) := by
  have h1 := hA.rsView (side := side)
  have h2 := hA'.rsView (side := side)
  unfold rotSequence rsLines rsBlocks
  dsimp only
  repeat' first
    | foot1
    | exact foot_rsPair h1 h2 hc hs
    | exact foot_rsTripleF h1 h2 hc hs
    | exact foot_rsTripleB h1 h2 hc hs
    | split

theorem foot_rotgAt {o : RotOps T} {A : MatV L} {i j k l : Nat} (hA : CovM R A) (hA' : CovM W A) :
    Foot R W (rotgAt o A i j k l) := by
  unfold rotgAt; foot

theorem foot_gghrd {o : RotOps T} {wantq wantz : Bool} {ilo ihi : Nat} {A B Q Z : MatV L} (hA : CovM R A)
    (hA' : CovM W A) (hB : CovM R B) (hB' : CovM W B) (hQ : wantq = true → CovM R Q) (hQ' : wantq = true → CovM W Q)
    (hZ : wantz = true → CovM R Z) (hZ' : wantz = true → CovM W Z) :
    Foot R W (gghrd o wantq wantz ilo ihi A B Q Z) := by
  unfold gghrd gghrdLeft gghrdRight
  dsimp only
  repeat' first
    | foot1
    | exact foot_rotgAt hA hA'
    | exact foot_rotgAt hB hB'
    | ((with_reducible apply foot_rot) <;> fcov; done)
    | (have q1 := hQ (by assumption); have q2 := hQ' (by assumption); (with_reducible apply foot_rot) <;> fcov; done)
    | (have q1 := hZ (by assumption); have q2 := hZ' (by assumption); (with_reducible apply foot_rot) <;> fcov; done)
    | split

theorem foot_hessenbergRq {o : RotOps T} {A : MatV L} {cl sl cr sr : VecV L} (hA : CovM R A) (hA' : CovM W A)
    (hcl : CovV R cl) (hsl : CovV R sl) (hcr : CovV R cr) (hcr' : CovV W cr) (hsr : CovV R sr) (hsr' : CovV W sr) :
    Foot R W (hessenbergRq o A cl sl cr sr) := by
  unfold hessenbergRq hessRqStep
  dsimp only
  repeat' first
    | foot1
    | exact foot_rotgAt hA hA'
    | exact foot_rsPair hA hA' hcl hsl
    | ((with_reducible apply foot_rot) <;> fcov)
    | split

end TLA
