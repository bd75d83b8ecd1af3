import Verif.Proofs.FootLapack

/-!
# Footprints of the Householder models
-/

set_option linter.unusedTactic false
set_option linter.unreachableTactic false
set_option linter.unusedVariables false
set_option linter.unusedSectionVars false

namespace TLA

variable {L T : Type} [DecidableEq L] {R W : L → Prop}
variable [Zero T] [One T] [Add T] [Mul T] [Sub T] [Neg T] [Div T] [Star T] [ReIm T] [DecidableEq T]
variable {K : Type} [Field K] [LinearOrder K]

theorem foot_lassqF {o : HhOps T K} {g : T → K} {x : VecV L} {a b : K} (hx : CovV R x) :
    Foot R W (lassqF o g x a b) := by
  unfold lassqF
  repeat' first | foot1 | dsimp only | split

theorem foot_lassq {o : HhOps T K} {x : VecV L} {a b : K} (hx : CovV R x) :
    Foot R W (lassq o x a b) := foot_lassqF hx

theorem foot_nrm2 {o : HhOps T K} {x : VecV L} (hx : CovV R x) : Foot R W (nrm2 o x) := by
  unfold nrm2
  repeat' first | foot1 | exact foot_lassq hx | dsimp only | split

theorem foot_larfgScale {o : HhOps T K} {x : VecV L} (hx : CovV R x) (hx' : CovV W x) :
    ∀ fuel knt beta alpha, Foot R W (larfgScale o x fuel knt beta alpha)
  | 0, _, _, _ => Foot.pure _
  | fuel + 1, knt, beta, alpha => by
    unfold larfgScale
    exact Foot.ite (fun _ => Foot.bind (foot_scal hx hx') fun _ => foot_larfgScale hx hx' fuel _ _ _)
      fun _ => Foot.pure _

theorem foot_larfgFinish {o : HhOps T K} {store : StoreV} {alpha : T} {x : VecV L} {beta : K}
    {knt : Nat} (hx : CovV R x) (hx' : CovV W x) :
    Foot R W (larfgFinish o store alpha x beta knt) := by
  unfold larfgFinish
  repeat' first | foot1 | exact foot_rscl hx hx' | dsimp only

theorem foot_larfg {o : HhOps T K} {store : StoreV} {alpha : T} {x : VecV L} (hx : CovV R x)
    (hx' : CovV W x) : Foot R W (larfg o store alpha x) := by
  unfold larfg
  repeat' first | foot1 | exact foot_nrm2 hx | exact foot_larfgScale hx hx' _ _ _ _ |
    exact foot_larfgFinish hx hx' | dsimp only

theorem foot_sliceX_bind {α : Type} {dir : Direction} {v : VecV L} {n : Nat}
    {f : VecV L → M L T α} (h : ∀ a b, b ≤ v.n → Foot R W (f (v.sub a b))) :
    Foot R W (sliceX dir v n >>= f) := by
  unfold sliceX
  split
  · exact Foot.vslice_bind fun _ h1 => h _ _ h1
  · exact Foot.vslice_bind fun _ h1 => h _ _ h1

theorem foot_larfgV {o : HhOps T K} {dir : Direction} {store : StoreV} {v : VecV L}
    (hv : CovV R v) (hv' : CovV W v) : Foot R W (larfgV o dir store v) := by
  unfold larfgV
  refine foot_sliceX_bind fun a b hb => ?_
  repeat' first | foot1 | exact foot_larfg (hv.sub hb) (hv'.sub hb) | dsimp only

theorem foot_larfCore {side : Side} {store : StoreV} {x : VecV L} {tau : T} {C0 : VecV L}
    {C1 : MatV L} {w : VecV L} (hx : CovV R x) (hC0 : CovV R C0) (hC0' : CovV W C0)
    (hC1 : CovM R C1) (hC1' : CovM W C1) (hw : CovV R w) (hw' : CovV W w) :
    Foot R W (larfCore side store x tau C0 C1 w) := by
  unfold larfCore fillFrom subFrom
  cases side <;> cases store <;> repeat' first | foot1 | fcall | dsimp only

theorem foot_larfC {side : Side} {store : StoreV} {x : VecV L} {tau : T} {C0 : VecV L}
    {C1 : MatV L} {work : VecV L} (hx : CovV R x) (hC0 : CovV R C0) (hC0' : CovV W C0)
    (hC1 : CovM R C1) (hC1' : CovM W C1) (hw : CovV R work) (hw' : CovV W work) :
    Foot R W (larfC side store x tau C0 C1 work) := by
  unfold larfC
  refine Foot.check_bind fun _ => Foot.check_bind fun _ => Foot.ite (fun _ => ?_) fun _ => ?_
  · foot
  · have e : (reshapeW work C0.n >>= fun w => larfCore side store x tau C0 C1 w) =
        (check (decide (C0.n ≤ work.n)) >>= fun _ =>
          larfCore side store x tau C0 C1 (work.sub 0 C0.n) : M L T Unit) := by
      unfold reshapeW
      cases decide (C0.n ≤ work.n) <;> rfl
    rw [e]
    refine Foot.check_bind fun h => ?_
    have h' : C0.n ≤ work.n := by simpa using h
    exact foot_larfCore hx hC0 hC0' hC1 hC1' (hw.sub h') (hw'.sub h')

theorem foot_larf {side : Side} {dir : Direction} {store : StoreV} {v : VecV L} {tau : T}
    {C : MatV L} {work : VecV L} (hv : CovV R v) (hC : CovM R C) (hC' : CovM W C)
    (hw : CovV R work) (hw' : CovV W work) : Foot R W (larf side dir store v tau C work) := by
  unfold larf
  refine Foot.check_bind fun _ => Foot.check_bind fun _ => Foot.ite (fun _ => Foot.pure _) fun _ =>
    Foot.ite (fun _ => ?_) fun _ => ?_
  · unfold larfRow larfRows
    cases dir <;> simp only [reduceCtorEq, reduceIte] <;>
    repeat' first
      | refine Foot.slice_bind (fun _ _ _ _ => ?_)
      | refine Foot.sliceRow_bind (fun _ _ _ => ?_)
      | refine foot_sliceX_bind (fun a b hb => ?_)
    all_goals apply foot_larfC <;> fcov
  · unfold larfCol larfCols
    cases dir <;> simp only [reduceCtorEq, reduceIte] <;>
    repeat' first
      | refine Foot.slice_bind (fun _ _ _ _ => ?_)
      | refine Foot.sliceCol_bind (fun _ _ _ => ?_)
      | refine foot_sliceX_bind (fun a b hb => ?_)
    all_goals apply foot_larfC <;> fcov

/-- Steps of the Householder loops. -/
macro "fhh" : tactic => `(tactic| repeat' (first
  | foot1
  | ((with_reducible apply foot_larfgV) <;> fcov)
  | ((with_reducible apply foot_larf) <;> fcov)
  | ((with_reducible apply foot_scal) <;> fcov)
  | dsimp only))

theorem foot_geqr2 {o : HhOps T K} {A : MatV L} {tau work : VecV L} (hA : CovM R A)
    (hA' : CovM W A) (ht : CovV R tau) (ht' : CovV W tau) (hw : CovV R work) (hw' : CovV W work) :
    Foot R W (geqr2 o A tau work) := by
  unfold geqr2; fhh

theorem foot_gelq2 {o : HhOps T K} {A : MatV L} {tau work : VecV L} (hA : CovM R A)
    (hA' : CovM W A) (ht : CovV R tau) (ht' : CovV W tau) (hw : CovV R work) (hw' : CovV W work) :
    Foot R W (gelq2 o A tau work) := by
  unfold gelq2; fhh

theorem foot_geql2 {o : HhOps T K} {A : MatV L} {tau work : VecV L} (hA : CovM R A)
    (hA' : CovM W A) (ht : CovV R tau) (ht' : CovV W tau) (hw : CovV R work) (hw' : CovV W work) :
    Foot R W (geql2 o A tau work) := by
  unfold geql2; fhh

theorem foot_gerq2 {o : HhOps T K} {A : MatV L} {tau work : VecV L} (hA : CovM R A)
    (hA' : CovM W A) (ht : CovV R tau) (ht' : CovV W tau) (hw : CovV R work) (hw' : CovV W work) :
    Foot R W (gerq2 o A tau work) := by
  unfold gerq2; fhh

theorem foot_lasetG {beta : T} {A : MatV L} (hA : CovM W A) : Foot R W (lasetG beta A) :=
  foot_laset (hA.tri _ _)

theorem foot_ungq {dir : Direction} {store : StoreV} {A : MatV L} {tau work : VecV L}
    (hA : CovM R A) (hA' : CovM W A) (ht : CovV R tau) (hw : CovV R work) (hw' : CovV W work) :
    Foot R W (ungq dir store A tau work : M L T Nat) := by
  unfold ungq ung2rStep ung2lStep ungl2Step ungr2Step
  refine Foot.check_bind fun _ => Foot.ite (fun _ => Foot.pure _) fun _ => ?_
  cases dir <;> cases store <;> dsimp only
  all_goals repeat' (first
    | foot1
    | exact foot_lasetG (CovM.sub hA' (by omega) (by omega))
    | ((with_reducible apply foot_larf) <;> fcov)
    | ((with_reducible apply foot_scal) <;> fcov)
    | dsimp only)

theorem foot_unmq {isReal : Bool} {side : Side} {trans : Op} {dir : Direction} {store : StoreV}
    {V : MatV L} {tau : VecV L} {C : MatV L} {work : VecV L} (hV : CovM R V) (ht : CovV R tau)
    (hC : CovM R C) (hC' : CovM W C) (hw : CovV R work) (hw' : CovV W work) :
    Foot R W (unmq isReal side trans dir store V tau C work : M L T Nat) := by
  have hs : ∀ i, Foot R W (unmqStep side trans dir store V tau C work i : M L T Unit) := by
    intro i
    unfold unmqStep unmqVec unmqPart
    by_cases h1 : store = .Columnwise <;> by_cases h2 : side = .Left <;> simp only [h1, h2, reduceIte] <;> fhh
  unfold unmq
  repeat' first | foot1 | exact hs _

end TLA
