import Verif.Proofs.FootHouse
import Verif.Model.BlockRefl

/-!
# Footprints of the blocked Householder models
-/

set_option linter.unusedTactic false
set_option linter.unreachableTactic false
set_option linter.unusedVariables false
set_option linter.unusedSectionVars false

namespace TLA

variable {L T : Type} [DecidableEq L] {R W : L → Prop}

theorem foot_reshapeWM_bind {α : Type} {work : VecV L} {m n : Nat}
    {f : MatV L × VecV L → M L T α}
    (h : ∀ B w, (∀ P, CovV P work → CovM P B ∧ CovV P w) → Foot R W (f (B, w))) :
    Foot R W (reshapeWM work m n >>= f) := by
  have e : (reshapeWM work m n >>= f) = (check (decide (m * n ≤ work.n)) >>= fun _ =>
      f (⟨m, n, fun i j => work.cell (i + j * m)⟩, work.sub (m * n) work.n) : M L T α) := by
    unfold reshapeWM
    cases decide (m * n ≤ work.n) <;> rfl
  rw [e]
  refine Foot.check_bind fun hc => h _ _ fun P hP => ⟨fun i j hi hj => ?_, hP.sub (Nat.le_refl _)⟩
  have hc' : m * n ≤ work.n := by simpa using hc
  simp only at hi hj ⊢
  refine hP _ (lt_of_lt_of_le ?_ hc')
  calc i + j * m < m + j * m := by omega
    _ = m * (j + 1) := by ring
    _ ≤ m * n := Nat.mul_le_mul_left _ hj

theorem foot_ite_reshapeWM_bind {α : Type} {c : Prop} [Decidable c] {work : VecV L} {m n m' n' : Nat}
    {f : MatV L × VecV L → M L T α}
    (h : ∀ B w, (∀ P, CovV P work → CovM P B ∧ CovV P w) → Foot R W (f (B, w))) :
    Foot R W ((if c then reshapeWM work m n else reshapeWM work m' n') >>= f) := by
  split <;> exact foot_reshapeWM_bind h

variable [Zero T] [One T] [Add T] [Mul T] [Sub T] [Neg T] [Div T] [Star T] [ReIm T] [DecidableEq T]
variable {K : Type} [Field K] [LinearOrder K]

theorem foot_blockWork_bind {α : Type} {c : Bool} {work : VecV L} {nb : Nat}
    {f : MatV L × VecV L → M L T α}
    (h : ∀ B w, (∀ P, CovV P work → CovM P B ∧ CovV P w) → Foot R W (f (B, w))) :
    Foot R W (blockWork c work nb >>= f) := by
  unfold blockWork; exact foot_ite_reshapeWM_bind h

theorem foot_larft {dir : Direction} {store : StoreV} {V : MatV L} {tau : VecV L} {Tm : MatV L}
    (hV : CovM R V) (ht : CovV R tau) (hT : CovM R Tm) (hT' : CovM W Tm) :
    Foot R W (larft dir store V tau Tm : M L T Nat) := by
  unfold larft larftFwdStep larftBwdStep larftFwdCol larftBwdCol larftGemvC larftGemmR
  cases dir <;> cases store <;> dsimp only <;>
  repeat' first
    | foot1
    | (with_reducible apply Foot.vset_v; fcov)
    | fcall
    | ((with_reducible apply foot_trmv) <;> fcov)
    | ((with_reducible apply foot_trmv) <;> first | (apply CovM.tri; fcov) | fcov)
    | dsimp only

theorem foot_addInto {B C : MatV L} (hB : CovM R B) (hC : CovM R C) (hC' : CovM W C) :
    Foot R W (addInto B C : M L T Unit) := by
  unfold addInto; foot

theorem foot_larfbL {uV uT : Uplo} {opH opN trans : Op} {rest : Bool} {V1 V2 Tm C1 C2 B : MatV L}
    (hV1 : CovM R V1) (hV2 : CovM R V2) (hT : CovM R Tm) (hC1 : CovM R C1) (hC1' : CovM W C1)
    (hC2 : CovM R C2) (hC2' : CovM W C2) (hB : CovM R B) (hB' : CovM W B) :
    Foot R W (larfbL uV uT opH opN trans rest V1 V2 Tm C1 C2 B : M L T Unit) := by
  unfold larfbL
  have a1 := hV1.tri uV .Unit
  have a2 := hT.tri uT .NonUnit
  repeat' first
    | exact foot_lacpy (hC1.tri _ _) (hB'.tri _ _)
    | exact foot_trmm a1 hB hB'
    | exact foot_trmm a2 hB hB'
    | exact foot_gemm hV2 hC2 hB hB'
    | exact foot_gemm hV2 hB hC2 hC2'
    | exact foot_addInto hB hC1 hC1'
    | foot1

theorem foot_larfbR {uV uT : Uplo} {opH opN trans : Op} {rest : Bool} {V1 V2 Tm C1 C2 B : MatV L}
    (hV1 : CovM R V1) (hV2 : CovM R V2) (hT : CovM R Tm) (hC1 : CovM R C1) (hC1' : CovM W C1)
    (hC2 : CovM R C2) (hC2' : CovM W C2) (hB : CovM R B) (hB' : CovM W B) :
    Foot R W (larfbR uV uT opN opH trans rest V1 V2 Tm C1 C2 B : M L T Unit) := by
  unfold larfbR
  have a1 := hV1.tri uV .Unit
  have a2 := hT.tri uT .NonUnit
  repeat' first
    | exact foot_lacpy (hC1.tri _ _) (hB'.tri _ _)
    | exact foot_trmm a1 hB hB'
    | exact foot_trmm a2 hB hB'
    | exact foot_gemm hC2 hV2 hB hB'
    | exact foot_gemm hB hV2 hC2 hC2'
    | exact foot_addInto hB hC1 hC1'
    | foot1

theorem foot_larfb {isReal : Bool} {side : Side} {trans : Op} {dir : Direction} {store : StoreV}
    {V Tm C : MatV L} {work : VecV L} (hV : CovM R V) (hT : CovM R Tm) (hC : CovM R C)
    (hC' : CovM W C) (hw : CovV R work) (hw' : CovV W work) :
    Foot R W (larfb isReal side trans dir store V Tm C work : M L T Nat) := by
  unfold larfb
  refine Foot.check_bind fun _ => Foot.check_bind fun _ => Foot.check_bind fun _ =>
    Foot.check_bind fun _ => Foot.ite (fun _ => Foot.pure _) fun _ => ?_
  refine foot_ite_reshapeWM_bind fun B w h => Foot.bind ?_ fun _ => Foot.pure _
  have hB := (h R hw).1
  have hB' := (h W hw').1
  unfold larfbCases
  cases dir <;> cases store <;> dsimp only <;>
  repeat' first
    | foot1
    | ((with_reducible apply foot_larfbL) <;> fcov)
    | ((with_reducible apply foot_larfbR) <;> fcov)

theorem foot_blockApply {isReal : Bool} {side : Side} {trans : Op} {dir : Direction} {store : StoreV}
    {V : MatV L} {tau : VecV L} {TT C : MatV L} {work : VecV L} (hV : CovM R V) (ht : CovV R tau)
    (hT : CovM R TT) (hT' : CovM W TT) (hC : CovM R C) (hC' : CovM W C) (hw : CovV R work)
    (hw' : CovV W work) :
    Foot R W (blockApply isReal side trans dir store V tau TT C work : M L T Unit) := by
  unfold blockApply
  refine Foot.slice_bind fun _ _ _ _ => Foot.bind ?_ fun _ => Foot.bind ?_ fun _ => Foot.pure _
  · apply foot_larft <;> fcov
  · apply foot_larfb <;> fcov

/-- Steps of the blocked loops. -/
macro "fblk" : tactic => `(tactic| repeat' (first
  | foot1
  | ((with_reducible apply foot_blockApply) <;> fcov)
  | ((with_reducible apply foot_geqr2) <;> fcov)
  | ((with_reducible apply foot_geql2) <;> fcov)
  | ((with_reducible apply foot_gelq2) <;> fcov)
  | ((with_reducible apply foot_gerq2) <;> fcov)
  | ((with_reducible apply foot_ungq) <;> fcov)
  | ((with_reducible apply foot_lasetG) <;> fcov)
  | dsimp only))

theorem foot_geqrf {o : HhOps T K} {nb : Nat} {A : MatV L} {tau work : VecV L} (hA : CovM R A)
    (hA' : CovM W A) (ht : CovV R tau) (ht' : CovV W tau) (hw : CovV R work) (hw' : CovV W work) :
    Foot R W (geqrf o nb A tau work) := by
  unfold geqrf geqrfStep
  refine Foot.check_bind fun _ => foot_blockWork_bind fun B w h => ?_
  have h1 := (h R hw).1
  have h2 := (h W hw').1
  have h3 := (h R hw).2
  have h4 := (h W hw').2
  fblk

theorem foot_geqlf {o : HhOps T K} {nb : Nat} {A : MatV L} {tau work : VecV L} (hA : CovM R A)
    (hA' : CovM W A) (ht : CovV R tau) (ht' : CovV W tau) (hw : CovV R work) (hw' : CovV W work) :
    Foot R W (geqlf o nb A tau work) := by
  unfold geqlf geqlfStep
  refine Foot.check_bind fun _ => foot_blockWork_bind fun B w h => ?_
  have h1 := (h R hw).1
  have h2 := (h W hw').1
  have h3 := (h R hw).2
  have h4 := (h W hw').2
  fblk

theorem foot_gelqf {o : HhOps T K} {nb : Nat} {A : MatV L} {tau work : VecV L} (hA : CovM R A)
    (hA' : CovM W A) (ht : CovV R tau) (ht' : CovV W tau) (hw : CovV R work) (hw' : CovV W work) :
    Foot R W (gelqf o nb A tau work) := by
  unfold gelqf gelqfStep
  refine Foot.check_bind fun _ => foot_blockWork_bind fun B w h => ?_
  have h1 := (h R hw).1
  have h2 := (h W hw').1
  have h3 := (h R hw).2
  have h4 := (h W hw').2
  fblk

theorem foot_gerqf {o : HhOps T K} {nb : Nat} {A : MatV L} {tau work : VecV L} (hA : CovM R A)
    (hA' : CovM W A) (ht : CovV R tau) (ht' : CovV W tau) (hw : CovV R work) (hw' : CovV W work) :
    Foot R W (gerqf o nb A tau work) := by
  unfold gerqf gerqfStep
  refine Foot.check_bind fun _ => foot_blockWork_bind fun B w h => ?_
  have h1 := (h R hw).1
  have h2 := (h W hw').1
  have h3 := (h R hw).2
  have h4 := (h W hw').2
  fblk

theorem foot_unmqBlk {isReal : Bool} {nb : Nat} {side : Side} {trans : Op} {dir : Direction}
    {store : StoreV} {V : MatV L} {tau : VecV L} {C : MatV L} {work : VecV L} (hV : CovM R V)
    (ht : CovV R tau) (hC : CovM R C) (hC' : CovM W C) (hw : CovV R work) (hw' : CovV W work) :
    Foot R W (unmqBlk isReal nb side trans dir store V tau C work : M L T Nat) := by
  unfold unmqBlk
  refine Foot.check_bind fun _ => Foot.check_bind fun _ => Foot.check_bind fun _ =>
    Foot.ite (fun _ => Foot.pure _) fun _ => foot_reshapeWM_bind fun B w h => ?_
  have h1 := (h R hw).1
  have h2 := (h W hw').1
  have h3 := (h R hw).2
  have h4 := (h W hw').2
  have hs : ∀ i, Foot R W (unmqBlkStep isReal side trans dir store V tau C B w (min nb tau.n) i :
      M L T Unit) := by
    intro i
    unfold unmqBlkStep unmqPart
    cases store <;> cases side <;> simp only [reduceCtorEq, reduceIte] <;> fblk
  repeat' first | foot1 | exact hs _

theorem foot_ungqBlk {isReal : Bool} {nb : Nat} {dir : Direction} {store : StoreV} {A : MatV L}
    {tau work : VecV L} (hA : CovM R A) (hA' : CovM W A) (ht : CovV R tau) (hw : CovV R work)
    (hw' : CovV W work) : Foot R W (ungqBlk isReal nb dir store A tau work : M L T Nat) := by
  unfold ungqBlk ungqLoop ungqrStep ungqlStep unglqStep ungrqStep ungqUpd
  refine Foot.check_bind fun _ => Foot.ite (fun _ => Foot.pure _) fun _ =>
    foot_blockWork_bind fun B w h => ?_
  have h1 := (h R hw).1
  have h2 := (h W hw').1
  have h3 := (h R hw).2
  have h4 := (h W hw').2
  cases store <;> cases dir <;> dsimp only <;> fblk

end TLA
