import Verif.Proofs.FootHouse
import Verif.Model.Norm

/-!
# Footprints of the matrix norms
-/

set_option linter.unusedTactic false
set_option linter.unreachableTactic false
set_option linter.unusedVariables false
set_option linter.unusedSectionVars false

namespace TLA

variable {L T : Type} [DecidableEq L] {R W : L → Prop} {K : Type}

section nops
variable {o : NOps T K}

theorem foot_maxLoop {lo hi : Nat} {x : K} {f : Nat → M L T K} (h : ∀ i, lo ≤ i → i < hi → Foot R W (f i)) :
    Foot R W (maxLoop o lo hi x f) := by
  unfold maxLoop
  exact Foot.forRet fun i s h1 h2 => Foot.bind (h i h1 h2) fun _ => Foot.pure _

theorem foot_sumLoop {lo hi : Nat} {x : K} {f : Nat → M L T T} (h : ∀ i, lo ≤ i → i < hi → Foot R W (f i)) :
    Foot R W (sumLoop o lo hi x f) := by
  unfold sumLoop
  exact Foot.forUp fun i s h1 h2 => Foot.bind (h i h1 h2) fun _ => Foot.pure _

theorem foot_getAbs {A : MatV L} {i j : Nat} (h : i < A.m → j < A.n → R (A.cell i j)) :
    Foot R W (getAbs o A i j) := Foot.bind (Foot.get' h) fun _ => Foot.pure _

theorem foot_getAbsRe {A : MatV L} {i j : Nat} (h : i < A.m → j < A.n → R (A.cell i j)) :
    Foot R W (getAbsRe o A i j) := Foot.bind (Foot.get' h) fun _ => Foot.pure _

theorem foot_maxRegion {A : MatV L} {n : Nat} {x : K} {lo hi : Nat → Nat}
    (h : ∀ i j, lo j ≤ i → i < hi j → i < A.m → j < A.n → R (A.cell i j)) :
    Foot R W (maxRegion o A n x lo hi) := by
  unfold maxRegion
  exact Foot.bind (Foot.forRet fun j s _ _ => foot_maxLoop fun i h1 h2 => foot_getAbs (h i j h1 h2)) fun _ => Foot.pure _

theorem foot_langeG {fro : M L T K} (hf : Foot R W fro) {nt : Norm} {A : MatV L} (hA : CovM R A) :
    Foot R W (langeG o fro nt A) := by
  unfold langeG
  refine Foot.check_bind fun _ => Foot.ite (fun _ => Foot.pure _) fun _ => ?_
  have hg : ∀ i j, Foot R W (A.get i j : M L T T) := fun i j => Foot.get' (hA i j)
  cases nt
  · exact Foot.bind (foot_maxLoop fun i _ _ => foot_sumLoop fun j _ _ => hg _ _) fun _ => Foot.pure _
  · exact hf
  · exact Foot.bind (foot_maxLoop fun i _ _ => foot_sumLoop fun j _ _ => hg _ _) fun _ => Foot.pure _
  · exact hf
  · exact foot_maxRegion fun i j _ _ => hA i j

theorem uploOK {uplo : Uplo} (h : (!(uplo ≠ .Lower ∧ uplo ≠ .Upper : Bool)) = true) : uplo = .Upper ∨ uplo = .Lower := by
  cases uplo <;> simp at h <;> simp

theorem foot_lantrG {fro : M L T K} {nt : Norm} {uplo : Uplo} {diag : Diag} {A : MatV L}
    (hf : uplo = .Upper ∨ uplo = .Lower → Foot R W fro) (hA : CovT R uplo diag A) :
    Foot R W (lantrG o fro nt uplo diag A) := by
  unfold lantrG
  refine Foot.check_bind fun _ => Foot.check_bind fun hu => Foot.ite (fun _ => Foot.pure _) fun hz => ?_
  have hu := uploOK hu
  have hg : ∀ i j, (i < A.m → j < A.n → inTri uplo i j ∧ (diag = .Unit → i ≠ j)) → Foot R W (A.get i j : M L T T) :=
    fun i j h => Foot.get' fun h1 h2 => hA i j h1 h2 (h h1 h2).1 (h h1 h2).2
  cases nt
  · refine Foot.bind (foot_maxLoop fun j _ _ => ?_) fun _ => Foot.pure _
    unfold lantrCol
    rcases hu with rfl | rfl
    · refine Foot.ite (fun _ => Foot.ite (fun hd => ?_) fun hd => ?_) (by simp)
      · refine foot_sumLoop fun i _ _ => hg _ _ fun _ _ => ⟨by simp only [inTri]; omega, ?_⟩
        rcases hd with rfl | hd
        · simp
        · omega
      · exact foot_sumLoop fun i _ _ => hg _ _ fun _ _ => ⟨by simp only [inTri]; omega, by omega⟩
    · refine Foot.ite (by simp) (fun _ => Foot.ite (fun hd => ?_) fun hd => ?_)
      · exact foot_sumLoop fun i _ _ => hg _ _ fun _ _ => ⟨by simp only [inTri]; omega, by simp [hd]⟩
      · exact foot_sumLoop fun i _ _ => hg _ _ fun _ _ => ⟨by simp only [inTri]; omega, by omega⟩
  · exact hf hu
  · refine Foot.bind (foot_maxLoop fun i _ _ => ?_) fun _ => Foot.pure _
    unfold lantrRow
    rcases hu with rfl | rfl
    · refine Foot.ite (fun _ => Foot.ite (fun hd => ?_) fun hd => ?_) (by simp)
      · exact foot_sumLoop fun i _ _ => hg _ _ fun _ _ => ⟨by simp only [inTri]; omega, by simp [hd]⟩
      · exact foot_sumLoop fun i _ _ => hg _ _ fun _ _ => ⟨by simp only [inTri]; omega, by omega⟩
    · refine Foot.ite (by simp) (fun _ => Foot.ite (fun hd => ?_) fun hd => ?_)
      · refine foot_sumLoop fun j _ _ => hg _ _ fun _ _ => ⟨by simp only [inTri]; omega, ?_⟩
        rcases hd with rfl | hd
        · simp
        · omega
      · exact foot_sumLoop fun i _ _ => hg _ _ fun _ _ => ⟨by simp only [inTri]; omega, by omega⟩
  · exact hf hu
  · show Foot R W (lantrMax o uplo diag A A.m A.n)
    unfold lantrMax
    rcases hu with rfl | rfl <;> cases diag <;> simp only [reduceCtorEq, if_true, if_false] <;>
      exact foot_maxRegion fun i j _ _ h1 h2 => hA i j h1 h2 (by simp only [inTri]; omega) (by first | simp; done | omega)

theorem foot_lansySum {uplo : Uplo} (hu : uplo = .Upper ∨ uplo = .Lower) {A : MatV L} {n j : Nat}
    (hA : CovT R uplo .NonUnit A) : Foot R W (lansySum o uplo A n j) := by
  unfold lansySum
  have hg : ∀ i j, (i < A.m → j < A.n → inTri uplo i j) → Foot R W (A.get i j : M L T T) :=
    fun i j h => Foot.get' fun h1 h2 => hA i j h1 h2 (h h1 h2) (by simp)
  rcases hu with rfl | rfl <;> simp only [reduceCtorEq, if_true, if_false] <;>
    exact Foot.bind (foot_sumLoop fun i _ _ => hg _ _ fun _ _ => by simp only [inTri]; omega)
      fun _ => foot_sumLoop fun i _ _ => hg _ _ fun _ _ => by simp only [inTri]; omega

theorem foot_lansyG {fro : M L T K} {nt : Norm} {uplo : Uplo} {A : MatV L}
    (hf : uplo = .Upper ∨ uplo = .Lower → Foot R W fro) (hA : CovT R uplo .NonUnit A) :
    Foot R W (lansyG o fro nt uplo A) := by
  unfold lansyG
  refine Foot.check_bind fun _ => Foot.check_bind fun hu => Foot.ite (fun _ => Foot.pure _) fun hz => ?_
  have hu := uploOK hu
  have hs : Foot R W (do
      let r ← maxLoop o 0 A.m o.zero fun j => lansySum o uplo A A.m j
      pure (normRet r)) := Foot.bind (foot_maxLoop fun j _ _ => foot_lansySum hu hA) fun _ => Foot.pure _
  cases nt
  · exact hs
  · exact hs
  · exact hs
  · exact hf hu
  · rcases hu with rfl | rfl <;> simp only [reduceCtorEq, if_true, if_false] <;>
      exact foot_maxRegion fun i j _ _ h1 h2 => hA i j h1 h2 (by simp only [inTri]; omega) (by simp)

theorem foot_lanheSum {uplo : Uplo} (hu : uplo = .Upper ∨ uplo = .Lower) {A : MatV L} {n j : Nat}
    (hA : CovT R uplo .NonUnit A) : Foot R W (lanheSum o uplo A n j) := by
  unfold lanheSum
  have hg : ∀ i j, (i < A.m → j < A.n → inTri uplo i j) → Foot R W (A.get i j : M L T T) :=
    fun i j h => Foot.get' fun h1 h2 => hA i j h1 h2 (h h1 h2) (by simp)
  rcases hu with rfl | rfl <;> simp only [reduceCtorEq, if_true, if_false] <;>
    exact Foot.bind (foot_sumLoop fun i _ _ => hg _ _ fun _ _ => by simp only [inTri]; omega)
      fun _ => Foot.bind (foot_getAbsRe fun h1 h2 => hA j j h1 h2 (by simp [inTri]) (by simp))
        fun _ => foot_sumLoop fun i _ _ => hg _ _ fun _ _ => by simp only [inTri]; omega

theorem foot_lanheG {fro : M L T K} {nt : Norm} {uplo : Uplo} {A : MatV L}
    (hf : uplo = .Upper ∨ uplo = .Lower → Foot R W fro) (hA : CovT R uplo .NonUnit A) :
    Foot R W (lanheG o fro nt uplo A) := by
  unfold lanheG
  refine Foot.check_bind fun _ => Foot.check_bind fun hu => Foot.ite (fun _ => Foot.pure _) fun hz => ?_
  have hu := uploOK hu
  have hs : Foot R W (do
      let r ← maxLoop o 0 A.m o.zero fun j => lanheSum o uplo A A.m j
      pure (normRet r)) := Foot.bind (foot_maxLoop fun j _ _ => foot_lanheSum hu hA) fun _ => Foot.pure _
  cases nt
  · exact hs
  · exact hs
  · exact hs
  · exact hf hu
  · refine Foot.bind (Foot.forRet fun j s _ _ => Foot.ite (fun h => ?_) fun h => ?_) fun _ => Foot.pure _
    · subst h
      unfold lanheMaxU
      refine Foot.bind (foot_maxLoop fun i _ _ => foot_getAbs fun h1 h2 => hA _ _ h1 h2
        (by simp only [inTri]; omega) (by simp)) fun r => ?_
      cases r
      · exact Foot.bind (foot_getAbsRe fun h1 h2 => hA j j h1 h2 (by simp [inTri]) (by simp)) fun _ => Foot.pure _
      · exact Foot.pure _
    · obtain rfl : uplo = .Lower := hu.resolve_left h
      unfold lanheMaxL
      refine Foot.bind (foot_getAbsRe fun h1 h2 => hA j j h1 h2 (by simp [inTri]) (by simp)) fun t => ?_
      cases normUpd o s t
      · exact foot_maxLoop fun i _ _ => foot_getAbs fun h1 h2 => hA _ _ h1 h2 (by simp only [inTri]; omega) (by simp)
      · exact Foot.pure _

end nops

section infnorm
variable {o : NOps T T}

theorem foot_maxW {w : VecV L} {m : Nat} (hw : CovV R w) : Foot R W (maxW o w m) :=
  Foot.bind (foot_maxLoop fun i _ _ => Foot.vget_v hw) fun _ => Foot.pure _

theorem foot_addAbsCol {A : MatV L} {w : VecV L} {j lo hi : Nat}
    (hA : ∀ i, lo ≤ i → i < hi → i < A.m → j < A.n → R (A.cell i j)) (hw : CovV R w) (hw' : CovV W w) :
    Foot R W (addAbsCol o A w j lo hi) := by
  unfold addAbsCol
  exact Foot.forUp_ fun i h1 h2 => Foot.bind (Foot.get' (hA i h1 h2)) fun _ => Foot.vmodify' (hw i) (hw' i)

theorem foot_reshapeW {α : Type} {work : VecV L} {k : Nat} {f : VecV L → M L T α} (hw : CovV R work) (hw' : CovV W work)
    (h : ∀ w, CovV R w → CovV W w → Foot R W (f w)) : Foot R W (reshapeW work k >>= f) := by
  have e : (reshapeW work k >>= f) = (check (decide (k ≤ work.n)) >>= fun _ => f (work.sub 0 k)) := by
    unfold reshapeW
    funext μ
    by_cases hc : k ≤ work.n <;> simp [bind, check, hc, pure, M.fail, M.bind, M.pure]
  rw [e]
  exact Foot.check_bind fun hc => by
    have hc : k ≤ work.n := by simpa using hc
    exact h _ (hw.sub hc) (hw'.sub hc)

theorem foot_infnormColmajor {A : MatV L} {work : VecV L} (hA : CovM R A) (hw : CovV R work) (hw' : CovV W work) :
    Foot R W (infnormColmajor o A work) := by
  unfold infnormColmajor
  refine Foot.ite (fun _ => Foot.pure _) fun _ => foot_reshapeW hw hw' fun w h1 h2 => ?_
  refine Foot.bind (Foot.forUp_ fun i _ _ => Foot.bind (Foot.get_m hA) fun _ => Foot.vset_v h2) fun _ => ?_
  exact Foot.bind (Foot.forUp_ fun j _ _ => foot_addAbsCol (fun i _ _ => hA i j) h1 h2) fun _ => foot_maxW h1

theorem foot_symCol {A : MatV L} {w : VecV L} {j lo hi : Nat} {s : T}
    (hA : ∀ i, lo ≤ i → i < hi → i < A.m → j < A.n → R (A.cell i j)) (hw : CovV R w) (hw' : CovV W w) :
    Foot R W (symCol o A w j lo hi s) := by
  unfold symCol
  exact Foot.forUp fun i _ h1 h2 => Foot.bind (Foot.get' (hA i h1 h2)) fun _ =>
    Foot.bind (Foot.vmodify' (hw i) (hw' i)) fun _ => Foot.pure _

theorem foot_infnormSym {absD : T → T} {uplo : Uplo} {A : MatV L} {work : VecV L} (hA : CovT R uplo .NonUnit A)
    (hw : CovV R work) (hw' : CovV W work) : Foot R W (infnormSym o absD uplo A work) := by
  unfold infnormSym
  refine Foot.check_bind fun hu => Foot.ite (fun _ => Foot.pure _) fun _ => foot_reshapeW hw hw' fun w h1 h2 => ?_
  refine Foot.bind (Foot.forUp_ fun i _ _ => Foot.vset_v h2) fun _ => ?_
  rcases uploOK hu with rfl | rfl <;> simp only [reduceCtorEq, if_true, if_false]
  · refine Foot.bind (Foot.forUp_ fun j _ _ => ?_) fun _ => foot_maxW h1
    exact Foot.bind (foot_symCol (fun i _ _ a b => hA i j a b (by simp only [inTri]; omega) (by simp)) h1 h2) fun _ =>
      Foot.bind (Foot.get' fun a b => hA j j a b (by simp [inTri]) (by simp)) fun _ => Foot.vset_v h2
  · refine Foot.bind (foot_maxLoop fun j _ _ => ?_) fun _ => Foot.pure _
    exact Foot.bind (Foot.vget_v h1) fun _ =>
      Foot.bind (Foot.get' fun a b => hA j j a b (by simp [inTri]) (by simp)) fun _ =>
      foot_symCol (fun i _ _ a b => hA i j a b (by simp only [inTri]; omega) (by simp)) h1 h2

theorem foot_infnormTriangular {uplo : Uplo} {diag : Diag} {A : MatV L} {work : VecV L} (hA : CovT R uplo diag A)
    (hw : CovV R work) (hw' : CovV W work) : Foot R W (infnormTriangular o uplo diag A work) := by
  unfold infnormTriangular
  refine Foot.check_bind fun hu => Foot.ite (fun _ => Foot.pure _) fun hz => foot_reshapeW hw hw' fun w h1 h2 => ?_
  refine Foot.bind ?_ fun _ => foot_maxW h1
  unfold infnormTriSums
  refine Foot.bind (Foot.forUp_ fun i _ _ => Foot.vset_v h2) fun _ => ?_
  have hset : ∀ lo hi (c : T), Foot R W (forUp_ lo hi fun i => w.set i c) := fun lo hi c => Foot.forUp_ fun i _ _ => Foot.vset_v h2
  rcases uploOK hu with rfl | rfl <;> cases diag <;> simp only [reduceCtorEq, if_true, if_false]
  · exact Foot.bind (hset _ _ _) fun _ => Foot.forUp_ fun j _ _ => foot_addAbsCol
      (fun i _ _ a b => hA i j a b (by simp only [inTri]; omega) (by simp)) h1 h2
  · exact Foot.bind (hset _ _ _) fun _ => Foot.forUp_ fun j _ _ => foot_addAbsCol
      (fun i _ _ a b => hA i j a b (by simp only [inTri]; omega) (by omega)) h1 h2
  · exact Foot.bind (hset _ _ _) fun _ => Foot.forUp_ fun j _ _ => foot_addAbsCol
      (fun i _ _ a b => hA i j a b (by simp only [inTri]; omega) (by simp)) h1 h2
  · exact Foot.bind (hset _ _ _) fun _ => Foot.bind (hset _ _ _) fun _ => Foot.forUp_ fun j _ _ => foot_addAbsCol
      (fun i _ _ a b => hA i j a b (by simp only [inTri]; omega) (by omega)) h1 h2

end infnorm

section fro
variable [Zero T] [One T] [Add T] [Mul T] [Sub T] [Neg T] [Div T] [Star T] [ReIm T] [DecidableEq T]
variable [Field K] [LinearOrder K] {o : HhOps T K}

theorem foot_lassqCols {A : MatV L} {lo hi : Nat} {a b : Nat → Nat} {s : K × K}
    (h : ∀ i j, lo ≤ j → j < hi → a j ≤ i → i < b j → i < A.m → j < A.n → R (A.cell i j)) :
    Foot R W (lassqCols o A lo hi a b s) := by
  unfold lassqCols
  refine Foot.forUp fun j s h1 h2 => Foot.sliceCol_bind fun h3 h4 => ?_
  refine fun h5 => foot_lassq fun i hi => ?_
  have hi' : i < b j - a j := hi
  exact h (a j + i) j h1 h2 (by omega) (by omega) (by omega) (by omega)

theorem foot_lange {nt : Norm} {A : MatV L} (hA : CovM R A) : Foot R W (lange o nt A) := by
  refine foot_langeG ?_ hA
  unfold langeFro
  exact Foot.bind (foot_lassqCols fun i j _ _ _ _ => hA i j) fun _ => Foot.pure _

theorem foot_lantr {nt : Norm} {uplo : Uplo} {diag : Diag} {A : MatV L} (hA : CovT R uplo diag A) :
    Foot R W (lantr o nt uplo diag A) := by
  refine foot_lantrG (fun hu => ?_) hA
  unfold lantrFro
  refine Foot.bind ?_ fun _ => Foot.pure _
  rcases hu with rfl | rfl <;> cases diag <;> simp only [reduceCtorEq, if_true, if_false] <;>
    exact foot_lassqCols fun i j _ _ _ _ a b => hA i j a b (by simp only [inTri]; omega) (by first | simp; done | omega)

theorem foot_lansyFro {g : T → K} {uplo : Uplo} (hu : uplo = .Upper ∨ uplo = .Lower) {A : MatV L}
    (hA : CovT R uplo .NonUnit A) : Foot R W (lansyFro o g uplo A) := by
  unfold lansyFro
  refine Foot.bind ?_ fun _ => Foot.bind (foot_lassqF fun i hi => ?_) fun _ => Foot.pure _
  · rcases hu with rfl | rfl <;> simp only [reduceCtorEq, if_true, if_false] <;>
      exact foot_lassqCols fun i j _ _ _ _ a b => hA i j a b (by simp only [inTri]; omega) (by simp)
  · have hi' : i < min A.m A.n := hi
    exact hA i i (by omega) (by omega) (by rcases hu with rfl | rfl <;> simp [inTri]) (by simp)

theorem foot_lansy {nt : Norm} {uplo : Uplo} {A : MatV L} (hA : CovT R uplo .NonUnit A) :
    Foot R W (lansy o nt uplo A) := foot_lansyG (fun hu => foot_lansyFro hu hA) hA

theorem foot_lanhe {nt : Norm} {uplo : Uplo} {A : MatV L} (hA : CovT R uplo .NonUnit A) :
    Foot R W (lanhe o nt uplo A) := foot_lanheG (fun hu => foot_lansyFro hu hA) hA

end fro
end TLA
