import Verif.Proofs.FootBlas

/-!
# Footprints of the LAPACK models: auxiliary routines, Cholesky, LU
-/

set_option linter.unusedTactic false
set_option linter.unreachableTactic false
set_option linter.unusedVariables false
set_option linter.unusedSectionVars false

namespace TLA

variable {L T : Type} [DecidableEq L] {R W : L → Prop}

/-- Bounds. -/
macro "fle" : tactic => `(tactic| first
  | omega
  | (simp only [MatV.sub, MatV.rowv, MatV.colv, VecV.sub] at *; omega))

/-- A view derived from covered views is covered. -/
macro "fcov" : tactic => `(tactic| ((with_reducible repeat' first
  | assumption
  | refine CovM.sub ?_ (by fle) (by fle) <;> assumption
  | refine CovT.subU (by assumption) (by fle) (by fle) (by fle)
  | refine CovT.subL (by assumption) (by fle) (by fle) (by fle)
  | refine CovM.rowv ?_ (by fle) (by fle) <;> assumption
  | refine CovT.rowU (by assumption) (by fle) (by fle) (by fle)
  | refine CovT.rowL (by assumption) (by fle) (by fle) (by fle)
  | refine CovM.colv ?_ (by fle) (by fle) <;> assumption
  | refine CovT.colU (by assumption) (by fle) (by fle) (by fle)
  | refine CovT.colL (by assumption) (by fle) (by fle) (by fle)
  | refine CovV.sub ?_ (by fle)
  | refine CovT.sub ?_ (by fle) (by fle) <;> assumption
  | refine CovM.tri ?_ _ _
  | refine CovM.sub ?_ (by fle) (by fle)
  | refine CovM.rowv ?_ (by fle) (by fle)
  | refine CovM.colv ?_ (by fle) (by fle)); done))

/-- Calls. -/
macro "fcall" : tactic => `(tactic| with_reducible first
  | (apply foot_gemv <;> fcov)
  | (apply foot_gemm <;> fcov)
  | (apply foot_trsm <;> fcov)
  | (apply foot_trmm <;> fcov)
  | (apply foot_herk <;> fcov)
  | (apply foot_dot <;> fcov)
  | (apply foot_dotu <;> fcov)
  | (apply foot_copy <;> fcov)
  | (apply foot_swap <;> fcov)
  | (apply foot_scal <;> fcov)
  | (apply foot_conjugate <;> fcov)
  | (apply foot_ger <;> fcov)
  | (apply foot_geru <;> fcov))

/-! ### Auxiliary routines -/

theorem foot_iamaxEc {K : Type} [LT K] [DecidableRel (α := K) (· < ·)] {o : IamaxOps T K}
    {x : VecV L} (hx : CovV R x) : Foot R W (iamaxEc o x) := by
  unfold iamaxEc; foot

theorem foot_iamaxNc {K : Type} [LT K] [DecidableRel (α := K) (· < ·)] {o : IamaxOps T K}
    {x : VecV L} (hx : CovV R x) : Foot R W (iamaxNc o x) := by
  unfold iamaxNc; foot

theorem foot_scanRegion {p : T → Bool} {A : MatV L} {lo hi : Nat → Nat}
    (hA : ∀ i j, i < A.m → j < A.n → lo j ≤ i → i < hi j → R (A.cell i j)) :
    Foot R W (scanRegion p A lo hi) := by
  unfold scanRegion
  refine Foot.bind (Foot.forRet fun j _ _ _ => Foot.bind (Foot.forRet fun i _ h1 h2 =>
    Foot.bind (Foot.get' fun h3 h4 => hA i j h3 h4 h1 h2) fun _ => ?_) fun _ => ?_) fun _ => ?_
  all_goals foot

theorem foot_hasP {p : T → Bool} {uplo : Uplo} {A : MatV L} (hA : CovT R uplo .NonUnit A) :
    Foot R W (hasP p uplo A) := by
  unfold hasP
  cases uplo <;> refine foot_scanRegion fun i j hi hj h1 h2 => hA i j hi hj ?_ (fun h => nomatch h)
    <;> simp only [inTri] <;> (try split at h1) <;> (try split at h2) <;> omega

theorem foot_hasPVec {p : T → Bool} {x : VecV L} (hx : CovV R x) : Foot R W (hasPVec p x) := by
  unfold hasPVec; foot

theorem foot_laset {uplo : Uplo} {alpha beta : T} {A : MatV L} (hA : CovT W uplo .NonUnit A) :
    Foot R W (laset uplo alpha beta A) := by
  unfold laset
  cases uplo <;> simp only [reduceCtorEq, reduceIte, ne_eq, not_true, not_false_eq_true] <;> foot
  all_goals first | trivial | skip

theorem foot_lacpy {uplo : Uplo} {A B : MatV L} (hA : CovT R uplo .NonUnit A)
    (hB : CovT W uplo .NonUnit B) : Foot R W (lacpy uplo A B : M L T Unit) := by
  unfold lacpy
  cases uplo <;> simp only [reduceCtorEq, reduceIte, ne_eq, not_true, not_false_eq_true] <;> foot
  all_goals first | trivial | skip

theorem foot_transpose {f : T → T} {nx : Nat} {A B : MatV L} (hA : CovM R A) (hB : CovM W B) :
    Foot R W (transposeRec f nx A B) := by
  induction hk : A.m + A.n using Nat.strong_induction_on generalizing A B with
  | _ k ih =>
    rw [transposeRec]
    foot
    all_goals refine ih _ ?_ ?_ ?_ rfl
    all_goals first | fcov | (simp only [MatV.sub] at *; omega)

theorem foot_scaleRegion [Mul T] {c : T} {A : MatV L} {lo hi : Nat → Nat}
    (hA : ∀ i j, i < A.m → j < A.n → lo j ≤ i → i < hi j → R (A.cell i j))
    (hA' : ∀ i j, i < A.m → j < A.n → lo j ≤ i → i < hi j → W (A.cell i j)) :
    Foot R W (scaleRegion c A lo hi) := by
  unfold scaleRegion
  exact Foot.forUp_ fun j _ _ => Foot.forUp_ fun i h1 h2 =>
    Foot.modify' (fun h3 h4 => hA i j h3 h4 h1 h2) (fun h3 h4 => hA' i j h3 h4 h1 h2)

theorem foot_lasclPass [Mul T] {uplo : Uplo} {c : T} {A : MatV L} (hA : CovT R uplo .NonUnit A)
    (hA' : CovT W uplo .NonUnit A) : Foot R W (lasclPass uplo c A) := by
  unfold lasclPass
  cases uplo <;> refine foot_scaleRegion
      (fun i j hi hj h1 h2 => hA i j hi hj ?_ (fun h => nomatch h))
      (fun i j hi hj h1 h2 => hA' i j hi hj ?_ (fun h => nomatch h))
    <;> simp only [inTri] <;> (try split at h1) <;> (try split at h2) <;> omega

theorem foot_lasclLoop {K : Type} [Field K] [LinearOrder K] {emb : K → T} {pass : T → M L T Unit}
    {small big b : K} (h : ∀ c, Foot R W (pass c)) :
    ∀ fuel a_ b_, Foot R W (lasclLoop emb pass small big b fuel a_ b_)
  | 0, _, _ => Foot.fail _
  | fuel + 1, a_, b_ => by
    unfold lasclLoop
    exact Foot.bind (h _) fun _ => Foot.ite (fun _ => Foot.pure _)
      (fun _ => foot_lasclLoop h fuel _ _)

theorem foot_lascl [Mul T] {K : Type} [Field K] [LinearOrder K] {emb : K → T} {small big : K}
    {fuel : Nat} {uplo : Uplo} {b a : K} {A : MatV L} (hA : CovT R uplo .NonUnit A)
    (hA' : CovT W uplo .NonUnit A) : Foot R W (lascl emb small big fuel uplo b a A) := by
  unfold lascl
  refine Foot.check_bind fun _ => Foot.ite (fun _ => Foot.pure _) fun _ => Foot.bind ?_
    fun _ => Foot.pure _
  exact foot_lasclLoop (fun c => foot_lasclPass hA hA') _ _ _

theorem foot_rsclReal [Mul T] {K : Type} [Field K] [LinearOrder K] {emb : K → T}
    {safeMin safeMax alpha : K} {x : VecV L} (hx : CovV R x) (hx' : CovV W x) :
    Foot R W (rsclReal emb safeMin safeMax alpha x) := by
  unfold rsclReal
  repeat' first | foot1 | fcall

theorem foot_rscl [Mul T] {K : Type} [Field K] [LinearOrder K] {o : LuOps T K}
    {alpha : T} {x : VecV L} (hx : CovV R x) (hx' : CovV W x) :
    Foot R W (rscl o alpha x) := by
  unfold rscl rsclComplex
  repeat' first | foot1 | fcall | (with_reducible apply foot_rsclReal <;> fcov) | (dsimp only; foot1)

/-! ### Cholesky -/

section chol
variable [Zero T] [One T] [Add T] [Mul T] [Sub T] [Neg T] [Div T] [Star T] [ReIm T] [RealOps T]

omit [RealOps T] in
theorem foot_squareTriChecks {α : Type} {uplo : Uplo} {A : MatV L} {f : Unit → M L T α}
    (h : uplo = .Upper ∨ uplo = .Lower → A.m = A.n → Foot R W (f ())) :
    Foot R W (squareTriChecks uplo A >>= f) := by
  have e : (squareTriChecks uplo A >>= f : M L T α) =
      (check (uplo = .Lower || uplo = .Upper) >>= fun _ => check (A.m = A.n : Bool) >>= f) := by
    unfold squareTriChecks
    cases (decide (uplo = .Lower) || decide (uplo = .Upper)) <;> rfl
  rw [e]
  refine Foot.check_bind fun h1 => Foot.check_bind fun h2 => h ?_ (by simpa using h2)
  simpa [or_comm] using h1

theorem foot_potf2 {thr : Bool} {uplo : Uplo} {A : MatV L} (hA : CovT R uplo .NonUnit A)
    (hA' : CovT W uplo .NonUnit A) : Foot R W (potf2 thr uplo A : M L T Nat) := by
  unfold potf2
  refine foot_squareTriChecks fun ht hs => ?_
  refine Foot.bind (Foot.forStep (fun j hj => ?_) _) (fun _ => Foot.pure _)
  rcases ht with rfl | rfl <;> simp only [reduceCtorEq, reduceIte] <;>
    simp only [potf2UStep, potf2LStep] <;>
    repeat' first | foot1 | fdiag | ftri | fcall | dsimp only

theorem foot_cholPanel {uplo : Uplo} {A : MatV L} {j0 j1 n : Nat} (ht : uplo = .Upper ∨ uplo = .Lower)
    (hA : CovT R uplo .NonUnit A)
    (hA' : CovT W uplo .NonUnit A) : Foot R W (cholPanel uplo A j0 j1 n : M L T Unit) := by
  unfold cholPanel
  rcases ht with rfl | rfl <;> simp only [reduceCtorEq, reduceIte] <;>
    repeat' first | foot1 | fcall

theorem foot_potrf2 {thr : Bool} {uplo : Uplo} {A : MatV L} (hA : CovT R uplo .NonUnit A)
    (hA' : CovT W uplo .NonUnit A) : Foot R W (potrf2 thr uplo A : M L T Nat) := by
  induction hk : A.m using Nat.strong_induction_on generalizing A thr with
  | _ k ih =>
    rw [potrf2]
    refine foot_squareTriChecks fun ht hs => ?_
    have d0 : inTri uplo 0 0 := by rcases ht with rfl | rfl <;> simp [inTri]
    repeat' first | foot1 | fdiag | assumption | exact foot_cholPanel ht hA hA' | dsimp only
    all_goals refine ih _ ?_ ?_ ?_ rfl
    all_goals first | fcov | (simp only [MatV.sub] at *; omega)

theorem foot_potrfBlocked {thr : Bool} {nb : Nat} {uplo : Uplo} {A : MatV L}
    (hA : CovT R uplo .NonUnit A)
    (hA' : CovT W uplo .NonUnit A) : Foot R W (potrfBlocked thr nb uplo A : M L T Nat) := by
  unfold potrfBlocked
  refine foot_squareTriChecks fun ht hs => Foot.ite (fun _ => Foot.pure _) fun _ =>
    Foot.ite (fun _ => foot_potf2 hA hA') fun _ =>
    Foot.bind (Foot.forStep (fun j hj => ?_) _) fun _ => Foot.pure _
  unfold potrfBlockedStep
  generalize min nb (A.m - j) = jb
  rcases ht with rfl | rfl <;> simp only [reduceCtorEq, reduceIte] <;>
    repeat' first | foot1 | fcall | (with_reducible apply foot_potf2 <;> fcov)

theorem foot_potrfRl {thr : Bool} {nb : Nat} {uplo : Uplo} {A : MatV L}
    (hA : CovT R uplo .NonUnit A)
    (hA' : CovT W uplo .NonUnit A) : Foot R W (potrfRl thr nb uplo A : M L T Nat) := by
  unfold potrfRl
  refine foot_squareTriChecks fun ht hs => Foot.ite (fun _ => Foot.pure _) fun _ =>
    Foot.ite (fun _ => foot_potf2 hA hA') fun _ =>
    Foot.bind (Foot.forStep (fun j hj => ?_) _) fun _ => Foot.pure _
  unfold potrfRlStep
  generalize min nb (A.m - j) = jb
  dsimp only
  repeat' first | foot1 | fcall | (with_reducible apply foot_potf2 <;> fcov) |
    exact foot_cholPanel ht hA hA'

theorem foot_potrf {dbg internal : Bool} {nb : Nat} {variant : PotrfVariant} {uplo : Uplo}
    {A : MatV L} (hA : CovT R uplo .NonUnit A) (hA' : CovT W uplo .NonUnit A) :
    Foot R W (potrf dbg internal nb variant uplo A : M L T Nat) := by
  unfold potrf
  refine foot_squareTriChecks fun ht hs => ?_
  cases variant
  · exact foot_potrfBlocked hA hA'
  · exact foot_potrf2 hA hA'
  · exact foot_potf2 hA hA'
  · exact foot_potrfRl hA hA'

omit [RealOps T] in
theorem foot_potrs {uplo : Uplo} {A B : MatV L} (hA : CovT R uplo .NonUnit A) (hB : CovM R B)
    (hB' : CovM W B) : Foot R W (potrs uplo A B : M L T Unit) := by
  unfold potrs
  refine foot_squareTriChecks fun ht hs => ?_
  rcases ht with rfl | rfl <;> simp only [reduceCtorEq, reduceIte] <;>
    repeat' first | foot1 | fcall

omit [RealOps T] in
theorem foot_trtri [DecidableEq T] {thr : Bool} {uplo : Uplo} {diag : Diag} {C : MatV L}
    (hC : CovT R uplo diag C)
    (hC' : CovT W uplo diag C) : Foot R W (trtri thr uplo diag C : M L T Nat) := by
  induction hk : C.m using Nat.strong_induction_on generalizing C with
  | _ k ih =>
    rw [trtri]
    refine foot_squareTriChecks fun ht hs => ?_
    have d0 : inTri uplo 0 0 := by rcases ht with rfl | rfl <;> simp [inTri]
    have hoff : ∀ n0, Foot R W (trtriOff uplo diag C n0 C.m : M L T Unit) := by
      intro n0
      unfold trtriOff
      rcases ht with rfl | rfl <;> simp only [reduceCtorEq, reduceIte] <;>
        repeat' first | foot1 | fcall
    repeat' first | foot1 | fdiag | assumption | exact hoff _ | dsimp only
    all_goals refine ih _ ?_ ?_ ?_ rfl
    all_goals first | fcov | (simp only [MatV.sub] at *; omega)

omit [RealOps T] in
theorem foot_lauum {uplo : Uplo} {C : MatV L} (hC : CovT R uplo .NonUnit C)
    (hC' : CovT W uplo .NonUnit C) : Foot R W (lauum uplo C : M L T Unit) := by
  induction hk : C.m using Nat.strong_induction_on generalizing C with
  | _ k ih =>
    rw [lauum]
    refine foot_squareTriChecks fun ht hs => ?_
    have d0 : inTri uplo 0 0 := by rcases ht with rfl | rfl <;> simp [inTri]
    rcases ht with rfl | rfl <;> simp only [reduceCtorEq, reduceIte] <;>
      repeat' first | foot1 | fdiag | assumption | fcall | dsimp only
    all_goals refine ih _ ?_ ?_ ?_ rfl
    all_goals first | fcov | (simp only [MatV.sub] at *; omega)

theorem foot_potri [DecidableEq T] {dbg : Bool} {uplo : Uplo} {A : MatV L}
    (hA : CovT R uplo .NonUnit A)
    (hA' : CovT W uplo .NonUnit A) : Foot R W (potri dbg uplo A : M L T Unit) := by
  unfold potri
  exact foot_squareTriChecks fun _ _ => Foot.bind (foot_potrf2 hA hA') fun _ =>
    Foot.bind (foot_trtri hA hA') fun _ => foot_lauum hA hA'

omit [RealOps T] in
theorem foot_multLlh {nx : Nat} {A : MatV L} (hA : CovT R .Lower .NonUnit A)
    (hA' : CovT W .Lower .NonUnit A) : Foot R W (multLlh nx A : M L T Unit) := by
  induction hk : A.m using Nat.strong_induction_on generalizing A with
  | _ k ih =>
    rw [multLlh]
    unfold multLlhBase
    repeat' first | foot1 | fdiag | ftri | fcall | dsimp only
    all_goals refine ih _ ?_ ?_ ?_ rfl
    all_goals first | fcov | (simp only [MatV.sub] at *; omega)

omit [RealOps T] in
theorem foot_multUhu {nx : Nat} {A : MatV L} (hA : CovT R .Upper .NonUnit A)
    (hA' : CovT W .Upper .NonUnit A) : Foot R W (multUhu nx A : M L T Unit) := by
  induction hk : A.m using Nat.strong_induction_on generalizing A with
  | _ k ih =>
    rw [multUhu]
    unfold multUhuBase
    repeat' first | foot1 | fdiag | ftri | fcall | dsimp only
    all_goals refine ih _ ?_ ?_ ?_ rfl
    all_goals first | fcov | (simp only [MatV.sub] at *; omega)

theorem foot_pttrf {thr : Bool} {D E : VecV L} (hD : CovV R D) (hE : CovV R E)
    (hD' : CovV W D) (hE' : CovV W E) : Foot R W (pttrf thr D E : M L T Nat) := by
  unfold pttrf; foot

end chol

/-! ### LU -/

section lu
variable [Zero T] [One T] [Add T] [Mul T] [Sub T] [Neg T] [Div T] [Star T] [ReIm T] [DecidableEq T]
variable {K : Type} [Field K] [LinearOrder K]

theorem foot_swapRowsV {A : MatV L} {i j : Nat} (hA : CovM R A) (hA' : CovM W A) :
    Foot R W (swapRowsV A i j : M L T Unit) := by
  unfold swapRowsV
  repeat' first | foot1 | fcall

theorem foot_swapColsV {A : MatV L} {i j : Nat} (hA : CovM R A) (hA' : CovM W A) :
    Foot R W (swapColsV A i j : M L T Unit) := by
  unfold swapColsV
  repeat' first | foot1 | fcall

theorem foot_rowSwaps {A : MatV L} {piv : IArr} {k : Nat} (hA : CovM R A) (hA' : CovM W A) :
    Foot R W (rowSwaps A piv k : M L T Unit) := by
  unfold rowSwaps
  repeat' first | foot1 | exact foot_swapRowsV hA hA'

theorem foot_getrfLevel0 {abs1 : T → K} {A : MatV L} {piv : IArr} (hA : CovM R A)
    (hA' : CovM W A) : Foot R W (getrfLevel0 abs1 A piv) := by
  unfold getrfLevel0 pivSearch swapRowsLoop luElim
  foot

theorem foot_getrfCol {o : LuOps T K} {A : MatV L} {piv : IArr} (hA : CovM R A)
    (hA' : CovM W A) : Foot R W (getrfCol o A piv) := by
  unfold getrfCol
  repeat' first | foot1 | (with_reducible apply foot_iamaxEc <;> fcov) |
    (with_reducible apply foot_rscl <;> fcov) | split

theorem foot_getrfRec {o : LuOps T K} {A : MatV L} {piv : IArr} (hA : CovM R A)
    (hA' : CovM W A) : Foot R W (getrfRec o A piv) := by
  induction hk : A.m + A.n using Nat.strong_induction_on generalizing A piv with
  | _ k ih =>
    rw [getrfRec]
    generalize hmn : min A.m A.n = q
    repeat' first | foot1 | fcall | exact foot_getrfCol hA hA' |
      (with_reducible apply foot_rowSwaps <;> fcov) | dsimp only
    all_goals refine ih _ ?_ ?_ ?_ rfl
    all_goals first | (simp only [MatV.sub] at *; omega) | fcov

theorem foot_getrf {o : LuOps T K} {variant : GetrfVariant} {A : MatV L} {piv : IArr}
    (hA : CovM R A) (hA' : CovM W A) : Foot R W (getrf o variant A piv) := by
  unfold getrf
  cases variant
  · exact foot_getrfLevel0 hA hA'
  · exact foot_getrfRec hA hA'

omit [DecidableEq T] in
theorem foot_ulMult {A : MatV L} (hA : CovM R A)
    (hA' : CovM W A) : Foot R W (ulMult A : M L T Unit) := by
  induction hk : A.m using Nat.strong_induction_on generalizing A with
  | _ k ih =>
    rw [ulMult]
    repeat' first | foot1 | fcall | dsimp only
    all_goals refine ih _ ?_ ?_ ?_ rfl
    all_goals first | (simp only [MatV.sub] at *; omega) | fcov

omit [DecidableEq T] in
theorem foot_luMult {nx : Nat} {A : MatV L} (hA : CovM R A)
    (hA' : CovM W A) : Foot R W (luMult nx A : M L T Unit) := by
  induction hk : A.n using Nat.strong_induction_on generalizing A with
  | _ k ih =>
    rw [luMult]
    unfold luMultBase
    repeat' first | foot1 | fcall | dsimp only
    all_goals refine ih _ ?_ ?_ ?_ rfl
    all_goals first | (simp only [MatV.sub] at *; omega) | fcov

theorem foot_getriUili {dbg : Bool} {A : MatV L} (hA : CovM R A)
    (hA' : CovM W A) : Foot R W (getriUili dbg A : M L T Nat) := by
  unfold getriUili
  repeat' first | foot1 | exact foot_trtri (hA.tri _ _) (hA'.tri _ _) | exact foot_ulMult hA hA'

theorem foot_getriUxliLoop {A : MatV L} {V : VecV L} {n : Nat} (hA : CovM R A) (hA' : CovM W A)
    (hV : CovV R V) (hV' : CovV W V) : ∀ c, Foot R W (getriUxliLoop A V n c : M L T Nat)
  | 0 => Foot.pure _
  | c + 1 => by
    unfold getriUxliLoop
    refine Foot.bind ?_ (fun r => ?_)
    · unfold getriUxliStep
      repeat' first | foot1 | fcall
    · cases r with
      | some r => exact Foot.pure _
      | none => exact foot_getriUxliLoop hA hA' hV hV' c

theorem foot_getriSwaps {A : MatV L} {piv : IArr} {n : Nat} (hA : CovM R A) (hA' : CovM W A) :
    Foot R W (getriSwaps A piv n : M L T Unit) := by
  unfold getriSwaps
  repeat' first | foot1 | exact foot_swapColsV hA hA'

theorem foot_getriUILI {dbg : Bool} {A : MatV L} {piv : IArr} (hA : CovM R A)
    (hA' : CovM W A) : Foot R W (getriUILI dbg A piv : M L T Nat) := by
  unfold getriUILI
  repeat' first | foot1 | exact foot_getriUili hA hA' | exact foot_getriSwaps hA hA'

theorem foot_getriUXLI {A : MatV L} {piv : IArr} {work : VecV L} (hA : CovM R A)
    (hA' : CovM W A) (hw : CovV R work) (hw' : CovV W work) :
    Foot R W (getriUXLI A piv work : M L T Nat) := by
  unfold getriUXLI
  refine Foot.bind ?_ fun _ => ?_
  · unfold getriUxliWork
    dsimp only
    repeat' first | foot1 | (apply foot_getriUxliLoop <;> fcov)
  · repeat' first | foot1 | exact foot_getriSwaps hA hA'

end lu

end TLA
