import Verif.SpecBlasX
import Verif.Props.Level3
import Verif.Proofs.TrmmBlk
import Verif.Proofs.TrsmTri
import Verif.Proofs.Hemm2
set_option linter.unusedTactic false
set_option linter.unusedVariables false
set_option linter.unreachableTactic false
set_option linter.unusedSectionVars false

/-! # C62 to C66: level-3 kernels that extend the BLAS -/

namespace TLA
open Finset
variable {L T : Type} [DecidableEq L]

/-! ### C62: trmm_out -/

/-- **C62** trmm_out, `A` on the right: `C := alpha op(B) tri(A) + beta C`, for every size `n > 0`, both
triangles, both kinds of diagonal and every operation on `B`; only `C` is written. -/
theorem C62_trmm_out_right [Field T] [StarRing T] {uplo : Uplo} {transB : Op} (diag : Diag) (alpha : T)
    {A B C : MatV L} (beta : Coef T) {m n : Nat} (h : TrmmOutOK uplo transB A B C m n n) (hn : 0 < n)
    (μ : Store L T) :
    ∃ ν, trmmOut .Right uplo .NoTrans diag transB alpha A B beta C μ = (.ok (), ν) ∧
      mat m n (entry ν C) = alpha • (mat m n (opF transB (entry μ B)) * mat n n (triF uplo diag (entry μ A))) +
        beta.toVal • mat m n (entry μ C) ∧
      ∀ l, ¬ C.Owns l → ν l = μ l := by
  obtain ⟨ν, h1, h2, h3⟩ := wp_unit (wp_trmmOutR h.tri (diag := diag) h.hop (alpha := alpha) n (beta := beta) (μ := μ) hn
    h.Bm h.Bn h.Am h.An h.Cm h.Cn h.inj h.AC h.BC)
  exact ⟨ν, h1, h3, h2⟩

/-- **C62** trmm_out, `A` on the left: `C := alpha tri(A) op(B) + beta C`, for every size `m > 0`. -/
theorem C62_trmm_out_left [Field T] [StarRing T] {uplo : Uplo} {transB : Op} (diag : Diag) (alpha : T)
    {A B C : MatV L} (beta : Coef T) {m n : Nat} (h : TrmmOutOK uplo transB A B C m n m) (hm : 0 < m)
    (μ : Store L T) :
    ∃ ν, trmmOut .Left uplo .NoTrans diag transB alpha A B beta C μ = (.ok (), ν) ∧
      mat m n (entry ν C) = alpha • (mat m m (triF uplo diag (entry μ A)) * mat m n (opF transB (entry μ B))) +
        beta.toVal • mat m n (entry μ C) ∧
      ∀ l, ¬ C.Owns l → ν l = μ l := by
  obtain ⟨ν, h1, h2, h3⟩ := wp_unit (wp_trmmOutL h.tri (diag := diag) h.hop (alpha := alpha) m (beta := beta) (μ := μ) hm
    h.Bm h.Bn h.Am h.An h.Cm h.Cn h.inj h.AC h.BC)
  exact ⟨ν, h1, h3, h2⟩

/-- The hypotheses of C62 are met. -/
example : TrmmOutOK .Lower .ConjTrans (mkM 0 3 3) (mkM 1 3 5) (mkM 2 5 3) 5 3 3 ∧
    TrmmOutOK .Upper .NoTrans (mkM 0 3 3) (mkM 1 3 5) (mkM 2 3 5) 3 5 3 := by
  refine ⟨⟨?_, ?_, ?_, ?_, ?_, ?_, ?_, ?_, ?_, ?_, ?_⟩, ⟨?_, ?_, ?_, ?_, ?_, ?_, ?_, ?_, ?_, ?_, ?_⟩⟩ <;> first | adm | simp [mkM]

/-- **C62** (deviation) trmm_out never returns when the triangular matrix is empty: the recursion stops at size
one only. -/
theorem C62_trmm_out_empty_violated [Field T] [StarRing T] (uplo : Uplo) (transA : Op) (diag : Diag) (alpha : T)
    (A B : MatV L) (beta : Coef T) (C : MatV L) (hA : A.m = 0) (hA' : A.n = 0) (hB : B.n = 0) (hC : C.n = 0)
    (hm : C.m = B.m) (μ : Store L T) :
    trmmOut .Right uplo transA diag .NoTrans alpha A B beta C μ = (.error .diverge, μ) := by
  have key : wp (trmmOut .Right uplo transA diag .NoTrans alpha A B beta C) μ (fun _ _ => False)
      (fun e ν => e = .diverge ∧ ν = μ) := by
    unfold trmmOut
    rw [if_pos rfl, trmmOutR]
    have e1 : opRows .NoTrans B = B.m := rfl
    have e2 : opCols .NoTrans B = 0 := hB
    simp only [e1, e2, Nat.zero_ne_one, if_false, wp_bind, Nat.zero_div, opSlice, if_true]
    refine wp_sliceChk (by omega) (by omega) (by omega) (by omega) ?_
    refine wp_sliceChk (by omega) (by omega) (by omega) (by omega) ?_
    refine wp_sliceChk (by omega) (by omega) (by omega) (by omega) ?_
    have hs : ∀ (Q : MatV L → Store L T → Prop), (∀ X, Q X μ) →
        wp (if uplo = .Upper then A.slice 0 0 0 0 else A.slice 0 0 0 0 : M L T (MatV L)) μ Q
          (fun e ν => e = .diverge ∧ ν = μ) := by
      intro Q hQ
      rw [ite_self]
      exact wp_slice (by omega) (by omega) (by omega) (by omega) (hQ _)
    refine hs _ fun X => ?_
    refine wp_sliceChk (by omega) (by omega) (by omega) (by omega) ?_
    refine wp_slice (by omega) (by omega) (by omega) (by omega) ?_
    refine wp_slice (by omega) (by omega) (by omega) (by omega) ?_
    rw [dif_pos trivial]
    exact ⟨rfl, rfl⟩
  unfold wp at key
  rcases h : trmmOut .Right uplo transA diag .NoTrans alpha A B beta C μ with ⟨r, ν⟩
  rw [h] at key
  cases r with
  | ok _ => exact key.elim
  | error e => obtain ⟨rfl, rfl⟩ := key; rfl

/-! ### C63: trsm_tri -/

/-- **C63** trsm_tri with `A` on the left solves `op(A) X = alpha tri(B)` for two triangular matrices of the same
shape: it overwrites exactly the triangle of `B` selected by `uploB` with the triangle of the solution and leaves the
other one alone. -/
theorem C63_trsm_tri_left [Field T] [StarRing T] {uploB : Uplo} (hu : uploB = .Upper ∨ uploB = .Lower)
    {transA : Op} (hop : transA ≠ .Conj) (diagA : Diag) (alpha : T) {A B : MatV L} {n : Nat} (hn : 0 < n)
    (hAm : A.m = n) (hAn : A.n = n) (hBm : B.m = n) (hBn : B.n = n) (hB : B.Inj) (hd : A.Disj B)
    (μ : Store L T) (hnz : diagA = .NonUnit → ∀ i, i < n → entry μ A i i ≠ 0) :
    ∃ ν, trsmTri .Left uploB transA diagA alpha A B μ = (.ok (), ν) ∧
      mat n n (triF uploB diagA (opF transA (entry μ A))) * mat n n (triF uploB .NonUnit (entry ν B)) =
        alpha • mat n n (triF uploB .NonUnit (entry μ B)) ∧
      SameOff B uploB μ ν := by
  obtain ⟨ν, h1, h2, h3⟩ := wp_unit (wp_trsmTri_L hu hop (diagA := diagA) n (alpha := alpha) (μ := μ) hn hAm hAn hBm hBn hB
    hd hnz)
  exact ⟨ν, h1, h3, h2⟩

/-- **C63** trsm_tri with `A` on the right solves `X op(A) = alpha tri(B)`. -/
theorem C63_trsm_tri_right [Field T] [StarRing T] {uploB : Uplo} (hu : uploB = .Upper ∨ uploB = .Lower)
    {transA : Op} (hop : transA ≠ .Conj) (diagA : Diag) (alpha : T) {A B : MatV L} {n : Nat} (hn : 0 < n)
    (hAm : A.m = n) (hAn : A.n = n) (hBm : B.m = n) (hBn : B.n = n) (hB : B.Inj) (hd : A.Disj B)
    (μ : Store L T) (hnz : diagA = .NonUnit → ∀ i, i < n → entry μ A i i ≠ 0) :
    ∃ ν, trsmTri .Right uploB transA diagA alpha A B μ = (.ok (), ν) ∧
      mat n n (triF uploB .NonUnit (entry ν B)) * mat n n (triF uploB diagA (opF transA (entry μ A))) =
        alpha • mat n n (triF uploB .NonUnit (entry μ B)) ∧
      SameOff B uploB μ ν := by
  obtain ⟨ν, h1, h2, h3⟩ := wp_unit (wp_trsmTri_R hu hop (diagA := diagA) n (alpha := alpha) (μ := μ) hn hAm hAn hBm hBn hB
    hd hnz)
  exact ⟨ν, h1, h3, h2⟩

/-- The hypotheses of C63 are met by a matrix of ones. -/
example : (mkM 1 3 3).Inj ∧ (mkM 0 3 3).Disj (mkM 1 3 3) ∧
    ∀ i, i < 3 → entry (fun _ => (1 : ℚ)) (mkM 0 3 3) i i ≠ 0 :=
  ⟨mkM_inj 1 3 3, mkM_disj (by decide), fun i _ => by simp [entry]⟩

/-- **C63** (deviation) trsm_tri never returns on empty matrices. -/
theorem C63_trsm_tri_empty_violated [Field T] [StarRing T] (side : Side) (uploB : Uplo) (transA : Op) (diagA : Diag)
    (alpha : T) (A B : MatV L) (hA : A.m = 0) (hA' : A.n = 0) (hB : B.m = 0) (hB' : B.n = 0) (μ : Store L T) :
    trsmTri side uploB transA diagA alpha A B μ = (.error .diverge, μ) := by
  rw [trsmTri]
  simp [trsmTriScale, forUp_, forUp, forUpN, hA, hA', hB, hB', MatV.sliceChk, bind, M.bind, pure, M.pure, M.fail]

/-! ### C64: gemmtr -/

/-- **C64** gemmtr computes one triangle of `alpha op(A) op(B) + beta C` and writes nothing else. -/
theorem C64_gemmtr [Field T] [StarRing T] {uplo : Uplo} (hu : uplo = .Upper ∨ uplo = .Lower) {transA transB : Op}
    (alpha : T) {A B C : MatV L} (beta : Coef T) {n k : Nat} (h : GemmOK transA transB A B C n n k) (μ : Store L T) :
    ∃ ν, gemmtr uplo transA transB alpha A B beta C μ = (.ok (), ν) ∧
      (∀ i j : Fin n, inTri uplo i j → mat n n (entry ν C) i j =
        (alpha • (mat n k (opF transA (entry μ A)) * mat k n (opF transB (entry μ B))) +
          beta.toVal • mat n n (entry μ C)) i j) ∧
      SameOff C uplo μ ν := by
  obtain ⟨ν, h1, h2, h3⟩ := wp_unit (wp_gemmtr hu (alpha := alpha) (beta := beta) (μ := μ) h)
  refine ⟨ν, h1, fun i j ht => ?_, h2⟩
  rw [mat_mul, mat_smul, mat_smul, mat_add]
  exact h3 i j i.2 j.2 ht

example : GemmOK .ConjTrans .Trans (mkM 0 3 4) (mkM 1 4 3) (mkM 2 4 4) 4 4 3 := by
  refine ⟨?_, ?_, ?_, ?_, ?_, ?_, ?_, ?_, ?_, ?_, ?_⟩ <;> first | adm | simp [mkM]

/-- **C64** (deviation) the check on `C` needs both of its dimensions to be wrong: with `op(A)`, `op(B)` of the right
sizes and a `C` that has `n > 0` columns but no rows, gemmtr raises no error and accesses `C(0,0)`. -/
theorem C64_gemmtr_check_violated [Field T] [StarRing T] (alpha : T) (A B : MatV L) (beta : Coef T) (C : MatV L)
    {n k : Nat} (hn : 0 < n) (hA : A.m = n) (hA' : A.n = k) (hB : B.m = k) (hB' : B.n = n) (hC : C.m = 0)
    (hC' : C.n = n) (μ : Store L T) :
    gemmtr .Upper .NoTrans .NoTrans alpha A B beta C μ = (.error .ub, μ) := by
  obtain ⟨n, rfl⟩ : ∃ n', n = n' + 1 := ⟨n - 1, by omega⟩
  unfold gemmtr
  simp [hA, hA', hB, hB', hC, hC', check, bind, M.bind, pure, M.pure, M.fail, gemmtrN, forUp_, forUp, forUpN, triLo, triHi,
    MatV.modify, MatV.get]

/-! ### C65: hemm2 and mult_hehe -/

/-- **C65** hemm2, Hermitian matrix on the left: `C := alpha A op(B) + beta C` where `A` is the Hermitian matrix held
in one triangle (the diagonal is taken to be real). -/
theorem C65_hemm2_left [Field T] [StarRing T] [ReIm T] [ExactScalar T] {uplo : Uplo}
    (hu : uplo = .Upper ∨ uplo = .Lower) {transB : Op} (alpha : T) {A B C : MatV L} (beta : Coef T) {m n : Nat}
    (h : Hemm2OK .Left transB A B C m n) (μ : Store L T) :
    ∃ ν, hemm2 .Left uplo transB alpha A B beta C μ = (.ok (), ν) ∧
      mat m n (entry ν C) = alpha • (mat m m (hermF uplo (entry μ A)) * mat m n (opF transB (entry μ B))) +
        beta.toVal • mat m n (entry μ C) ∧
      ∀ l, ¬ C.Owns l → ν l = μ l := by
  obtain ⟨ν, h1, h2, h3⟩ := wp_unit (wp_hemm2_left (u := uplo) (by tauto) (alpha := alpha) (beta := beta) (μ := μ) h)
  have e : hemm2Tri .Left transB uplo = uplo := by rcases hu with rfl | rfl <;> simp [hemm2Tri]
  rw [e] at h3
  exact ⟨ν, h1, h3, h2⟩

/-- **C65** hemm2, Hermitian matrix on the right: `C := alpha op(B) A + beta C`. -/
theorem C65_hemm2_right [Field T] [StarRing T] [ReIm T] [ExactScalar T] {uplo : Uplo}
    (hu : uplo = .Upper ∨ uplo = .Lower) {transB : Op} (alpha : T) {A B C : MatV L} (beta : Coef T) {m n : Nat}
    (h : Hemm2OK .Right transB A B C m n) (μ : Store L T) :
    ∃ ν, hemm2 .Right uplo transB alpha A B beta C μ = (.ok (), ν) ∧
      mat m n (entry ν C) = alpha • (mat m n (opF transB (entry μ B)) * mat n n (hermF uplo (entry μ A))) +
        beta.toVal • mat m n (entry μ C) ∧
      ∀ l, ¬ C.Owns l → ν l = μ l := by
  obtain ⟨ν, h1, h2, h3⟩ := wp_unit (wp_hemm2_right (u := uplo) (by tauto) (alpha := alpha) (beta := beta) (μ := μ) h)
  have e : hemm2Tri .Right transB uplo = uplo := by
    rcases hu with rfl | rfl <;> cases transB <;> simp [hemm2Tri]
  rw [e] at h3
  exact ⟨ν, h1, h3, h2⟩

example : Hemm2OK .Left .ConjTrans (mkM 0 3 3) (mkM 1 4 3) (mkM 2 3 4) 3 4 ∧
    Hemm2OK .Right .NoTrans (mkM 0 4 4) (mkM 1 3 4) (mkM 2 3 4) 3 4 := by
  refine ⟨⟨?_, ?_, ?_, ?_, ?_, ?_, ?_, ?_, ?_, ?_⟩, ⟨?_, ?_, ?_, ?_, ?_, ?_, ?_, ?_, ?_, ?_⟩⟩ <;> first | adm | simp [mkM]

/-- **C65** (deviation) with `uplo = General` hemm2 accepts the call but does not multiply by `A`: it uses one triangle
only, and which one depends on `side` and `transB`: the upper one for `Right`, `NoTrans` ... -/
theorem C65_hemm2_general_right_violated [Field T] [StarRing T] [ReIm T] [ExactScalar T] (alpha : T) {A B C : MatV L}
    (beta : Coef T) {m n : Nat} (h : Hemm2OK .Right .NoTrans A B C m n) (μ : Store L T) :
    ∃ ν, hemm2 .Right .General .NoTrans alpha A B beta C μ = (.ok (), ν) ∧
      mat m n (entry ν C) = alpha • (mat m n (entry μ B) * mat n n (hermF .Upper (entry μ A))) +
        beta.toVal • mat m n (entry μ C) := by
  obtain ⟨ν, h1, h2, h3⟩ := wp_unit (wp_hemm2_right (u := .General) (by tauto) (alpha := alpha) (beta := beta) (μ := μ) h)
  exact ⟨ν, h1, h3⟩

/-- **C65** (deviation) ... and the lower one for `Left`. -/
theorem C65_hemm2_general_left_violated [Field T] [StarRing T] [ReIm T] [ExactScalar T] {transB : Op} (alpha : T)
    {A B C : MatV L} (beta : Coef T) {m n : Nat} (h : Hemm2OK .Left transB A B C m n) (μ : Store L T) :
    ∃ ν, hemm2 .Left .General transB alpha A B beta C μ = (.ok (), ν) ∧
      mat m n (entry ν C) = alpha • (mat m m (hermF .Lower (entry μ A)) * mat m n (opF transB (entry μ B))) +
        beta.toVal • mat m n (entry μ C) := by
  obtain ⟨ν, h1, h2, h3⟩ := wp_unit (wp_hemm2_left (u := .General) (by tauto) (alpha := alpha) (beta := beta) (μ := μ) h)
  exact ⟨ν, h1, h3⟩

/-- **C65** mult_hehe: the full product of two Hermitian matrices, each held in one triangle:
`C := alpha A B + beta C`. -/
theorem C65_mult_hehe [Field T] [StarRing T] [ReIm T] [ExactScalar T] {uplo : Uplo}
    (hu : uplo = .Upper ∨ uplo = .Lower) (alpha : T) {A B C : MatV L} (beta : Coef T) {n : Nat} (hn : 0 < n)
    (hAm : A.m = n) (hAn : A.n = n) (hBm : B.m = n) (hBn : B.n = n) (hCm : C.m = n) (hCn : C.n = n) (hC : C.Inj)
    (hA : A.Disj C) (hB : B.Disj C) (μ : Store L T) :
    ∃ ν, multHehe uplo alpha A B beta C μ = (.ok (), ν) ∧
      mat n n (entry ν C) = alpha • (mat n n (hermF uplo (entry μ A)) * mat n n (hermF uplo (entry μ B))) +
        beta.toVal • mat n n (entry μ C) ∧
      ∀ l, ¬ C.Owns l → ν l = μ l := by
  obtain ⟨ν, h1, h2, h3⟩ := wp_unit (wp_multHehe hu (alpha := alpha) n (beta := beta) (μ := μ) hn hAm hAn hBm hBn hCm hCn hC
    hA hB)
  exact ⟨ν, h1, h3, h2⟩

example : (mkM 2 3 3).Inj ∧ (mkM 0 3 3).Disj (mkM 2 3 3) ∧ (mkM 1 3 3).Disj (mkM 2 3 3) :=
  ⟨mkM_inj 2 3 3, mkM_disj (by decide), mkM_disj (by decide)⟩

/-- **C65** (deviation) mult_hehe accesses `A(0,0)` of empty matrices. -/
theorem C65_mult_hehe_empty_violated [Field T] [StarRing T] [ReIm T] (uplo : Uplo) (alpha : T) (A B : MatV L)
    (beta : Coef T) (C : MatV L) (hA : A.m = 0) (hA' : A.n = 0) (μ : Store L T) :
    multHehe uplo alpha A B beta C μ = (.error .ub, μ) := by
  rw [multHehe]
  simp [hA, hA', MatV.get, bind, M.bind]

/-! ### C66: trmm_blocked_mixed -/

/-- **C66** trmm_blocked_mixed, Left/Upper/NoTrans: `B := alpha triu(A) B`, whatever the (positive) block size; only
`B` and the workspace are written. -/
theorem C66_trmm_blocked {𝕜 : Type} [RCLike 𝕜] {nb : Nat} (diag : Diag) (alpha : 𝕜) {A B : MatV L} {work : VecV L}
    (hnb : 0 < nb) (h : TrmmBlkOK nb A B work) (μ : Store L 𝕜) :
    ∃ ν, trmmBlockedMixed nb .Left .Upper .NoTrans diag alpha A B work μ = (.ok (), ν) ∧
      mat B.m B.n (entry ν B) =
        alpha • (mat B.m B.m (triF .Upper diag (entry μ A)) * mat B.m B.n (entry μ B)) ∧
      ∀ l, ¬ B.Owns l → ¬ work.Owns l → ν l = μ l := by
  obtain ⟨ν, h1, h2, h3⟩ := wp_unit (wp_trmmBlocked hnb (diag := diag) (alpha := alpha) (μ := μ) h)
  exact ⟨ν, h1, h3, h2⟩

example : TrmmBlkOK 2 (mkM 0 5 5) (mkM 1 5 3) (mkV 2 6) := by
  refine ⟨?_, ?_, ?_, ?_, ?_, ?_, ?_, ?_⟩ <;> first | adm | simp [mkM, mkV]

/-- **C66** (deviation) the other combinations of `side`, `uplo` and `trans`, all accepted by the argument checks and
by the documentation, are not implemented: the call ends in `tlapack_error`. -/
theorem C66_trmm_blocked_unimplemented_violated {𝕜 : Type} [RCLike 𝕜] (nb : Nat) (side : Side) (uplo : Uplo)
    (trans : Op) (diag : Diag) (alpha : 𝕜) (A B : MatV L) (work : VecV L)
    (hs : ¬ (side = .Left ∧ uplo = .Upper ∧ trans = .NoTrans)) (μ : Store L 𝕜) :
    ∃ e, trmmBlockedMixed nb side uplo trans diag alpha A B work μ = (.error e, μ) := by
  have hs' : ¬ (side = .Left ∧ trans = .NoTrans ∧ uplo = .Upper) := fun h => hs ⟨h.1, h.2.2, h.2.1⟩
  have hc : ∀ (b : Bool) {α : Type} (f : Unit → M L 𝕜 α), (∃ e, f () μ = (.error e, μ)) →
      ∃ e, (check b >>= f) μ = (.error e, μ) := by
    intro b α f hf
    cases b
    · exact ⟨_, rfl⟩
    · exact hf
  unfold trmmBlockedMixed
  simp only [if_neg hs']
  refine hc _ _ (hc _ _ (hc _ _ (hc _ _ (hc _ _ ?_))))
  unfold reshapeWM
  by_cases hw : decide (min nb B.m * B.n ≤ work.n) = true
  · rw [hw]; exact ⟨_, rfl⟩
  · rw [Bool.not_eq_true] at hw
    rw [hw]; exact ⟨_, rfl⟩

end TLA
