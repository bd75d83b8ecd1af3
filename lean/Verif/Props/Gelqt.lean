import Verif.Proofs.Gelqt
import Verif.Props.Examples
set_option linter.unusedTactic false
set_option linter.unusedVariables false
set_option linter.unreachableTactic false
set_option linter.unusedSectionVars false

/-! # C73: gelqt -/

namespace TLA
open Finset
variable {L 𝕜 : Type} [DecidableEq L] [RCLike 𝕜] [DecidableEq 𝕜] {p : HhPar}

/-- **C73** gelqt of a matrix with at most as many rows as columns: `A = L Q` with `L` the lower triangle left in `A`
(real diagonal) and the unitary `Q` given by the reflectors left above it, whose scalars are the diagonals of the blocks
of `TT`; row block `b` of `TT` holds the triangular factor of the block reflector `I - U T U^H` made of the reflectors
`b nb, ..., b nb + ib - 1`.  Only `A`, `TT` and the workspace are written. -/
theorem C73_gelqt (hl : HhLaws 𝕜 p) (hreal : (hhOps (𝕜 := 𝕜) p).isReal = true → ∀ z : 𝕜, star z = z) (A TT : MatV L)
    (work : VecV L) (ok : GqtOK A TT work) (hmn : A.m ≤ A.n) (hTm : A.m ≤ TT.m) (hnb : 0 < TT.n)
    (hw : gelqtWorksize A TT ≤ work.n) (μ : Store L 𝕜)
    (hb : ∀ r, r < A.m → ∑ c ∈ range A.n, ‖entry μ A r c‖ ^ 2 ≤ p.tbig ^ 2) :
    ∃ ν, gelqt (hhOps p) A TT work μ = (.ok 0, ν) ∧
      (let Q := houseQ .Forward .Rowwise A.n A.m (entry ν A) (fun i => entry ν TT i (i % TT.n))
       mat A.m A.n (entry μ A) = mat A.m A.n (triF .Lower .NonUnit (entry ν A)) * Q ∧ Q * Q.conjTranspose = 1) ∧
      (∀ i, i < A.m → RCLike.im (entry ν A i i) = 0) ∧
      (∀ b ib, b * TT.n < A.m → ib = min TT.n (A.m - b * TT.n) →
        blockRefl .Forward .Rowwise (A.n - b * TT.n) ib (fun i c => entry ν A (b * TT.n + i) (b * TT.n + c))
            (fun i c => entry ν TT (b * TT.n + i) c) =
          houseProd .Forward .Rowwise (A.n - b * TT.n) ib (fun i c => entry ν A (b * TT.n + i) (b * TT.n + c))
            (fun i => entry ν TT (b * TT.n + i) ((b * TT.n + i) % TT.n))) ∧
      ∀ l, ¬ A.Owns l → ¬ TT.Owns l → ¬ work.Owns l → ν l = μ l := by
  obtain ⟨_, ν, e, rfl, h⟩ := wp_iff.1 (wp_gelqt hl hreal ok hmn hTm hnb hw (μ := μ)
    (fun c hc => by simpa [LG, cj, MatV.tr, entry] using hb c hc))
  obtain ⟨h1, h2, h3⟩ := lq_of_qr (m := A.m) (n := A.n) (A0 := entry μ A) (G := entry ν A) h.inv
  refine ⟨ν, e, ⟨?_, h2⟩, h3, fun b ib hb hib => ?_, h.frame⟩
  · refine h1.trans ?_
    refine congrArg₂ _ ?_ rfl
    rw [mat_ext_iff]
    intro r c hr hc
    unfold triF
    by_cases hz : qz .Forward A.n A.m A.m c r
    · rw [if_pos hz]
      rw [qz_fwd] at hz
      rw [if_neg (by omega), if_neg (by simp only [inTri]; omega)]
    · rw [if_neg hz]
      rw [qz_fwd] at hz
      by_cases hd : r = c
      · subst hd; simp
      · rw [if_neg hd, if_pos (by simp only [inTri]; omega)]
  · rw [blockRefl_eq, houseProd_eq, h.tb b ib hb hib (by omega)]
    refine houseP_row_congr (fun _ _ _ _ => rfl) fun i hi => ?_
    rw [Nat.mul_comm, Nat.mul_add_mod, Nat.mod_eq_of_lt (by omega)]

/-- **C73** (deviation) For a matrix with more rows than columns gelqt does not update the rows below the last panel:
with one block (`nb ≥ n`) it factors the leading n-by-n block, `A_1 = L_1 Q`, and leaves the other rows as they were,
so that they are not `L Q` unless `Q` happens to fix them. -/
theorem C73_gelqt_tall_violated (hl : HhLaws 𝕜 p) (A TT : MatV L) (work : VecV L) (ok : GqtOK A TT work) (hmn : A.n < A.m)
    (h0 : 0 < A.n) (hTm : A.m ≤ TT.m) (hnb : A.n ≤ TT.n) (hw : gelqtWorksize A TT ≤ work.n) (μ : Store L 𝕜)
    (hb : ∀ r, r < A.n → ∑ c ∈ range A.n, ‖entry μ A r c‖ ^ 2 ≤ p.tbig ^ 2) :
    ∃ ν, gelqt (hhOps p) A TT work μ = (.ok 0, ν) ∧
      (let Q := houseQ .Forward .Rowwise A.n A.n (entry ν A) (fun i => entry ν TT i i)
       mat A.n A.n (entry μ A) = mat A.n A.n (triF .Lower .NonUnit (entry ν A)) * Q ∧ Q * Q.conjTranspose = 1) ∧
      (∀ i, i < A.n → RCLike.im (entry ν A i i) = 0) ∧
      ∀ r c, A.n ≤ r → r < A.m → c < A.n → entry ν A r c = entry μ A r c := by
  have key : wp (gelqt (hhOps p) A TT work) μ (fun r ν => r = 0 ∧
      (let Q := houseQ .Forward .Rowwise A.n A.n (entry ν A) (fun i => entry ν TT i i)
       mat A.n A.n (entry μ A) = mat A.n A.n (triF .Lower .NonUnit (entry ν A)) * Q ∧ Q * Q.conjTranspose = 1) ∧
      (∀ i, i < A.n → RCLike.im (entry ν A i i) = 0) ∧
      ∀ r c, A.n ≤ r → r < A.m → c < A.n → entry ν A r c = entry μ A r c) := by
    unfold gelqt
    have hk : min A.m A.n = A.n := by omega
    simp only [wp_bind, wp_check, hk]
    rw [if_pos (by simp; omega)]
    refine wp_forStep (fun j ν => if j = 0 then ν = μ else A.n ≤ j ∧
      (let Q := houseQ .Forward .Rowwise A.n A.n (entry ν A) (fun i => entry ν TT i i)
       mat A.n A.n (entry μ A) = mat A.n A.n (triF .Lower .NonUnit (entry ν A)) * Q ∧ Q * Q.conjTranspose = 1) ∧
      (∀ i, i < A.n → RCLike.im (entry ν A i i) = 0) ∧
      ∀ r c, A.n ≤ r → r < A.m → c < A.n → entry ν A r c = entry μ A r c) (by omega) ?_ ?_ 0 μ (by rw [if_pos rfl])
    · intro j ν hj hν
      have hj0 : j = 0 := by
        by_contra hne
        rw [if_neg hne] at hν
        omega
      subst hj0
      rw [if_pos rfl] at hν
      subst hν
      unfold gelqtStep
      simp only [wp_bind, Nat.zero_add, Nat.sub_zero, show min TT.n A.n = A.n by omega]
      refine wp_slice (by omega) (by omega) (by omega) (by omega) ?_
      refine wp_slice (by omega) (by omega) (by omega) (by omega) ?_
      have hws : gelq2Worksize (A.sub 0 (0 + A.n) 0 A.n) ≤ work.n := by
        refine le_trans (gelq2Worksize_mono ?_ ?_) hw
        · simp [MatV.sub]; omega
        · simp [MatV.sub]
      have hcb : ColBound p .Rowwise ν (A.sub 0 (0 + A.n) 0 (0 + (A.n - 0))).tr := fun c hc => by
        have := hb c (by simpa [MatV.tr, MatV.sub] using hc)
        simpa [LG, cj, MatV.tr, entry, MatV.sub] using this
      have hp := fun Q => wp_gelqtPanel (Q := Q) hl ok (j := 0) (ib := A.n) (ν := ν) (by omega) (by omega) hTm hnb hws hcb
      simp only [Nat.zero_add, Nat.sub_zero] at hp
      refine hp _ ?_
      intro ν1 ν2 h1 h2
      unfold gelqtUpdate
      rw [if_neg (by omega), wp_pure]
      simp only [wp_pure]
      rw [if_neg (by omega)]
      have inv := h1.inv
      have em : (A.sub 0 A.n 0 A.n).tr.m = A.n := by simp [MatV.tr, MatV.sub]
      have en : (A.sub 0 A.n 0 A.n).tr.n = A.n := by simp [MatV.tr, MatV.sub]
      rw [em, en] at inv
      have inv' : QRInv .Forward A.n A.n A.n (fun r c => star (entry ν A c r)) A.n (fun r c => star (entry ν2 A c r))
          (fun i => entry ν2 TT i i) := by
        have inv0 : QRInv .Forward A.n A.n A.n (fun r c => star (entry ν A c r)) A.n (LG .Rowwise ν1 (A.sub 0 A.n 0 A.n).tr)
            (ventry ν1 (TT.sub 0 A.n 0 A.n).tdiag) := by
          refine Eq.mp ?_ inv
          congr 1
          funext r c
          simp [LG, cj, MatV.tr, MatV.sub, entry]
        refine inv0.congr (le_refl _) (le_refl _) (le_refl _) (fun r c hr hc => ?_) (fun i hi => ?_)
        · have : entry ν2 A c r = entry ν1 A c r := h2.frame _ fun a b ha hb _ e =>
            ok.AT c r (by omega) (by omega) ⟨0 + a, 0 + b, by omega, by omega, e⟩
          rw [this]
          simp [LG, cj, MatV.tr, MatV.sub, entry]
        · have := h2.diag i (by omega) hi
          rw [← this]
          simp [entry, MatV.sub]
      obtain ⟨g1, g2, g3⟩ := lq_of_qr (m := A.n) (n := A.n) (A0 := entry ν A) (G := entry ν2 A) inv'
      refine ⟨by omega, ⟨?_, g2⟩, g3, fun r c hr hrm hc => ?_⟩
      · refine g1.trans ?_
        refine congrArg₂ _ ?_ rfl
        rw [mat_ext_iff]
        intro r c hr hc
        unfold triF
        by_cases hz : qz .Forward A.n A.n A.n c r
        · rw [if_pos hz]
          rw [qz_fwd] at hz
          rw [if_neg (by omega), if_neg (by simp only [inTri]; omega)]
        · rw [if_neg hz]
          rw [qz_fwd] at hz
          by_cases hd : r = c
          · subst hd; simp
          · rw [if_neg hd, if_pos (by simp only [inTri]; omega)]
      · have e2 : entry ν2 A r c = entry ν1 A r c := h2.frame _ fun a b ha hb _ e =>
          ok.AT r c (by omega) (by omega) ⟨0 + a, 0 + b, by omega, by omega, e⟩
        rw [e2]
        refine h1.frame _ ?_ ?_ (ok.Aw r c (by omega) (by omega))
        · rintro ⟨a, b, ha, hb, e⟩
          simp only [MatV.tr, MatV.sub] at ha hb e
          have := ok.inj _ _ _ _ (by omega) (by omega) hrm hc e
          omega
        · rintro ⟨i, hi, e⟩
          simp only [VecV.sub, MatV.tdiag, MatV.sub] at hi e
          exact ok.AT r c (by omega) (by omega) ⟨_, _, by omega, by omega, e⟩
    · intro j ν hj hν
      rw [if_neg (by omega)] at hν
      exact ⟨rfl, hν.2⟩
  obtain ⟨_, ν, e, rfl, h⟩ := wp_iff.1 key
  exact ⟨ν, e, h⟩

/-- **C73** (deviation) Consequence: a matrix with one column, a non-real first entry and another nonzero entry is not
factored, whatever `L` and `Q` are read from the result. -/
theorem C73_gelqt_column_violated (hl : HhLaws 𝕜 p) (A TT : MatV L) (work : VecV L) (ok : GqtOK A TT work) (hn : A.n = 1)
    (hTm : A.m ≤ TT.m) (hnb : 1 ≤ TT.n) (hw : gelqtWorksize A TT ≤ work.n) (μ : Store L 𝕜)
    (hb : ‖entry μ A 0 0‖ ^ 2 ≤ p.tbig ^ 2) (him : RCLike.im (entry μ A 0 0) ≠ 0) (r : Nat) (hr0 : 0 < r) (hr : r < A.m)
    (hne : entry μ A r 0 ≠ 0) :
    ∃ ν, gelqt (hhOps p) A TT work μ = (.ok 0, ν) ∧
      mat A.m A.n (entry μ A) ≠ mat A.m A.n (triF .Lower .NonUnit (entry ν A)) *
        houseQ .Forward .Rowwise A.n A.n (entry ν A) (fun i => entry ν TT i i) := by
  obtain ⟨ν, e, ⟨h1, -⟩, h3, h4⟩ := C73_gelqt_tall_violated hl A TT work ok (by omega) (by omega) hTm (by omega) hw μ
    (fun r hr => by
      rw [hn] at hr ⊢
      rw [show r = 0 by omega]
      simpa using hb)
  refine ⟨ν, e, fun h => ?_⟩
  generalize hQ : houseQ .Forward .Rowwise A.n A.n (entry ν A) (fun i => entry ν TT i i) = Q at h h1
  have i0 : Fin A.n := ⟨0, by omega⟩
  have a1 := congrFun (congrFun h1 ⟨0, by omega⟩) ⟨0, by omega⟩
  have a2 := congrFun (congrFun h ⟨r, hr⟩) ⟨0, by omega⟩
  have huniv : (Finset.univ : Finset (Fin A.n)) = {⟨0, by omega⟩} := by
    ext x
    have := x.2
    simp [Fin.ext_iff]
    omega
  rw [Matrix.mul_apply, huniv, Finset.sum_singleton] at a1 a2
  simp only [mat, triF, Matrix.of_apply] at a1 a2
  rw [if_pos trivial] at a1
  rw [if_neg (by omega), if_pos (by simp only [inTri]; omega), h4 r 0 (by omega) hr (by omega)] at a2
  have hq1 : Q ⟨0, by omega⟩ ⟨0, by omega⟩ = 1 := by
    have : entry μ A r 0 * 1 = entry μ A r 0 * Q ⟨0, by omega⟩ ⟨0, by omega⟩ := by rw [mul_one]; exact a2
    exact (mul_left_cancel₀ hne this).symm
  rw [hq1, mul_one] at a1
  exact him (by rw [a1]; exact h3 0 (by omega))

/-- A 3×4 factorization in blocks of two; a 2×1 complex matrix `(i, 1)`. -/
example : GqtOK (mkM 0 3 4) (mkM 1 3 2) (mkV 2 12) ∧ gelqtWorksize (mkM 0 3 4) (mkM 1 3 2) ≤ (mkV 2 12).n ∧
    GqtOK (mkM 0 2 1) (mkM 1 2 1) (mkV 2 2) ∧ gelqtWorksize (mkM 0 2 1) (mkM 1 2 1) ≤ (mkV 2 2).n ∧
    RCLike.im (Complex.I : ℂ) ≠ 0 ∧ HhLaws ℂ (doublePar false) ∧ ‖(Complex.I : ℂ)‖ ^ 2 ≤ (doublePar false).tbig ^ 2 := by
  refine ⟨⟨?_, ?_, ?_, ?_, ?_, ?_⟩, ?_, ⟨?_, ?_, ?_, ?_, ?_, ?_⟩, ?_, by simp, doublePar_laws _ (by simp), ?_⟩ <;> try adm
  exact le_trans (one_le_pow₀ (by norm_num) : (1 : ℝ) ≤ 2 ^ 486) (le_abs_self _)

end TLA
