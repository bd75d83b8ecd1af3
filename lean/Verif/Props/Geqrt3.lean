import Verif.Proofs.Geqrt3
import Verif.Props.Gelqt
import Verif.Props.BlockRefl
set_option linter.unusedTactic false
set_option linter.unusedVariables false
set_option linter.unreachableTactic false
set_option linter.unusedSectionVars false

/-! # C74: geqrt3 -/

namespace TLA
open Finset
variable {L 𝕜 : Type} [DecidableEq L] [RCLike 𝕜] [DecidableEq 𝕜] {p : HhPar}

/-- **C74** geqrt3 of a matrix with at least as many rows as columns: `A = Q R` with `R` the upper triangle left in `A`
(real diagonal), `Q` unitary and the product of the reflectors left below it, whose scalars are the diagonal of `T`;
unless the call says that `T` is only a workspace, the upper triangle of `T` is the triangular factor of that product:
`Q = I - U T U^H`.  Only `A`, the upper triangle of `T` and the workspace of geqrf are written.  This holds for every
switch point `nx` between the recursion and the blocked code. -/
theorem C74_geqrt3 (hl : HhLaws 𝕜 p) (hreal : (hhOps (𝕜 := 𝕜) p).isReal = true → ∀ z : 𝕜, star z = z) (isw : Bool) (A Tm : MatV L)
    (work : VecV L) (ok : GqtOK A Tm work) (hmn : A.n ≤ A.m) (hTm : Tm.m = A.n) (hTn : Tm.n = A.n) (nb nx : Nat) (hnb : 0 < nb)
    (hw : ∀ B : MatV L, B.m ≤ A.m → B.n ≤ A.n → (geqrfWorksize B nb).size ≤ work.n) (μ : Store L 𝕜)
    (hb : ∀ c, c < A.n → ∑ r ∈ range A.m, ‖entry μ A r c‖ ^ 2 ≤ p.tbig ^ 2) :
    ∃ ν, geqrt3 (hhOps p) nb nx isw A Tm work μ = (.ok (), ν) ∧
      (let Q := houseQ .Forward .Columnwise A.m A.n (entry ν A) (fun i => entry ν Tm i i)
       mat A.m A.n (entry μ A) = Q * mat A.m A.n (triF .Upper .NonUnit (entry ν A)) ∧ Q.conjTranspose * Q = 1 ∧
       (isw = false → blockRefl .Forward .Columnwise A.m A.n (entry ν A) (entry ν Tm) = Q)) ∧
      (∀ i, i < A.n → RCLike.im (entry ν A i i) = 0) ∧
      ∀ l, ¬ A.Owns l → (∀ a b, a ≤ b → b < A.n → Tm.cell a b ≠ l) → ¬ work.Owns l → ν l = μ l := by
  obtain ⟨ν, e, h⟩ := wp_unit (wp_geqrt3F hl hreal hnb (A.n + 1) isw A Tm μ (by omega) ok hmn hTm hTn hw hb (nx := nx))
  refine ⟨ν, e, ⟨?_, h.inv.houseQ.2, fun hs => ?_⟩, fun i hi => ?_, h.frame⟩
  · rw [show mat A.m A.n (triF .Upper .NonUnit (entry ν A)) =
      mat A.m A.n (qR .Forward A.m A.n A.n (entry ν A)) from ?_]
    · exact h.inv.houseQ.1
    · rw [mat_ext_iff]
      intro r c hr hc
      unfold triF
      by_cases hz : qz .Forward A.m A.n A.n r c
      · rw [qR_of hz]
        rw [qz_fwd] at hz
        rw [if_neg (by omega), if_neg (by simp only [inTri]; omega)]
      · rw [qR_not hz]
        rw [qz_fwd] at hz
        by_cases hd : r = c
        · subst hd; simp
        · rw [if_neg hd, if_pos (by simp only [inTri]; omega)]
  · rw [blockRefl_eq, mat_rel_q (dir := .Forward) (h.rel hs), houseP_cols]
  · have := h.inv.real i hi
    simp only [hpiv, qidx, qcol, if_true] at this
    exact RCLike.conj_eq_iff_im.1 this

/-- **C74** A matrix with fewer rows than columns is left as it is, without an error. -/
theorem C74_geqrt3_wide (isw : Bool) (A Tm : MatV L) (work : VecV L) (hmn : A.m < A.n) (nb nx : Nat) (μ : Store L 𝕜) :
    geqrt3 (hhOps p) nb nx isw A Tm work μ = (.ok (), μ) := by
  unfold geqrt3 geqrt3F
  simp only []
  rw [if_pos hmn]
  rfl

/-- A 5×3 factorization with the recursion going down to single columns (`nx = 1`). -/
example : GqtOK (mkM 0 5 3) (mkM 1 3 3) (mkV 2 60) ∧
    (∀ B : MatV (Nat × Nat × Nat), B.m ≤ (mkM 0 5 3).m → B.n ≤ (mkM 0 5 3).n → (geqrfWorksize B 2).size ≤ (mkV 2 60).n) ∧
    HhLaws ℝ (doublePar true) := by
  refine ⟨⟨by adm, by adm, by adm, by adm, by adm, by adm⟩, ?_, doublePar_laws _ (by simp)⟩
  intro B h1 h2
  simp only [mkM, mkV] at h1 h2 ⊢
  have e : ∀ m n, B.m = m → B.n = n → m ≤ 5 → n ≤ 3 → (geqrfWorksize B 2).size ≤ 60 := by
    intro m n hm hn h1 h2
    simp only [geqrfWorksize, geqr2Worksize, MatV.sub, hm, hn]
    interval_cases m <;> interval_cases n <;> decide
  exact e _ _ rfl rfl h1 h2

end TLA
