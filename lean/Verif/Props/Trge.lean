import Verif.Proofs.Trge
import Verif.Props.Examples

/-! # C95: QR of a triangle on top of a rectangle -/

set_option linter.unusedSectionVars false
set_option linter.unusedVariables false
set_option linter.unusedTactic false
set_option linter.unreachableTactic false

namespace TLA
open Finset
variable {L 𝕜 : Type} [DecidableEq L] [RCLike 𝕜] [DecidableEq 𝕜] {p : HhPar}

/-- **C95** trge_qr2: the matrix consisting of the upper triangle of the first `n` rows and of the rows below (`trgeF`) is `Q R`,
`Q` the unitary product of the `n` reflectors whose tails are stored in the bottom rows, `R` upper triangular with real diagonal.
The strictly lower part of the first `n` rows is neither read nor written. -/
theorem C95_trge_qr2 (hl : HhLaws 𝕜 p) (A : MatV L) (tau work : VecV L) (ok : QrOK A tau work) (hN : A.n ≤ A.m) (h0 : 0 < A.n)
    (ht : A.n ≤ tau.n) (hw : A.n - 1 ≤ work.n) (μ : Store L 𝕜)
    (hb : ∀ c, c < A.n → ∑ r ∈ range A.m, ‖trgeF A.n (entry μ A) r c‖ ^ 2 ≤ p.tbig ^ 2) :
    ∃ ν, trgeQr2 (hhOps p) A tau work μ = (.ok (), ν) ∧
      (let Q := houseQ .Forward .Columnwise A.m A.n (trgeF A.n (entry ν A)) (ventry ν tau)
       mat A.m A.n (trgeF A.n (entry μ A)) = Q * mat A.m A.n (triF .Upper .NonUnit (entry ν A)) ∧
       Q.conjTranspose * Q = 1) ∧
      (∀ i, i < A.n → RCLike.im (entry ν A i i) = 0) ∧
      (∀ r c, r < A.n → c < r → entry ν A r c = entry μ A r c) ∧
      ∀ l, ¬ A.Owns l → ¬ (tau.sub 0 A.n).Owns l → ¬ work.Owns l → ν l = μ l := by
  obtain ⟨⟨⟩, ν, e, h⟩ := wp_iff.1 (wp_trgeQr2 hl ok hN h0 ht hw (μ := μ) hb)
  refine ⟨ν, e, ⟨?_, h.inv.houseQ.2⟩, fun i hi => ?_, h.low, h.frame⟩
  · rw [show mat A.m A.n (triF .Upper .NonUnit (entry ν A)) = mat A.m A.n (qR .Forward A.m A.n A.n (trgeF A.n (entry ν A))) from ?_]
    · exact h.inv.houseQ.1
    · rw [mat_ext_iff]
      intro r c hr hc
      unfold triF
      by_cases hz : qz .Forward A.m A.n A.n r c
      · rw [qR_of hz]
        rw [qz_fwd] at hz
        rw [if_neg (by omega), if_neg (by simp only [inTri]; omega)]
      · rw [qR_not hz]
        rw [qz_fwd] at hz
        rw [trgeF_not (by omega)]
        by_cases e : r = c
        · subst e; rw [if_pos rfl]
        · rw [if_neg e, if_pos (by simp only [inTri]; omega)]
  · have := RCLike.conj_eq_iff_im.1 (h.inv.diag hi)
    have e : trgeF A.n (entry ν A) i i = entry ν A i i := trgeF_not (by omega)
    rw [← e]
    exact this

/-- **C95** trge_ung2r: the first `k` columns of the product of the reflectors, again up to the strictly lower part of the first `n` rows,
which is neither read nor written. -/
theorem C95_trge_ung2r (W : MatV L) (tau work : VecV L) (ok : QrOK W tau work) (hN : W.n ≤ W.m) (hk : tau.n ≤ W.n) (h0 : 0 < tau.n)
    (hw : W.n - 1 ≤ work.n) (μ : Store L 𝕜) :
    ∃ ν, trgeUng2r W tau work μ = (.ok (), ν) ∧
      mat W.m W.n (trgeF tau.n (entry ν W)) =
        houseQ .Forward .Columnwise W.m tau.n (trgeF tau.n (entry μ W)) (ventry μ tau) * mat W.m W.n (eyeF .Forward W.m W.n) ∧
      (∀ r c, r < tau.n → c < r → entry ν W r c = entry μ W r c) ∧
      ∀ l, ¬ W.Owns l → ¬ work.Owns l → ν l = μ l := by
  obtain ⟨⟨⟩, ν, e, h⟩ := wp_iff.1 (wp_trgeUng2r ok hN hk h0 hw (μ := μ))
  exact ⟨ν, e, h.inv.houseQ hk rfl, h.low, h.frame⟩

/-- **C95** The matrix left by trge_ung2r is that of the first `k` columns of `Q` if the strictly lower part of the top block was zero before. -/
theorem C95_trge_ung2r_zero (W : MatV L) (tau work : VecV L) (ok : QrOK W tau work) (hN : W.n ≤ W.m) (hk : tau.n ≤ W.n) (h0 : 0 < tau.n)
    (hw : W.n - 1 ≤ work.n) (μ : Store L 𝕜) (hz : ∀ r c, r < tau.n → c < r → entry μ W r c = 0) :
    ∃ ν, trgeUng2r W tau work μ = (.ok (), ν) ∧
      mat W.m W.n (entry ν W) =
        houseQ .Forward .Columnwise W.m tau.n (trgeF tau.n (entry μ W)) (ventry μ tau) * mat W.m W.n (eyeF .Forward W.m W.n) := by
  obtain ⟨ν, e, h1, h2, -⟩ := C95_trge_ung2r W tau work ok hN hk h0 hw μ
  refine ⟨ν, e, ?_⟩
  rw [← h1, mat_ext_iff]
  intro r c hr hc
  unfold trgeF
  by_cases h : r < tau.n ∧ c < r
  · rw [if_pos h, h2 r c h.1 h.2, hz r c h.1 h.2]
  · rw [if_neg h]

/-- **C95** (deviation) In general it is not: for the 2-by-2 identity rotated by nothing (`tau = 0`), the output keeps the entry (1,0) of the
input, so its columns are not orthonormal. -/
theorem C95_trge_ung2r_not_orthonormal :
    ∃ (μ ν : Store (Nat × Nat × Nat) ℝ), trgeUng2r (mkM 0 2 2) (mkV 1 2) (mkV 2 2) μ = (.ok (), ν) ∧
      (mat 2 2 (entry ν (mkM 0 2 2))).conjTranspose * mat 2 2 (entry ν (mkM 0 2 2)) ≠ 1 := by
  obtain ⟨ν, e, h1, h2, h3⟩ := C95_trge_ung2r (mkM 0 2 2) (mkV 1 2) (mkV 2 2) (by constructor <;> adm) (by decide) (by decide) (by decide) (by decide)
    (fun l => if l.1 = 0 then 1 else 0 : Store (Nat × Nat × Nat) ℝ)
  refine ⟨_, ν, e, fun h => ?_⟩
  have a10 := h2 1 0 (by decide) (by decide)
  have hq : houseQ .Forward .Columnwise 2 2 (trgeF 2 (entry (fun l => if l.1 = 0 then 1 else 0 : Store (Nat × Nat × Nat) ℝ) (mkM 0 2 2)))
      (ventry (fun l => if l.1 = 0 then 1 else 0 : Store (Nat × Nat × Nat) ℝ) (mkV 1 2)) = 1 := by
    have hH : ∀ i, houseH .Forward .Columnwise 2 2 (trgeF 2 (entry (fun l => if l.1 = 0 then 1 else 0 : Store (Nat × Nat × Nat) ℝ) (mkM 0 2 2)))
      (ventry (fun l => if l.1 = 0 then 1 else 0 : Store (Nat × Nat × Nat) ℝ) (mkV 1 2)) i = 1 := by
      intro i
      ext a b
      simp [houseH, reflF, mat, ventry, mkV, Matrix.one_apply, Fin.ext_iff]
    unfold houseQ
    refine List.prod_eq_one fun M hM => ?_
    obtain ⟨i, _, rfl⟩ := List.mem_map.1 hM
    exact hH i
  have h1' : mat 2 2 (trgeF 2 (entry ν (mkM 0 2 2))) = 1 * mat 2 2 (eyeF .Forward 2 2) := by rw [← hq]; exact h1
  rw [Matrix.one_mul] at h1'
  have e00 := (mat_ext_iff.1 h1') 0 0 (by decide) (by decide)
  rw [trgeF_not (by decide)] at e00
  have := congrFun (congrFun h 0) 0
  simp only [Matrix.mul_apply, Fin.sum_univ_two, Matrix.conjTranspose_apply, mat, Matrix.of_apply, Fin.val_zero, Fin.val_one] at this
  rw [e00, a10] at this
  simp [eyeF, entry, mkM] at this

/-- **C95** (deviation) Without columns, `n - 1` wraps around and trge_qr2 leaves the matrix. -/
theorem C95_trge_qr2_empty_violated (A : MatV L) (tau work : VecV L) (h : A.n = 0) (μ : Store L 𝕜) :
    trgeQr2 (hhOps p) A tau work μ = (.error .ub, μ) := by
  unfold trgeQr2
  rw [if_pos h]
  rfl

/-- **C95** (deviation) Without reflectors, trge_ung2r takes column `n - 1` of the matrix. -/
theorem C95_trge_ung2r_empty_violated (W : MatV L) (tau work : VecV L) (hW : W.Inj) (h : tau.n = 0) (μ : Store L 𝕜) :
    ∃ ν, trgeUng2r W tau work μ = (.error .ub, ν) := by
  have key : wp (trgeUng2r W tau work) μ (fun _ _ => False) (fun e _ => e = .ub) := by
    unfold trgeUng2r
    simp only [wp_bind]
    refine wp_slice (by omega) (by omega) (by omega) (by omega) ?_
    refine wp_mono (wp_lasetG (hW.sub (by omega) (by omega))) ?_ (fun _ _ h => h.elim)
    intro _ ν1 _
    refine wp_slice (by omega) (by omega) (by omega) (by omega) ?_
    refine wp_mono (wp_lasetG (hW.sub (by omega) (by omega))) ?_ (fun _ _ h => h.elim)
    intro _ ν2 _
    rw [if_pos h, wp_fail]
  unfold wp at key
  rcases hx : trgeUng2r W tau work μ with ⟨r, ν⟩
  rw [hx] at key
  cases r with
  | error e => exact ⟨ν, by rw [show e = .ub from key]⟩
  | ok r => exact key.elim

/-- A triangle of order 2 on top of three rows. -/
example : QrOK (mkM 0 5 2) (mkV 1 2) (mkV 2 2) ∧ (mkM 0 5 2).n ≤ (mkM 0 5 2).m ∧ 0 < (mkM 0 5 2).n ∧ (mkM 0 5 2).n ≤ (mkV 1 2).n ∧
    (mkM 0 5 2).n - 1 ≤ (mkV 2 2).n ∧
    ∀ (p : HhPar), HhLaws ℝ p → ∀ c, c < (mkM 0 5 2).n → ∑ r ∈ range (mkM 0 5 2).m,
      ‖trgeF 2 (entry (fun l => if l.2.1 = l.2.2 then 1 else 0 : Store (Nat × Nat × Nat) ℝ) (mkM 0 5 2)) r c‖ ^ 2 ≤ p.tbig ^ 2 := by
  refine ⟨by constructor <;> adm, by decide, by decide, by decide, by decide, fun p hl c hc => ?_⟩
  have := hl.tbig_one
  have hc : c < 2 := hc
  rcases (by omega : c = 0 ∨ c = 1) with rfl | rfl <;> simp [mkM, trgeF, entry, Finset.sum_range_succ] <;> exact le_trans this (le_abs_self _)

end TLA
