import Verif.Props.Reduce
import Verif.Props.BlockRefl
import Verif.Proofs.Ungbr
set_option linter.unusedTactic false
set_option linter.unusedVariables false
set_option linter.unreachableTactic false
set_option linter.unusedSectionVars false

/-! # C72: the unitary factors of the bidiagonal reduction -/

namespace TLA
open Finset Matrix
variable {L 𝕜 : Type} [DecidableEq L] [RCLike 𝕜] [DecidableEq 𝕜]

/-- **C72** ungbr_q for a reduction of a matrix with fewer rows than columns (`m < k`): the m-by-m block becomes the
unitary factor `Q = H_0 ... H_{m-2}` whose `i`-th reflector has its unit entry in row `i + 1` and its tail below it in
column `i`, exactly the `Q` of gebd2 (C60_gebd2_lower); only `A` and the workspace are written. -/
theorem C72_ungbr_q_wide (isReal : Bool) (hreal : isReal = true → ∀ z : 𝕜, star z = z) (nb : Nat) (hnb : 0 < nb) (k : Nat)
    (A : MatV L) (tau work : VecV L) (ok : QrOK A tau work) (hk : A.m < k) (h0 : 0 < A.m) (hn : A.m ≤ A.n)
    (ht : A.m ≤ tau.n + 1) (hw : (ungbrQWorksize k A tau.n nb).size ≤ work.n) (μ : Store L 𝕜) :
    ∃ ν, ungbrQ isReal nb k A tau work μ = (.ok 0, ν) ∧
      mat A.m A.m (entry ν A) = reflProd A.m 0 (A.m - 1) (ventry μ tau) (reflCol 1 A.m (entry μ A)) ∧
      ∀ l, ¬ A.Owns l → ¬ work.Owns l → ν l = μ l := by
  obtain ⟨_, ν, e, rfl, h⟩ := wp_iff.1 (wp_ungbrQ_lt isReal hreal nb hnb ok hk h0 hn ht hw μ)
  exact ⟨ν, e, h⟩

/-- **C72** ungbr_q for a reduction with at least as many rows as columns (`m ≥ k`): the first `n` columns of
`Q = H_0 ... H_{k-1}`, the `Q` of gebd2 (C60_gebd2_upper). -/
theorem C72_ungbr_q_tall (isReal : Bool) (hreal : isReal = true → ∀ z : 𝕜, star z = z) (nb k : Nat)
    (A : MatV L) (tau work : VecV L) (ok : QrOK A tau work) (hk : k ≤ A.m) (hnb : 0 < nb) (hn : A.n ≤ A.m)
    (ht : tau.n ≤ A.n) (ht0 : 0 < tau.n)
    (hw : (ungbrQWorksize k A tau.n nb).size ≤ work.n) (μ : Store L 𝕜) :
    ∃ ν, ungbrQ isReal nb k A tau work μ = (.ok 0, ν) ∧
      mat A.m A.n (entry ν A) = reflProd A.m 0 tau.n (ventry μ tau) (reflCol 0 A.m (entry μ A)) *
        mat A.m A.n (fun i j => if i = j then (1 : 𝕜) else 0) ∧
      ∀ l, ¬ A.Owns l → ¬ work.Owns l → ν l = μ l := by
  unfold ungbrQWorksize at hw
  rw [if_pos hk] at hw
  obtain ⟨ν, e, h, f⟩ := C47_ungq_columnwise isReal nb .Forward A tau work hreal
    ⟨ok, by rw [if_pos rfl]; exact ⟨hn, ht⟩, hnb, Or.inl ht0, fun _ _ => hw⟩ μ
  refine ⟨ν, ?_, ?_, f⟩
  · unfold ungbrQ
    rw [if_pos hk]
    simp only [bind, M.bind, pure, M.pure, e]
  · rw [h, reflCol_emb (by omega), Nat.sub_zero, emb_zero]
    simp only [if_true, Nat.zero_add]
    congr 1

/-- **C72** ungbr_p for a reduction with at least as many rows as columns (`k ≥ n`): the n-by-n block becomes `P^H` for
the factor `P = G_0 ... G_{n-2}` of gebd2 (C60_gebd2_upper). -/
theorem C72_ungbr_p_tall (isReal : Bool) (hreal : isReal = true → ∀ z : 𝕜, star z = z) (nb : Nat) (hnb : 0 < nb) (k : Nat)
    (A : MatV L) (tau work : VecV L) (ok : QrOK A tau work) (hk : A.n ≤ k) (h0 : 0 < A.n) (hn : A.n ≤ A.m)
    (ht : A.n ≤ tau.n + 1) (hw : (ungbrPWorksize k A tau.n nb).size ≤ work.n) (μ : Store L 𝕜) :
    ∃ ν, ungbrP isReal nb k A tau work μ = (.ok 0, ν) ∧
      mat A.n A.n (entry ν A) = (reflProd A.n 0 (A.n - 1) (ventry μ tau) (reflRow 1 A.n (entry μ A))).conjTranspose ∧
      ∀ l, ¬ A.Owns l → ¬ work.Owns l → ν l = μ l := by
  obtain ⟨_, ν, e, rfl, h⟩ := wp_iff.1 (wp_ungbrP_ge isReal hreal nb hnb ok hk h0 hn ht hw μ)
  exact ⟨ν, e, h⟩

/-- **C72** ungbr_p for a reduction with fewer rows than columns (`k < n`): the first `m` rows of `P^H` (C60_gebd2_lower). -/
theorem C72_ungbr_p_wide (isReal : Bool) (hreal : isReal = true → ∀ z : 𝕜, star z = z) (nb k : Nat)
    (A : MatV L) (tau work : VecV L) (ok : QrOK A tau work) (hk : k < A.n) (hnb : 0 < nb) (hn : A.m ≤ A.n)
    (ht : tau.n ≤ A.m) (ht0 : 0 < tau.n)
    (hw : (ungbrPWorksize k A tau.n nb).size ≤ work.n) (μ : Store L 𝕜) :
    ∃ ν, ungbrP isReal nb k A tau work μ = (.ok 0, ν) ∧
      mat A.m A.n (entry ν A) = mat A.m A.n (fun i j => if i = j then (1 : 𝕜) else 0) *
        (reflProd A.n 0 tau.n (ventry μ tau) (reflRow 0 A.n (entry μ A))).conjTranspose ∧
      ∀ l, ¬ A.Owns l → ¬ work.Owns l → ν l = μ l := by
  unfold ungbrPWorksize at hw
  rw [if_neg (by omega)] at hw
  obtain ⟨ν, e, h, f⟩ := C47_ungq_rowwise isReal nb .Forward A tau work hreal
    ⟨ok, by simp; exact ⟨hn, ht⟩, hnb, Or.inl ht0, fun _ _ => hw⟩ μ
  refine ⟨ν, ?_, ?_, f⟩
  · unfold ungbrP
    rw [if_pos hk]
    simp only [bind, M.bind, pure, M.pure, e]
  · rw [h, reflRow_emb (by omega), Nat.sub_zero, emb_zero]
    simp only [if_true, Nat.zero_add]
    congr 1
    ext i j
    simp [eyeF, mat, eq_comm]

/-- **C72** (deviation) ungbr_q with an empty matrix and `k > 0`, and ungbr_p with an empty matrix: the first access is
out of range, although nothing in the documentation excludes the case. -/
theorem C72_ungbr_empty_violated (isReal : Bool) (nb k : Nat) (A : MatV L) (tau work : VecV L) (μ : Store L 𝕜) :
    (A.m = 0 → 0 < k → ungbrQ isReal nb k A tau work μ = (.error .ub, μ)) ∧
    (A.n = 0 → ungbrP isReal nb k A tau work μ = (.error .ub, μ)) := by
  constructor
  · intro h hk
    unfold ungbrQ
    rw [if_neg (by omega), if_pos h]
    rfl
  · intro h
    unfold ungbrP
    rw [if_neg (by omega)]
    simp [bind, M.bind, MatV.set, h]

/-- The shapes of the factors of a 3×5 and of a 5×3 reduction. -/
example : QrOK (mkM 0 3 3) (mkV 1 3) (mkV 2 200) ∧ (ungbrQWorksize 5 (mkM 0 3 3) 3 2).size ≤ (mkV 2 200).n ∧
    (ungbrQWorksize 3 (mkM 0 5 5) 3 2).size ≤ (mkV 2 200).n ∧ (ungbrPWorksize 5 (mkM 0 3 3) 3 2).size ≤ (mkV 2 200).n ∧
    (ungbrPWorksize 3 (mkM 0 3 5) 3 2).size ≤ (mkV 2 200).n := by
  refine ⟨⟨?_, ?_, ?_, ?_, ?_, ?_⟩, ?_, ?_, ?_, ?_⟩ <;> adm

end TLA
