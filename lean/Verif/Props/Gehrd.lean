import Verif.Props.Reduce
import Verif.Proofs.Gehrd
set_option linter.unusedTactic false
set_option linter.unusedVariables false
set_option linter.unreachableTactic false
set_option linter.unusedSectionVars false

/-! # C75: gehrd -/

namespace TLA
open Finset
variable {L 𝕜 : Type} [DecidableEq L] [RCLike 𝕜] [DecidableEq 𝕜] {p : HhPar}

/-- **C75** gehrd, for every block size `nb0 > 0` and crossover point `nxs`, reduces a square matrix to upper Hessenberg form
by a unitary similarity: with `Q = H_ilo ... H_{ihi-2}` built from the reflectors it leaves below the subdiagonal and in
`tau`, `A = Q H Q^H`, `Q` is unitary, the subdiagonal it computes is real, and nothing but `A`, the entries `ilo..ihi-1` of
`tau` and the workspace is written. This is what gehd2 guarantees (C58), so blocked and unblocked code agree on the contract.
When the blocked code runs, `tau` must have `ihi` entries (see `C75_gehrd_tau_violated`). -/
theorem C75_gehrd (hl : HhLaws 𝕜 p) (nb0 nxs ilo ihi : Nat) (A : MatV L) (tau work : VecV L) (ok : QrOK A tau work)
    (hsq : A.m = A.n) (hlh : ilo < ihi) (hihi : ihi ≤ A.n) (ht : A.n - 1 ≤ tau.n) (hnb : 0 < nb0)
    (htb : max (min nb0 (ihi - ilo - 1)) nxs < ihi - ilo - 1 → ihi ≤ tau.n)
    (hw : (gehrdWorksize nb0 nxs ilo ihi A).size ≤ work.n) (μ : Store L 𝕜)
    (hb : frobSq A.n A.n (entry μ A) ≤ p.tbig ^ 2)
    (hh : ∀ r c, r < A.n → c < A.n → c < ilo ∨ ihi ≤ c → c + 1 < r → entry μ A r c = 0)
    (hz : ∀ r c, r < A.n → ihi ≤ r → c < ihi → entry μ A r c = 0) :
    ∃ ν, gehrd (hhOps p) nb0 nxs ilo ihi A tau work μ = (.ok 0, ν) ∧
      (let Q := hessQ A.n ilo ihi (entry ν A) (ventry ν tau)
       mat A.n A.n (entry μ A) = Q * mat A.n A.n (hessF (entry ν A)) * Q.conjTranspose ∧
       Q.conjTranspose * Q = 1) ∧
      (∀ i, ilo ≤ i → i < ihi - 1 → RCLike.im (entry ν A (i + 1) i) = 0) ∧
      (∀ l, ¬ A.Owns l → ¬ (tau.sub ilo (ihi - 1)).Owns l → ¬ work.Owns l → ν l = μ l) := by
  obtain ⟨_, ν, e, rfl, h⟩ := wp_iff.1 (wp_gehrd hl ok hsq hlh hihi (by omega) ht hnb htb hw (μ := μ) hb
    ⟨fun r c hr hc h1 => hh r c hr (by omega) (Or.inl hc) h1, hz⟩)
  have inv := h.inv
  refine ⟨ν, e, ⟨?_, reflProd_unitary fun i h0 h1 => inv.unit i h0 (by omega)⟩, fun i h0 h1 => ?_, ?_⟩
  · have hf : mat A.n A.n (hessF (entry ν A)) = mat A.n A.n (TLA.hz ilo ihi (ihi - 1) (entry ν A)) := by
      rw [mat_ext_iff]
      intro r c hr hc
      unfold hessF
      by_cases e : c + 1 < r
      · rw [if_pos e]
        by_cases b : (ilo ≤ c ∧ c < ihi - 1) ∧ c + 1 < r ∧ r < ihi
        · rw [hz_in b]
        · rw [hz_out b]
          by_cases b2 : c < ilo
          · exact (inv.shape.lo r c hr b2 e).symm
          · by_cases b3 : c < ihi
            · exact (inv.shape.hi r c hr (by omega) b3).symm
            · rw [inv.same r c hr hc (Or.inr (by omega)), hh r c hr hc (Or.inr (by omega)) e]
      · rw [if_neg e, hz_out (by omega)]
    rw [hf]
    exact inv.prod
  · exact RCLike.conj_eq_iff_im.1 (inv.real i h0 h1)
  · intro l hA hT hW
    by_cases ho : tau.Owns l
    · obtain ⟨i, hi, rfl⟩ := ho
      refine h.tn i hi ?_
      by_contra hc
      exact hT ⟨i - ilo, by simp only [VecV.sub]; omega, by simp only [VecV.sub]; congr 1; omega⟩
    · exact h.frame l hA ho hW

/-- The hypotheses of C75 are met by a matrix of ones, with block size 1 and crossover point 1, so that the blocked code
runs. -/
example : QrOK (mkM 0 4 4) (mkV 1 4) (mkV 2 8) ∧ (gehrdWorksize 1 1 0 4 (mkM 0 4 4)).size ≤ (mkV 2 8).n ∧
    max (min 1 (4 - 0 - 1)) 1 < 4 - 0 - 1 ∧ 4 ≤ (mkV 1 4).n ∧
    HhLaws ℂ (doublePar false) ∧ frobSq 4 4 (entry (fun _ => (1 : ℂ)) (mkM 0 4 4)) ≤ (doublePar false).tbig ^ 2 := by
  refine ⟨⟨?_, ?_, ?_, ?_, ?_, ?_⟩, by decide, by decide, by decide, doublePar_laws _ (by simp), ?_⟩ <;> try adm
  simp only [entry, norm_one, mkM, doublePar, frobSq]
  simp only [one_pow, Finset.sum_const, Finset.card_range, nsmul_eq_mul, mul_one]
  rw [← pow_mul]
  refine le_trans ?_ (pow_le_pow_right₀ (by norm_num : (1 : ℝ) ≤ 2) (by norm_num : 4 ≤ 486 * 2))
  norm_num

/-- **C75** (deviation) With the `n - 1` entries of `tau` that the documentation asks for and gehrd checks, `ihi = n`, and a
matrix large enough for the blocked code, gehrd takes the slice `ilo..n` of `tau`, which is out of range. -/
theorem C75_gehrd_tau_violated (o : HhOps 𝕜 ℝ) (nb0 nxs ilo : Nat) (A : MatV L) (tau work : VecV L)
    (hsq : A.m = A.n) (hlo : ilo < A.n) (ht : tau.n = A.n - 1) (hA : work.Inj)
    (hblk : max (min nb0 (A.n - ilo - 1)) nxs < A.n - ilo - 1)
    (hw : (gehrdWorksize nb0 nxs ilo A.n A).size ≤ work.n) (μ : Store L 𝕜) :
    ∃ ν, gehrd o nb0 nxs ilo A.n A tau work μ = (.error .ub, ν) := by
  have key : wp (gehrd o nb0 nxs ilo A.n A tau work) μ (fun _ _ => False) (fun e _ => e = .ub) := by
    unfold gehrdWorksize at hw
    rw [if_pos hlo, if_pos (by omega), if_pos ⟨hlo, hblk⟩] at hw
    have wmax : ∀ a b : WorkInfo, a.size ≤ (a.minMax b).size ∧ b.size ≤ (a.minMax b).size := C05_minMax_size
    have hwY : (A.n + min nb0 (A.n - ilo - 1)) * min nb0 (A.n - ilo - 1) ≤ work.n := by
      have := le_trans (le_trans (wmax _ _).1 (wmax _ _).1) hw
      simpa [WorkInfo.ofMat, WorkInfo.size] using this
    unfold gehrd
    rw [if_pos hlo]
    generalize min nb0 (A.n - ilo - 1) = nb at *
    have hYle : A.n * nb ≤ work.n := le_trans (Nat.mul_le_mul_right _ (by omega)) hwY
    have hTle : A.n * nb + nb * nb ≤ work.n := by rw [← Nat.add_mul]; exact hwY
    simp only [wp_bind, wp_check]
    rw [if_pos (by simp; omega), if_pos (by simp), if_pos (by simp [hsq]), if_pos (by simp; omega)]
    rw [show decide (ilo < A.n ∧ max nb nxs < A.n - ilo - 1) = true by simp [hlo, hblk]]
    simp only [if_true, wp_bind]
    refine wp_reshapeWM hYle ?_
    have hTle' : nb * nb ≤ (work.sub (A.n * nb) work.n).n := by simp [VecV.sub]; omega
    refine wp_reshapeWM hTle' ?_
    obtain ⟨ν1, x1, -, f1⟩ := C24_laset .General (by simp) (0 : 𝕜) 0 _ (wview_inj hA hYle) μ
    refine wp_of_eq x1 ?_
    rw [if_neg (by omega)]
    simp only [wp_bind]
    rw [show A.n = (A.n - 1) + 1 by omega]
    unfold gehrdLoop
    rw [← show A.n = (A.n - 1) + 1 by omega, if_pos (by omega)]
    unfold gehrdStep
    simp only [wp_bind]
    refine wp_slice (by omega) (by omega) (by omega) (by omega) ?_
    refine wp_slice (by omega) (by omega) (by omega) (by omega) ?_
    unfold VecV.slice
    rw [if_neg (by omega)]
    simp [wp, M.fail]
  unfold wp at key
  rcases hx : gehrd o nb0 nxs ilo A.n A tau work μ with ⟨r, ν⟩
  rw [hx] at key
  cases r with
  | ok v => exact absurd key id
  | error e => exact ⟨ν, by rw [show e = .ub from key]⟩

example : max (min 1 (4 - 0 - 1)) 1 < 4 - 0 - 1 ∧ (mkV 1 3).n = (mkM 0 4 4).n - 1 ∧
    (gehrdWorksize 1 1 0 4 (mkM 0 4 4)).size ≤ (mkV 2 8).n := ⟨by decide, by decide, by decide⟩

/-- **C75** (deviation) gehrd raises an error on an empty matrix, although `0 <= ilo <= ihi <= max(1,n)` admits `n = 0`. -/
theorem C75_gehrd_empty_violated (o : HhOps 𝕜 ℝ) (nb0 nxs ilo ihi : Nat) (A : MatV L) (tau work : VecV L)
    (hn : A.n = 0) (μ : Store L 𝕜) : gehrd o nb0 nxs ilo ihi A tau work μ = (.error .check, μ) := by
  unfold gehrd
  simp [hn, check, bind, M.bind, M.fail, pure, M.pure]

end TLA
