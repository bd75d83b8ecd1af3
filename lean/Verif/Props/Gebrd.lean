import Verif.Props.Reduce
import Verif.Proofs.Gebrd
set_option linter.unusedTactic false
set_option linter.unusedVariables false
set_option linter.unreachableTactic false
set_option linter.unusedSectionVars false

/-! # C76: gebrd -/

namespace TLA
open Finset
variable {L 𝕜 : Type} [DecidableEq L] [RCLike 𝕜] [DecidableEq 𝕜] {p : HhPar}

/-- **C76** gebrd, for every block size `nb0 > 0`, on a matrix with at least as many rows as columns: `A = Q B Z^H` with `B`
upper bidiagonal with real entries, `Q = H_0 ... H_{n-1}` from the columns of the output and `tauv`, `Z = G_0 ... G_{n-2}`
from its rows and `tauw`, both unitary. Nothing but `A`, the two vectors and the workspace is written. This is what gebd2
guarantees (C60). -/
theorem C76_gebrd_upper (hl : HhLaws 𝕜 p) (nb0 : Nat) (hnb : 0 < nb0) (A : MatV L) (tauv tauw work : VecV L) (ok : BrdOK A tauv tauw work)
    (hmn : A.n ≤ A.m) (htv : A.n ≤ tauv.n) (htw : A.n ≤ tauw.n)
    (hw : (gebrdWorksize nb0 A).size ≤ work.n) (μ : Store L 𝕜)
    (hb : frobSq A.m A.n (entry μ A) ≤ p.tbig ^ 2) :
    ∃ ν, gebrd (hhOps p) nb0 A tauv tauw work μ = (.ok 0, ν) ∧
      (let Q := reflProd A.m 0 A.n (ventry ν tauv) (reflCol 0 A.m (entry ν A))
       let Z := reflProd A.n 0 (A.n - 1) (ventry ν tauw) (reflRow 1 A.n (entry ν A))
       mat A.m A.n (entry μ A) = Q * mat A.m A.n (bidUF (entry ν A)) * Z.conjTranspose ∧
       Q.conjTranspose * Q = 1 ∧ Z.conjTranspose * Z = 1) ∧
      (∀ i, i < A.n → RCLike.im (entry ν A i i) = 0) ∧
      (∀ i, i + 1 < A.n → RCLike.im (entry ν A i (i + 1)) = 0) ∧
      (∀ l, ¬ A.Owns l → ¬ (tauv.sub 0 A.n).Owns l → ¬ (tauw.sub 0 A.n).Owns l → ¬ work.Owns l → ν l = μ l) := by
  obtain ⟨_, ν, e, rfl, h⟩ := wp_iff.1 (wp_gebrd_ge hl ok hnb hmn htv htw hw (μ := μ) hb)
  have inv := h.inv
  have hZ : reflProd A.n 0 A.n (ventry ν tauw) (reflRow 1 A.n (entry ν A)) =
      reflProd A.n 0 (A.n - 1) (ventry ν tauw) (reflRow 1 A.n (entry ν A)) := by
    by_cases h0 : A.n = 0
    · rw [h0]
    · refine reflProd_last (by omega) fun r hr => ?_
      unfold reflRow
      rw [if_neg (by omega), if_neg (by omega)]
  have hB : mat A.m A.n (bidUF (entry ν A)) = mat A.m A.n (maskF (bz A.n A.n) (entry ν A)) := by
    rw [mat_ext_iff]
    intro r c hr hc
    unfold bidUF
    by_cases b : r = c ∨ r + 1 = c
    · rw [if_pos b, mask_out (by unfold bz; omega)]
    · rw [if_neg b, mask_in (by unfold bz; omega)]
  refine ⟨ν, e, ⟨?_, ?_, ?_⟩, fun i hi => ?_, fun i hi => ?_, h.frame⟩
  · rw [hB, ← hZ]; exact inv.prod
  · exact reflProd_unitary fun i _ h1 => inv.unitv i (by omega)
  · exact reflProd_unitary fun i _ h1 => inv.unitw i (by omega)
  · exact RCLike.conj_eq_iff_im.1 (inv.reald i hi)
  · exact RCLike.conj_eq_iff_im.1 (inv.reale i (by omega) hi)

/-- **C76** gebrd on a matrix with fewer rows than columns: `A = Q B Z^H` with `B` lower bidiagonal with real entries,
`Z = G_0 ... G_{m-1}` from the rows of the output and `tauw`, `Q = H_0 ... H_{m-2}` from its columns and `tauv`, both
unitary. -/
theorem C76_gebrd_lower (hl : HhLaws 𝕜 p) (nb0 : Nat) (hnb : 0 < nb0) (A : MatV L) (tauv tauw work : VecV L) (ok : BrdOK A tauv tauw work)
    (hmn : A.m < A.n) (htv : A.m ≤ tauv.n) (htw : A.m ≤ tauw.n)
    (hw : (gebrdWorksize nb0 A).size ≤ work.n) (μ : Store L 𝕜)
    (hb : frobSq A.m A.n (entry μ A) ≤ p.tbig ^ 2) :
    ∃ ν, gebrd (hhOps p) nb0 A tauv tauw work μ = (.ok 0, ν) ∧
      (let Q := reflProd A.m 0 (A.m - 1) (ventry ν tauv) (reflCol 1 A.m (entry ν A))
       let Z := reflProd A.n 0 A.m (ventry ν tauw) (reflRow 0 A.n (entry ν A))
       mat A.m A.n (entry μ A) = Q * mat A.m A.n (bidLF (entry ν A)) * Z.conjTranspose ∧
       Q.conjTranspose * Q = 1 ∧ Z.conjTranspose * Z = 1) ∧
      (∀ i, i < A.m → RCLike.im (entry ν A i i) = 0) ∧
      (∀ i, i + 1 < A.m → RCLike.im (entry ν A (i + 1) i) = 0) ∧
      (∀ l, ¬ A.Owns l → ¬ (tauv.sub 0 A.m).Owns l → ¬ (tauw.sub 0 A.m).Owns l → ¬ work.Owns l → ν l = μ l) := by
  have hb' : frobSq A.n A.m (starT (entry μ A)) ≤ p.tbig ^ 2 := by
    refine le_trans (le_of_eq ?_) hb
    unfold frobSq
    rw [Finset.sum_comm]
    refine Finset.sum_congr rfl fun r _ => Finset.sum_congr rfl fun c _ => ?_
    unfold starT
    rw [norm_star]
  obtain ⟨_, ν, e, rfl, h⟩ := wp_iff.1 (wp_gebrd_lt hl ok hnb hmn htv htw hw (μ := μ) hb')
  have inv := h.inv
  have eZ : reflCol 0 A.n (starT (entry ν A)) = reflRow 0 A.n (entry ν A) := by
    funext j r; rfl
  have eQ : reflRow 1 A.m (starT (entry ν A)) = reflCol 1 A.m (entry ν A) := by
    funext j r
    unfold reflRow reflCol starT
    simp only [star_star]
  have i1 := inv.prod
  have i2 := inv.unitv
  have i3 := inv.unitw
  rw [eZ] at i1 i2
  rw [eQ] at i1 i3
  have hQ : reflProd A.m 0 A.m (ventry ν tauv) (reflCol 1 A.m (entry ν A)) =
      reflProd A.m 0 (A.m - 1) (ventry ν tauv) (reflCol 1 A.m (entry ν A)) := by
    by_cases h0 : A.m = 0
    · rw [h0]
    · refine reflProd_last (by omega) fun r hr => ?_
      unfold reflCol
      rw [if_neg (by omega), if_neg (by omega)]
  have hB : mat A.m A.n (bidLF (entry ν A)) =
      (mat A.n A.m (maskF (bz A.m A.m) (starT (entry ν A)))).conjTranspose := by
    rw [mat_conjTranspose, mat_ext_iff]
    intro r c hr hc
    unfold bidLF
    by_cases b : r = c ∨ c + 1 = r
    · rw [if_pos b, mask_out (by unfold bz; omega)]
      unfold starT
      rw [star_star]
    · rw [if_neg b, mask_in (by unfold bz; omega), star_zero]
  refine ⟨ν, e, ⟨?_, ?_, ?_⟩, fun i hi => ?_, fun i hi => ?_, fun l h1 h2 h3 h4 => h.frame l h1 h3 h2 h4⟩
  · have i1' := congrArg Matrix.conjTranspose i1
    rw [Matrix.conjTranspose_mul, Matrix.conjTranspose_mul, Matrix.conjTranspose_conjTranspose, ← hB, hQ,
      ← Matrix.mul_assoc] at i1'
    rw [← i1', mat_conjTranspose, mat_ext_iff]
    intro r c _ _
    unfold starT
    rw [star_star]
  · rw [← hQ]; exact reflProd_unitary fun i _ h1 => i3 i (by omega)
  · exact reflProd_unitary fun i _ h1 => i2 i (by omega)
  · have := inv.reald i hi
    unfold starT at this
    rw [star_star] at this
    exact RCLike.conj_eq_iff_im.1 this.symm
  · have := inv.reale i (by omega) hi
    unfold starT at this
    rw [star_star] at this
    exact RCLike.conj_eq_iff_im.1 this.symm

/-- The hypotheses of C76 are met by tall and wide matrices, with a block size that makes several blocks. -/
example : BrdOK (mkM 0 4 3) (mkV 1 3) (mkV 2 3) (mkV 3 14) ∧ (gebrdWorksize 2 (mkM 0 4 3)).size ≤ (mkV 3 14).n ∧
    BrdOK (mkM 0 3 4) (mkV 1 3) (mkV 2 3) (mkV 3 14) ∧ (gebrdWorksize 2 (mkM 0 3 4)).size ≤ (mkV 3 14).n ∧
    HhLaws ℂ (doublePar false) := by
  refine ⟨⟨⟨?_, ?_, ?_, ?_, ?_, ?_⟩, ⟨?_, ?_, ?_, ?_, ?_, ?_⟩, ?_⟩, by decide, ⟨⟨?_, ?_, ?_, ?_, ?_, ?_⟩, ⟨?_, ?_, ?_, ?_, ?_, ?_⟩, ?_⟩, by decide,
    doublePar_laws _ (by simp)⟩ <;> adm

/-- **C76** (deviation) The options accept a block size of 0, for which gebrd reads outside of `A`, whatever the matrix,
unless it is empty. -/
theorem C76_gebrd_nb0_violated (o : HhOps 𝕜 ℝ) (A : MatV L) (tauv tauw work : VecV L) (hm : 0 < A.m) (hn : 0 < A.n) (μ : Store L 𝕜) :
    ∃ ν, gebrd o 0 A tauv tauw work μ = (.error .ub, ν) := by
  have key : wp (gebrd o 0 A tauv tauw work) μ (fun _ _ => False) (fun e _ => e = .ub) := by
    unfold gebrd
    simp only [wp_bind, Nat.zero_min]
    refine wp_reshapeWM (by simp) ?_
    refine wp_reshapeWM (by simp) ?_
    obtain ⟨ν1, x1, -, -⟩ := C24_laset .General (by simp) (0 : 𝕜) 0 (wview work A.m 0) (fun i j i' j' _ hj => by simp at hj) μ
    refine wp_of_eq x1 ?_
    obtain ⟨ν2, x2, -, -⟩ := C24_laset .General (by simp) (0 : 𝕜) 0 (wview (work.sub (A.m * 0) work.n) A.n 0) (fun i j i' j' _ hj => by simp at hj) ν1
    refine wp_of_eq x2 ?_
    rw [forStep, dif_pos (by omega)]
    simp only [wp_bind, gebrdStep, Nat.zero_min, Nat.add_zero]
    refine wp_slice (by omega) (by omega) (by omega) (by omega) ?_
    refine wp_vslice (by omega) (by omega) ?_
    refine wp_vslice (by omega) (by omega) ?_
    refine wp_slice (by omega) (by simp) (by omega) (by simp) ?_
    refine wp_slice (by omega) (by simp) (by omega) (by simp) ?_
    unfold labrd
    rw [if_neg (by simp [MatV.sub]; omega)]
    have lp : ∀ (b : Nat → M L 𝕜 Unit) (Q : Unit → Store L 𝕜 → Prop) E, Q () ν2 → wp (forUp_ 0 (MatV.sub (wview work A.m 0) 0 A.m 0 0).n b) ν2 Q E := by
      intro b Q E h
      refine wp_forUp_ (fun _ ν => ν = ν2) (by simp) rfl ?_ ?_
      · intro i ν _ hi
        simp [MatV.sub] at hi
      · rintro ν rfl
        exact h
    split_ifs with h1 h2 h3
    all_goals simp only [wp_bind]
    all_goals first
      | exact lp _ _ _ (by rw [wp_pure]; exact rfl)
      | (exfalso; omega)
  unfold wp at key
  rcases hx : gebrd o 0 A tauv tauw work μ with ⟨r, ν⟩
  rw [hx] at key
  cases r with
  | ok _ => exact key.elim
  | error e => exact ⟨ν, by rw [show e = .ub from key]⟩

end TLA
