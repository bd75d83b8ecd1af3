import Verif.Proofs.GesvdAlg
import Verif.SpecGesvd
import Verif.Props.Gebrd
import Verif.Props.Ungbr
import Verif.Props.Region
import Verif.Props.Svd
set_option linter.unusedTactic false
set_option linter.unusedVariables false
set_option linter.unusedSimpArgs false
set_option linter.unreachableTactic false
set_option linter.unusedSectionVars false

/-! # gesvd -/

namespace TLA
open Finset Matrix Kernel
variable {L 𝕜 : Type} [DecidableEq L] [RCLike 𝕜] [DecidableEq 𝕜]

/-- The left factor of gebrd. -/
noncomputable def gQ (μ : Store L 𝕜) (A : MatV L) (tau : VecV L) : Matrix (Fin A.m) (Fin A.m) 𝕜 :=
  if A.n ≤ A.m then reflProd A.m 0 A.n (ventry μ tau) (reflCol 0 A.m (entry μ A))
  else reflProd A.m 0 (A.m - 1) (ventry μ tau) (reflCol 1 A.m (entry μ A))

/-- The right factor of gebrd. -/
noncomputable def gP (μ : Store L 𝕜) (A : MatV L) (tau : VecV L) : Matrix (Fin A.n) (Fin A.n) 𝕜 :=
  if A.n ≤ A.m then reflProd A.n 0 (A.n - 1) (ventry μ tau) (reflRow 1 A.n (entry μ A))
  else reflProd A.n 0 A.m (ventry μ tau) (reflRow 0 A.n (entry μ A))

theorem gQ_congr {μ ν : Store L 𝕜} {A : MatV L} {tau : VecV L} (ht : tau.n = min A.m A.n) (h1 : ∀ i, i < tau.n → ν (tau.cell i) = μ (tau.cell i))
    (h2 : ∀ i j, i < A.m → j < A.n → ν (A.cell i j) = μ (A.cell i j)) : gQ ν A tau = gQ μ A tau := by
  unfold gQ
  split_ifs with q
  · refine reflProd_congr (fun i _ hi => h1 i (by omega)) fun i _ hi r hr => ?_
    unfold reflCol; split_ifs
    · rfl
    · exact h2 _ _ hr (by omega)
    · rfl
  · refine reflProd_congr (fun i _ hi => h1 i (by omega)) fun i _ hi r hr => ?_
    unfold reflCol; split_ifs
    · rfl
    · exact h2 _ _ hr (by omega)
    · rfl

theorem gP_congr {μ ν : Store L 𝕜} {A : MatV L} {tau : VecV L} (ht : tau.n = min A.m A.n) (h1 : ∀ i, i < tau.n → ν (tau.cell i) = μ (tau.cell i))
    (h2 : ∀ i j, i < A.m → j < A.n → ν (A.cell i j) = μ (A.cell i j)) : gP ν A tau = gP μ A tau := by
  unfold gP
  split_ifs with q
  · refine reflProd_congr (fun i _ hi => h1 i (by omega)) fun i _ hi r hr => ?_
    unfold reflRow; split_ifs
    · rfl
    · exact congrArg star (h2 _ _ (by omega) hr)
    · rfl
  · refine reflProd_congr (fun i _ hi => h1 i (by omega)) fun i _ hi r hr => ?_
    unfold reflRow; split_ifs
    · rfl
    · exact congrArg star (h2 _ _ (by omega) hr)
    · rfl

set_option maxHeartbeats 1000000 in
theorem wp_gesvdU {isReal : Bool} (hreal : isReal = true → ∀ z : 𝕜, star z = z) {nb : Nat} (hnb : 0 < nb) {A U : MatV L} {tau wq : VecV L}
    (hm : 0 < A.m) (hn : 0 < A.n) (ht : tau.n = min A.m A.n) (ok : QrOK U tau wq) (um : U.m = A.m) (un : min A.m A.n ≤ U.n) (un2 : U.n ≤ A.m)
    (hAU : A.Disj U) (hw : (ungbrQWorksize A.n U tau.n nb).size ≤ wq.n) (μ : Store L 𝕜) :
    wp (do
      let Ui ← U.slice 0 A.m 0 (min A.m A.n)
      let Ai ← A.slice 0 A.m 0 (min A.m A.n)
      lacpy .Lower Ai Ui
      let _ ← ungbrQ isReal nb A.n U tau wq
      pure () : M L 𝕜 Unit) μ (fun _ ν => (∀ i j : Fin A.m, (j : Nat) < U.n → entry ν U i j = gQ μ A tau i j) ∧
        ∀ l, ¬ U.Owns l → ¬ wq.Owns l → ν l = μ l) := by
  simp only [wp_bind]
  refine wp_slice (by omega) (by omega) (by omega) (by omega) ?_
  refine wp_slice (by omega) (by omega) (by omega) (by omega) ?_
  obtain ⟨ν1, x1, v1, f1⟩ := C24_lacpy (T := 𝕜) .Lower (.inr (.inl rfl)) (A.sub 0 A.m 0 (min A.m A.n)) (U.sub 0 A.m 0 (min A.m A.n)) le_rfl le_rfl
    (fun i j i' j' hi hj hi' hj' e => by
      simp only [MatV.sub] at hi hj hi' hj' e
      have := ok.inj _ _ _ _ (by omega) (by omega) (by omega) (by omega) e
      omega)
    (fun i j hi hj ⟨a, b, ha, hb, e⟩ => by
      simp only [MatV.sub] at hi hj ha hb e
      exact hAU _ _ (by omega) (by omega) ⟨0 + a, 0 + b, by omega, by omega, e⟩) μ
  refine wp_of_eq x1 ?_
  have f1' : ∀ l, ¬ U.Owns l → ν1 l = μ l := fun l hl => f1 l fun ⟨a, b, ha, hb, e⟩ => hl ⟨0 + a, 0 + b, by simp only [MatV.sub] at ha; omega, by simp only [MatV.sub] at hb; omega, e⟩
  have val : ∀ i j, i < A.m → j < min A.m A.n → j ≤ i → entry ν1 U i j = entry μ A i j := by
    intro i j hi hj hji
    have := v1 i j (by simpa [MatV.sub] using hi) (by simpa [MatV.sub] using lt_min_iff.1 hj)
    rw [if_pos ⟨by simpa [MatV.sub] using hi, by simpa [MatV.sub] using lt_min_iff.1 hj, hji⟩] at this
    simpa [entry, MatV.sub] using this
  have tv : ∀ i, i < tau.n → ventry ν1 tau i = ventry μ tau i := fun i hi => f1' _ fun ⟨a, b, ha, hb, e⟩ => ok.At a b ha hb ⟨i, hi, e.symm⟩
  obtain ⟨uM, uN, uc⟩ := U
  dsimp only at um un un2
  subst um
  unfold gQ
  by_cases q : A.n ≤ A.m
  · rw [if_pos q]
    obtain ⟨ν2, x2, v2, f2⟩ := C72_ungbr_q_tall isReal hreal nb A.n ⟨A.m, uN, uc⟩ tau wq ok q hnb un2 (by dsimp only; omega) (by omega) hw ν1
    refine wp_of_eq x2 ?_
    refine ⟨fun i j hj => ?_, fun l h1 h2 => (f2 l h1 h2).trans (f1' l h1)⟩
    have e := congrFun (congrFun v2 i) ⟨j, hj⟩
    rw [mul_apply, Finset.sum_eq_single j (fun b _ hb => by
      simp only [mat, of_apply]; rw [if_neg (fun h => hb (Fin.ext h)), mul_zero]) (fun h => absurd (mem_univ _) h)] at e
    simp only [mat, of_apply, if_true, mul_one] at e
    rw [e]
    have : reflProd A.m 0 tau.n (ventry ν1 tau) (reflCol 0 A.m (entry ν1 ⟨A.m, uN, uc⟩)) =
        reflProd A.m 0 A.n (ventry μ tau) (reflCol 0 A.m (entry μ A)) := by
      rw [show tau.n = A.n by omega]
      refine reflProd_congr (fun i _ hi => tv i (by omega)) fun i _ hi r hr => ?_
      unfold reflCol; split_ifs
      · rfl
      · exact val _ _ hr (by omega) (by omega)
      · rfl
    exact congrFun (congrFun this i) j
  · rw [if_neg q]
    have : uN = A.m := by omega
    subst this
    obtain ⟨ν2, x2, v2, f2⟩ := C72_ungbr_q_wide isReal hreal nb hnb A.n ⟨A.m, A.m, uc⟩ tau wq ok (by dsimp only; omega) hm le_rfl (by dsimp only; omega) hw ν1
    refine wp_of_eq x2 ?_
    refine ⟨fun i j hj => ?_, fun l h1 h2 => (f2 l h1 h2).trans (f1' l h1)⟩
    have e := congrFun (congrFun v2 i) j
    simp only [mat, of_apply] at e
    rw [e]
    have : reflProd A.m 0 (A.m - 1) (ventry ν1 tau) (reflCol 1 A.m (entry ν1 ⟨A.m, A.m, uc⟩)) =
        reflProd A.m 0 (A.m - 1) (ventry μ tau) (reflCol 1 A.m (entry μ A)) := by
      refine reflProd_congr (fun i _ hi => tv i (by omega)) fun i _ hi r hr => ?_
      unfold reflCol; split_ifs
      · rfl
      · exact val _ _ hr (by omega) (by omega)
      · rfl
    exact congrFun (congrFun this i) j

set_option maxHeartbeats 1000000 in
theorem wp_gesvdV {isReal : Bool} (hreal : isReal = true → ∀ z : 𝕜, star z = z) {nb : Nat} (hnb : 0 < nb) {A V : MatV L} {tau wq : VecV L}
    (hm : 0 < A.m) (hn : 0 < A.n) (ht : tau.n = min A.m A.n) (ok : QrOK V tau wq) (um : V.n = A.n) (un : min A.m A.n ≤ V.m) (un2 : V.m ≤ A.n)
    (hAV : A.Disj V) (hw : (ungbrPWorksize A.m V tau.n nb).size ≤ wq.n) (μ : Store L 𝕜) :
    wp (do
      let Vi ← V.slice 0 (min A.m A.n) 0 A.n
      let Ai ← A.slice 0 (min A.m A.n) 0 A.n
      lacpy .Upper Ai Vi
      let _ ← ungbrP isReal nb A.m V tau wq
      pure () : M L 𝕜 Unit) μ (fun _ ν => (∀ i j : Fin A.n, (i : Nat) < V.m → entry ν V i j = (gP μ A tau)ᴴ i j) ∧
        ∀ l, ¬ V.Owns l → ¬ wq.Owns l → ν l = μ l) := by
  simp only [wp_bind]
  refine wp_slice (by omega) (by omega) (by omega) (by omega) ?_
  refine wp_slice (by omega) (by omega) (by omega) (by omega) ?_
  obtain ⟨ν1, x1, v1, f1⟩ := C24_lacpy (T := 𝕜) .Upper (.inl rfl) (A.sub 0 (min A.m A.n) 0 A.n) (V.sub 0 (min A.m A.n) 0 A.n) le_rfl le_rfl
    (fun i j i' j' hi hj hi' hj' e => by
      simp only [MatV.sub] at hi hj hi' hj' e
      have := ok.inj _ _ _ _ (by omega) (by omega) (by omega) (by omega) e
      omega)
    (fun i j hi hj ⟨a, b, ha, hb, e⟩ => by
      simp only [MatV.sub] at hi hj ha hb e
      exact hAV _ _ (by omega) (by omega) ⟨0 + a, 0 + b, by omega, by omega, e⟩) μ
  refine wp_of_eq x1 ?_
  have f1' : ∀ l, ¬ V.Owns l → ν1 l = μ l := fun l hl => f1 l fun ⟨a, b, ha, hb, e⟩ => hl ⟨0 + a, 0 + b, by simp only [MatV.sub] at ha; omega, by simp only [MatV.sub] at hb; omega, e⟩
  have val : ∀ i j, i < min A.m A.n → j < A.n → i ≤ j → entry ν1 V i j = entry μ A i j := by
    intro i j hi hj hji
    have := v1 i j (by simpa [MatV.sub] using lt_min_iff.1 hi) (by simpa [MatV.sub] using hj)
    rw [if_pos ⟨by simpa [MatV.sub] using lt_min_iff.1 hi, by simpa [MatV.sub] using hj, hji⟩] at this
    simpa [entry, MatV.sub] using this
  have tv : ∀ i, i < tau.n → ventry ν1 tau i = ventry μ tau i := fun i hi => f1' _ fun ⟨a, b, ha, hb, e⟩ => ok.At a b ha hb ⟨i, hi, e.symm⟩
  obtain ⟨uM, uN, uc⟩ := V
  dsimp only at um un un2
  subst um
  unfold gP
  by_cases q : A.n ≤ A.m
  · rw [if_pos q]
    have : uM = A.n := by omega
    subst this
    obtain ⟨ν2, x2, v2, f2⟩ := C72_ungbr_p_tall isReal hreal nb hnb A.m ⟨A.n, A.n, uc⟩ tau wq ok q hn le_rfl (by dsimp only; omega) hw ν1
    refine wp_of_eq x2 ?_
    refine ⟨fun i j hj => ?_, fun l h1 h2 => (f2 l h1 h2).trans (f1' l h1)⟩
    have e := congrFun (congrFun v2 i) j
    simp only [mat, of_apply] at e
    rw [e]
    have : reflProd A.n 0 (A.n - 1) (ventry ν1 tau) (reflRow 1 A.n (entry ν1 ⟨A.n, A.n, uc⟩)) =
        reflProd A.n 0 (A.n - 1) (ventry μ tau) (reflRow 1 A.n (entry μ A)) := by
      refine reflProd_congr (fun i _ hi => tv i (by omega)) fun i _ hi r hr => ?_
      unfold reflRow; split_ifs
      · rfl
      · exact congrArg star (val _ _ (by omega) hr (by omega))
      · rfl
    exact congrFun (congrFun (congrArg conjTranspose this) i) j
  · rw [if_neg q]
    obtain ⟨ν2, x2, v2, f2⟩ := C72_ungbr_p_wide isReal hreal nb A.m ⟨uM, A.n, uc⟩ tau wq ok (by dsimp only; omega) hnb un2 (by dsimp only; omega) (by omega) hw ν1
    refine wp_of_eq x2 ?_
    refine ⟨fun i j hj => ?_, fun l h1 h2 => (f2 l h1 h2).trans (f1' l h1)⟩
    have e := congrFun (congrFun v2 ⟨i, hj⟩) j
    rw [mul_apply, Finset.sum_eq_single i (fun b _ hb => by
      simp only [mat, of_apply]; rw [if_neg (fun h => hb (Fin.ext h.symm)), zero_mul]) (fun h => absurd (mem_univ _) h)] at e
    simp only [mat, of_apply, if_true, one_mul] at e
    rw [e]
    have : reflProd A.n 0 tau.n (ventry ν1 tau) (reflRow 0 A.n (entry ν1 ⟨uM, A.n, uc⟩)) =
        reflProd A.n 0 A.m (ventry μ tau) (reflRow 0 A.n (entry μ A)) := by
      rw [show tau.n = A.m by omega]
      refine reflProd_congr (fun i _ hi => tv i (by omega)) fun i _ hi r hr => ?_
      unfold reflRow; split_ifs
      · rfl
      · exact congrArg star (val _ _ (by omega) hr (by omega))
      · rfl
    exact congrFun (congrFun (congrArg conjTranspose this) i) j

theorem wp_gesvdCopy {rl : 𝕜 → ℝ} {A : MatV L} {s : RArr} (hs : s.n = min A.m A.n) (μ : Store L 𝕜) :
    wp (gesvdCopy rl A (min A.m A.n) s) μ (fun x ν => ν = μ ∧ x.1.n = min A.m A.n ∧ x.2.n = min A.m A.n ∧
      (∀ i, i < min A.m A.n → x.1.f i = rl (entry μ A i i)) ∧
      (∀ i, i + 1 < min A.m A.n → x.2.f i = rl (if A.n ≤ A.m then entry μ A i (i + 1) else entry μ A (i + 1) i))) := by
  unfold gesvdCopy
  refine wp_forUp (fun k x ν => ν = μ ∧ x.1.n = min A.m A.n ∧ x.2.n = min A.m A.n ∧ (∀ i, i < k → x.1.f i = rl (entry μ A i i)) ∧
      (∀ i, i < k → i + 1 < min A.m A.n → x.2.f i = rl (if A.n ≤ A.m then entry μ A i (i + 1) else entry μ A (i + 1) i))) (Nat.zero_le _)
    ⟨rfl, hs, rfl, fun i hi => absurd hi (by omega), fun i hi => absurd hi (by omega)⟩ ?_ ?_
  · rintro k ⟨s, e⟩ μ' - hk ⟨rfl, h1, h2, h3, h4⟩
    dsimp only at h1 h2 h3 h4 ⊢
    simp only [wp_bind]
    refine wp_getE ⟨by omega, by omega⟩ ?_
    refine wp_rset (by omega) ?_
    have h3' : ∀ i, i < k + 1 → (if i = k then rl (entry μ' A k k) else s.f i) = rl (entry μ' A i i) := by
      intro i hi
      split_ifs with q
      · rw [q]
      · exact h3 i (by omega)
    by_cases q : A.m ≥ A.n
    · rw [if_pos q]
      by_cases q2 : k + 1 < A.n
      · rw [if_pos q2]
        simp only [wp_bind]
        refine wp_getE ⟨by omega, by omega⟩ (wp_rset (by omega) ?_)
        refine ⟨rfl, h1, h2, h3', fun i hi hi2 => ?_⟩
        dsimp only
        split_ifs with c1 <;> first | (subst c1; rfl) | exact (h4 i (by omega) hi2).trans (by rw [if_pos q])
      · rw [if_neg q2]
        exact ⟨rfl, h1, h2, h3', fun i hi hi2 => h4 i (by omega) hi2⟩
    · rw [if_neg q]
      by_cases q2 : k + 1 < A.m
      · rw [if_pos q2]
        simp only [wp_bind]
        refine wp_getE ⟨by omega, by omega⟩ (wp_rset (by omega) ?_)
        refine ⟨rfl, h1, h2, h3', fun i hi hi2 => ?_⟩
        dsimp only
        rw [if_neg q]
        split_ifs with c1 <;> first | (subst c1; rfl) | exact (h4 i (by omega) hi2).trans (by rw [if_neg q])
      · rw [if_neg q2]
        exact ⟨rfl, h1, h2, h3', fun i hi hi2 => h4 i (by omega) hi2⟩
  · rintro x ν ⟨h0, h1, h2, h3, h4⟩
    exact ⟨h0, h1, h2, h3, fun i hi => h4 i (by omega) hi⟩

end TLA
