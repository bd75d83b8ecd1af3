import Verif.SpecLegacy
import Verif.Model.Legacy
import Verif.Props.Level3
import Verif.Proofs.Blas1
import Verif.Proofs.Qr

/-! # Legacy storage: lemmas -/

set_option linter.unusedSimpArgs false
set_option linter.unusedVariables false
set_option linter.unusedSectionVars false

namespace TLA

section basic
variable {T : Type}

theorem wp_ex {x : M Nat T Unit} {μ : Store Nat T} {P : Store Nat T → Prop}
    (h : wp x μ (fun _ ν => P ν)) : ∃ ν, x μ = (.ok (), ν) ∧ P ν := wp_unit h

theorem stMat_row (m n p ld : Nat) :
    stMat .RowMajor m n p ld = (stMat .ColMajor n m p ld).tr := by
  unfold stMat MatV.tr
  congr 1
  funext i j
  simp only []
  omega

theorem col_view (m n p ld : Nat) :
    (LMat.mk .ColMajor m n p ld).view = stMat .ColMajor m n p ld := rfl

theorem row_view (m n p ld : Nat) :
    (LMat.mk .RowMajor m n p ld).view = stMat .RowMajor m n p ld := rfl

theorem lgVec_eq {n p : Nat} {inc : Int} (h : inc ≠ 0) : lgVec n p inc = stVec n p inc := by
  unfold lgVec stVec LVec.view LVec.cell
  by_cases h1 : 0 < inc
  · simp only [h1, if_true]
    by_cases h2 : inc = 1
    · rw [if_pos h2]; subst h2; rfl
    · rw [if_neg h2, if_neg (by omega), if_pos (by omega), show inc.toNat = inc.natAbs by omega]
  · simp only [h1, if_false]
    rw [if_neg (by omega)]
    by_cases h2 : inc = -1
    · rw [if_pos h2]; subst h2; rfl
    · rw [if_neg h2, if_neg (by omega), show (-inc).toNat = inc.natAbs by omega]

theorem lgVecPos_eq {n p : Nat} {inc : Int} (h : 0 < inc) : lgVecPos n p inc = stVec n p inc := by
  unfold lgVecPos stVec LVec.view LVec.cell
  simp only [h, if_true]
  by_cases h2 : inc = 1
  · rw [if_pos h2]; subst h2; rfl
  · rw [if_neg h2, show inc.toNat = inc.natAbs by omega]

theorem mul_inj_of {a b s : Nat} (hs : 0 < s) (h : a * s = b * s) : a = b :=
  Nat.eq_of_mul_eq_mul_right hs h

theorem stVec_inj {n p : Nat} {inc : Int} (h : inc ≠ 0) : (stVec n p inc).Inj := by
  intro i i' hi hi' e
  simp only [stVec] at hi hi' e
  have hs : 0 < inc.natAbs := by omega
  split_ifs at e with h1
  · exact mul_inj_of hs (by omega)
  · have := mul_inj_of hs (a := n - 1 - i) (b := n - 1 - i') (by omega)
    omega

theorem addr_inj' {i j i' j' ld : Nat} (hi : i < ld) (hi' : i' < ld)
    (e : i + j * ld = i' + j' * ld) : i = i' ∧ j = j' := by
  have h1 : (i + j * ld) % ld = i := by rw [Nat.add_mul_mod_self_right, Nat.mod_eq_of_lt hi]
  have h2 : (i' + j' * ld) % ld = i' := by rw [Nat.add_mul_mod_self_right, Nat.mod_eq_of_lt hi']
  have e1 : i = i' := by rw [← h1, ← h2, e]
  clear h1 h2
  exact ⟨e1, mul_inj_of (s := ld) (by omega) (by omega)⟩

theorem stCol_inj {m n p ld : Nat} (h : m ≤ ld) : (stMat .ColMajor m n p ld).Inj := by
  intro i j i' j' hi hj hi' hj' e
  simp only [stMat] at hi hj hi' hj' e
  exact addr_inj' (ld := ld) (by omega) (by omega) (by omega)

theorem stMat_inj {layout : Layout} {m n p ld : Nat} (h : minLd layout m n ≤ ld) :
    (stMat layout m n p ld).Inj := by
  cases layout
  · exact stCol_inj h
  · rw [stMat_row]
    intro i j i' j' hi hj hi' hj' e
    have := stCol_inj (m := n) (n := m) (p := p) (ld := ld) h j i j' i' hj hi hj' hi' e
    exact ⟨this.2, this.1⟩

theorem wp_lgCol {p m n ld : Nat} {μ : Store Nat T} {Q : MatV Nat → Store Nat T → Prop} {E}
    (h : m ≤ ld) (hQ : Q (stMat .ColMajor m n p ld) μ) : wp (lgCol p m n ld) μ Q E := by
  unfold lgCol
  simp only [wp_bind, wp_check]
  rw [if_pos (by simpa using h), wp_pure]
  exact hQ

theorem wp_lgRow {p m n ld : Nat} {μ : Store Nat T} {Q : MatV Nat → Store Nat T → Prop} {E}
    (h : n ≤ ld) (hQ : Q (stMat .RowMajor m n p ld) μ) : wp (lgRow p m n ld) μ Q E := by
  unfold lgRow
  simp only [wp_bind, wp_check]
  rw [if_pos (by simpa using h), wp_pure]
  exact hQ

open Classical in
/-- The store with the entries of `x` conjugated. -/
noncomputable def conjOn [Star T] (x : VecV Nat) (μ : Store Nat T) : Store Nat T :=
  fun l => if x.Owns l then star (μ l) else μ l

theorem conjOn_owns [Star T] {x : VecV Nat} {μ : Store Nat T} {l : Nat} (h : x.Owns l) :
    conjOn x μ l = star (μ l) := if_pos h

theorem conjOn_not [Star T] {x : VecV Nat} {μ : Store Nat T} {l : Nat} (h : ¬ x.Owns l) :
    conjOn x μ l = μ l := if_neg h

theorem stVec_owns_abs {n p : Nat} {inc : Int} {l : Nat} (h : inc ≠ 0) :
    (stVec n p (inc.natAbs : Int)).Owns l ↔ (stVec n p inc).Owns l := by
  have hp : (0 : Int) < (inc.natAbs : Int) := by omega
  constructor
  · rintro ⟨i, hi, e⟩
    simp only [stVec, if_pos hp, Int.natAbs_natCast] at hi e
    by_cases h1 : 0 < inc
    · exact ⟨i, hi, by simp only [stVec, if_pos h1]; exact e⟩
    · refine ⟨n - 1 - i, by simp only [stVec]; omega, ?_⟩
      simp only [stVec, if_neg h1]
      rw [show n - 1 - (n - 1 - i) = i by omega]; exact e
  · rintro ⟨i, hi, e⟩
    simp only [stVec] at hi e
    by_cases h1 : 0 < inc
    · rw [if_pos h1] at e
      exact ⟨i, hi, by simp only [stVec, if_pos hp, Int.natAbs_natCast]; exact e⟩
    · rw [if_neg h1] at e
      exact ⟨n - 1 - i, by simp only [stVec]; omega, by
        simp only [stVec, if_pos hp, Int.natAbs_natCast]; exact e⟩

theorem wp_lgConj [Star T] {n p : Nat} {inc : Int} (h : inc ≠ 0) {μ : Store Nat T} {E} :
    wp (lgConj n p inc) μ (fun _ ν => ν = conjOn (stVec n p inc) μ) E := by
  have hp : (0 : Int) < (inc.natAbs : Int) := by omega
  have e : (lgConj n p inc : M Nat T Unit) = conjugate (stVec n p (inc.natAbs : Int)) := by
    unfold lgConj conjugate stVec
    simp only [if_pos hp, Int.natAbs_natCast]
  rw [e]
  refine wp_conseq (wp_conjugate (μ0 := μ) (g := ventry μ (stVec n p (inc.natAbs : Int)))
    (stVec_inj (by omega)) (VState.init _ _ _ fun _ _ => rfl)) ?_
  intro _ ν hν
  funext l
  by_cases ho : (stVec n p inc).Owns l
  · rw [conjOn_owns ho]
    obtain ⟨i, hi, e⟩ := (stVec_owns_abs h).2 ho
    rw [← e, hν.val i hi]; rfl
  · rw [conjOn_not ho, hν.frame l (fun h' => ho ((stVec_owns_abs h).1 h'))]

theorem wp_lgScaleV [Field T] [DecidableEq T] {beta b : T} (hb : beta = 0 → b = 0) {y : VecV Nat}
    (hy : y.Inj) {μ : Store Nat T} :
    wp (lgScaleV beta b y) μ (fun _ ν => VState y μ (fun i => b * ventry μ y i) ν) := by
  unfold lgScaleV
  rw [wp_ite]
  split_ifs with h
  · refine wp_conseq (wp_vecLoop (fun i => 0) (VState.init y μ (ventry μ y) fun _ _ => rfl) hy
      (le_refl _) (Nat.zero_le _) ?_) ?_
    · intro i ν _ hi hν
      simp only [wp_vset]
      exact ⟨hi, trivial⟩
    · intro _ ν hν
      exact hν.congr (fun i hi => by simp [hi, hb h])
  · refine wp_conseq (wp_vecLoop (fun i => ventry μ y i * b)
      (VState.init y μ (ventry μ y) fun _ _ => rfl) hy (le_refl _) (Nat.zero_le _) ?_) ?_
    · intro i ν _ hi hν
      simp only [wp_vmodify]
      exact ⟨hi, by rw [hν.val i hi]; simp⟩
    · intro _ ν hν
      exact hν.congr (fun i hi => by simp [hi, mul_comm])

theorem lgCoef_val [Field T] [DecidableEq T] (b : T) : (lgCoef b).toVal = b := by
  unfold lgCoef
  split_ifs with h <;> simp [Coef.toVal, h]

theorem lgFlip_tri {uplo : Uplo} (h : uplo = .Upper ∨ uplo = .Lower) :
    lgFlip uplo = .Upper ∨ lgFlip uplo = .Lower := by
  rcases h with rfl | rfl
  · right; rfl
  · left; rfl

theorem inTri_flip {uplo : Uplo} (h : uplo = .Upper ∨ uplo = .Lower) (i j : Nat) :
    inTri (lgFlip uplo) i j ↔ inTri uplo j i := by
  rcases h with rfl | rfl <;> exact Iff.rfl

theorem notTri_false {uplo : Uplo} (h : uplo = .Upper ∨ uplo = .Lower) : notTri uplo = false := by
  rcases h with rfl | rfl <;> rfl

theorem lgBadOp_false {t : Op} (h : t = .NoTrans ∨ t = .Trans ∨ t = .ConjTrans) :
    lgBadOp t = false := by rcases h with rfl | rfl | rfl <;> rfl

end basic

end TLA
