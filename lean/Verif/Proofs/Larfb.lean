import Verif.Proofs.Larft
import Verif.Proofs.Region
import Verif.Proofs.Scan

/-! larfb in exact arithmetic. -/

set_option linter.unusedSectionVars false
set_option linter.unusedTactic false
set_option linter.unreachableTactic false

namespace TLA
open Finset
variable {L 𝕜 : Type} [DecidableEq L] [RCLike 𝕜] [DecidableEq 𝕜] {p : HhPar}

theorem Only.rd {A B : MatV L} {μ ν : Store L 𝕜} (o : Only B μ ν) (h : A.Disj B) {i j : Nat} (hi : i < A.m) (hj : j < A.n) :
    entry ν A i j = entry μ A i j := o _ (h i j hi hj)

theorem wp_lacpyG {A B : MatV L} (hm : A.m = B.m) (hn : A.n = B.n) (hB : B.Inj) (hAB : A.Disj B) (μ : Store L 𝕜) :
    wp (lacpy .General A B) μ (fun _ ν => Only B μ ν ∧ mat B.m B.n (entry ν B) = mat B.m B.n (entry μ A)) := by
  unfold lacpy
  simp only [wp_bind, wp_check]
  rw [if_pos (by rfl)]
  have h0 : MState B μ (entry μ B) μ := MState.init B μ _ (fun _ _ _ _ => rfl)
  rw [if_neg (by decide), if_neg (by decide)]
  refine wp_conseq (wp_region (fun i j => entry μ A i j) h0 hB (by omega) ?_ ?_) ?_
  · intro j _ _ _; omega
  · intro j i ν h1 h2 h3 h4 hν
    simp only [wp_bind, wp_get, wp_set]
    rw [hν.read hAB (by omega) (by omega)]
    exact ⟨by omega, by omega, rfl⟩
  · intro _ ν h
    refine ⟨h.frame, ?_⟩
    rw [mat_ext_iff]
    intro i j hi hj
    rw [show entry ν B i j = _ from h.val i j hi hj]
    exact if_pos (by omega)

theorem wp_addInto {W C : MatV L} (hm : W.m = C.m) (hn : W.n = C.n) (hC : C.Inj) (hWC : W.Disj C) (μ : Store L 𝕜) :
    wp (addInto W C) μ (fun _ ν => Only C μ ν ∧ mat C.m C.n (entry ν C) = mat C.m C.n (entry μ C) + mat C.m C.n (entry μ W)) := by
  unfold addInto
  have h0 : MState C μ (entry μ C) μ := MState.init C μ _ (fun _ _ _ _ => rfl)
  refine wp_conseq (wp_region (fun i j => entry μ C i j + entry μ W i j) h0 hC (by omega) ?_ ?_) ?_
  · intro j _ _ _; omega
  · intro j i ν h1 h2 h3 h4 hν
    simp only [wp_bind, wp_get, wp_modify]
    rw [hν.read hWC (by omega) (by omega)]
    refine ⟨by omega, by omega, ?_⟩
    have := hν.val i j (by omega) (by omega)
    rw [if_neg (by omega)] at this
    rw [this]; rfl
  · intro _ ν h
    refine ⟨h.frame, ?_⟩
    rw [mat_add, mat_ext_iff]
    intro i j hi hj
    rw [show entry ν C i j = _ from h.val i j hi hj]
    exact if_pos (by omega)

theorem mat_opF_congr {a b : Nat} {op : Op} {g g' : Nat → Nat → 𝕜}
    (h : ∀ i j, i < (if op = .NoTrans ∨ op = .Conj then a else b) → j < (if op = .NoTrans ∨ op = .Conj then b else a) →
      g i j = g' i j) : mat a b (opF op g) = mat a b (opF op g') := by
  rw [mat_ext_iff]
  intro i j hi hj
  cases op <;> simp at h <;> simp only [opF] <;> rw [h] <;> assumption

theorem triF_congr' {n : Nat} {u : Uplo} {d : Diag} {g g' : Nat → Nat → 𝕜} (h : ∀ i j, i < n → j < n → g i j = g' i j)
    {i j : Nat} (hi : i < n) (hj : j < n) : triF u d g i j = triF u d g' i j := by
  unfold triF; rw [h i j hi hj, h i i hi hi]

theorem mat_tri_congr {n : Nat} {op : Op} {u : Uplo} {d : Diag} {g g' : Nat → Nat → 𝕜} (h : ∀ i j, i < n → j < n → g i j = g' i j) :
    mat n n (opF op (triF u d g)) = mat n n (opF op (triF u d g')) :=
  mat_opF_congr fun i j hi hj => triF_congr' h (by simpa using hi) (by simpa using hj)

/-- `opH` and `opN` are conjugate to each other. -/
def opPair (opH opN : Op) : Prop := (opH = .ConjTrans ∧ opN = .NoTrans) ∨ (opH = .NoTrans ∧ opN = .ConjTrans)

theorem mat_opPair {opH opN : Op} (h : opPair opH opN) (a b : Nat) (g : Nat → Nat → 𝕜) :
    mat a b (opF opH g) = (mat b a (opF opN g)).conjTranspose := by
  rw [mat_conjTranspose, mat_ext_iff]
  intro i j _ _
  rcases h with ⟨rfl, rfl⟩ | ⟨rfl, rfl⟩ <;> simp [opF]

/-- Admissible operands of larfbL (`side = Left`) and larfbR. -/
structure LbOK (opN : Op) (side : Side) (k m2 n : Nat) (V1 V2 Tm C1 C2 W : MatV L) : Prop where
  V1m : V1.m = k
  V1n : V1.n = k
  V2m : V2.m = if opN = .NoTrans then m2 else k
  V2n : V2.n = if opN = .NoTrans then k else m2
  Tmm : Tm.m = k
  Tmn : Tm.n = k
  C1m : C1.m = if side = .Left then k else n
  C1n : C1.n = if side = .Left then n else k
  C2m : C2.m = if side = .Left then m2 else n
  C2n : C2.n = if side = .Left then n else m2
  Wm : W.m = if side = .Left then k else n
  Wn : W.n = if side = .Left then n else k
  C1i : C1.Inj
  C2i : C2.Inj
  Wi : W.Inj
  V1C1 : V1.Disj C1
  V1C2 : V1.Disj C2
  V1W : V1.Disj W
  V2C1 : V2.Disj C1
  V2C2 : V2.Disj C2
  V2W : V2.Disj W
  TC1 : Tm.Disj C1
  TC2 : Tm.Disj C2
  TW : Tm.Disj W
  C12 : C1.Disj C2
  C1W : C1.Disj W
  C2W : C2.Disj W

theorem MatV.Disj.symm {A B : MatV L} (h : A.Disj B) : B.Disj A := by
  rintro i j hi hj ⟨i', j', hi', hj', e⟩
  exact h i' j' hi' hj' ⟨i, j, hi, hj, e.symm⟩

theorem wp_larfbL {uV uT : Uplo} (huV : uV = .Upper ∨ uV = .Lower) (huT : uT = .Upper ∨ uT = .Lower) {opH opN trans : Op}
    (hop : opPair opH opN) (htr : trans ≠ .Conj) {k m2 n : Nat} {V1 V2 Tm C1 C2 W : MatV L}
    (ok : LbOK opN .Left k m2 n V1 V2 Tm C1 C2 W) {rest : Bool} (hr : rest = decide (0 < m2)) (μ : Store L 𝕜) :
    wp (larfbL uV uT opH opN trans rest V1 V2 Tm C1 C2 W) μ (fun _ ν =>
      (∀ l, ¬ C1.Owns l → ¬ C2.Owns l → ¬ W.Owns l → ν l = μ l) ∧
      (let U1 := mat k k (opF opN (triF uV .Unit (entry μ V1)))
       let U2 := mat m2 k (opF opN (entry μ V2))
       let X := mat k k (opF trans (triF uT .NonUnit (entry μ Tm))) *
         (U2.conjTranspose * mat m2 n (entry μ C2) + U1.conjTranspose * mat k n (entry μ C1))
       mat k n (entry ν C1) = mat k n (entry μ C1) - U1 * X ∧
       mat m2 n (entry ν C2) = mat m2 n (entry μ C2) - U2 * X)) := by
  obtain ⟨V1m, V1n, V2m, V2n, Tmm, Tmn, C1m, C1n, C2m, C2n, Wm, Wn, C1i, C2i, Wi, V1C1, V1C2, V1W, V2C1, V2C2, V2W,
    TC1, TC2, TW, C12, C1W, C2W⟩ := ok
  simp only [if_true] at C1m C1n C2m C2n Wm Wn
  have hopH : opH ≠ .Conj := by rcases hop with ⟨h, _⟩ | ⟨h, _⟩ <;> rw [h] <;> decide
  have hopN : opN ≠ .Conj := by rcases hop with ⟨_, h⟩ | ⟨_, h⟩ <;> rw [h] <;> decide
  unfold larfbL
  simp only [wp_bind]
  refine wp_conseq (wp_lacpyG (by omega) (by omega) Wi C1W μ) ?_
  rintro _ ν1 ⟨o1, e1⟩
  refine wp_conseq (wp_trmmL_m (m := k) (n := n) Wm Wn ⟨Or.inl rfl, huV, hopH, by omega, by simp; omega, Wi, V1W⟩) ?_
  rintro _ ν2 ⟨o2, e2⟩
  have E2 : mat k n (entry ν2 W) = (mat k k (opF opN (triF uV .Unit (entry μ V1)))).conjTranspose * mat k n (entry μ C1) := by
    rw [e2, one_smul, mat_opPair hop]
    rw [Wm, Wn] at e1
    rw [e1, mat_tri_congr (g' := entry μ V1) (fun i j hi hj => o1.rd V1W (by omega) (by omega))]
  have o2' := o1.trans o2
  refine wp_conseq (Q := fun _ ν3 => Only W μ ν3 ∧ mat k n (entry ν3 W) =
    (mat m2 k (opF opN (entry μ V2))).conjTranspose * mat m2 n (entry μ C2) + mat k n (entry ν2 W)) ?_ ?_
  · by_cases h2 : 0 < m2
    · rw [hr, decide_eq_true h2, if_pos rfl]
      refine wp_conseq (wp_gemm_m (m := k) (n := n) (k := m2) ⟨hopH, by decide, ?_, ?_, C2m, C2n, Wm, Wn, Wi, V2W, C2W⟩) ?_
      · rcases hop with ⟨rfl, rfl⟩ | ⟨rfl, rfl⟩ <;> simp at V2m V2n ⊢ <;> omega
      · rcases hop with ⟨rfl, rfl⟩ | ⟨rfl, rfl⟩ <;> simp at V2m V2n ⊢ <;> omega
      rintro _ ν3 ⟨o3, e3⟩
      refine ⟨o2'.trans o3, ?_⟩
      rw [e3, one_smul, mat_opPair hop]
      congr 1
      · refine congrArg₂ (fun x y => Matrix.conjTranspose x * y) ?_ ?_
        · refine mat_opF_congr fun i j hi hj => o2'.rd V2W ?_ ?_ <;>
          rcases hop with ⟨rfl, rfl⟩ | ⟨rfl, rfl⟩ <;> simp at V2m V2n hi hj ⊢ <;> omega
        · rw [mat_ext_iff]
          exact fun i j hi hj => o2'.rd C2W (by omega) (by omega)
      · exact one_smul _ _
    · rw [hr, decide_eq_false h2, if_neg (by decide)]
      refine ⟨o2', ?_⟩
      obtain rfl : m2 = 0 := by omega
      rw [show (mat 0 k (opF opN (entry μ V2))).conjTranspose * mat 0 n (entry μ C2) = 0 from ?_, zero_add]
      ext i j
      simp [Matrix.mul_apply]
  rintro _ ν3 ⟨o3, e3⟩
  rw [E2] at e3
  refine wp_conseq (wp_trmmL_m (m := k) (n := n) Wm Wn ⟨Or.inl rfl, huT, htr, by omega, by simp; omega, Wi, TW⟩) ?_
  rintro _ ν4 ⟨o4, e4⟩
  obtain ⟨U1, hU1⟩ : ∃ U1, U1 = mat k k (opF opN (triF uV .Unit (entry μ V1))) := ⟨_, rfl⟩
  obtain ⟨U2, hU2⟩ : ∃ U2, U2 = mat m2 k (opF opN (entry μ V2)) := ⟨_, rfl⟩
  obtain ⟨X, hX⟩ : ∃ X, X = mat k k (opF trans (triF uT .NonUnit (entry μ Tm))) *
         (U2.conjTranspose * mat m2 n (entry μ C2) + U1.conjTranspose * mat k n (entry μ C1)) := ⟨_, rfl⟩
  simp only [← hU1, ← hU2] at e3 ⊢
  have E4 : mat k n (entry ν4 W) = X := by
    rw [e4, one_smul, e3, hX, mat_tri_congr (g' := entry μ Tm) (fun i j hi hj => o3.rd TW (by omega) (by omega))]
  have o4' := o3.trans o4
  refine wp_conseq (Q := fun _ ν5 => Only C2 ν4 ν5 ∧ mat m2 n (entry ν5 C2) = mat m2 n (entry μ C2) - U2 * X) ?_ ?_
  · by_cases h2 : 0 < m2
    · rw [hr, decide_eq_true h2, if_pos rfl]
      refine wp_conseq (wp_gemm_m (m := m2) (n := n) (k := k) ⟨hopN, by decide, ?_, ?_, Wm, Wn, C2m, C2n, C2i, V2C2, C2W.symm⟩) ?_
      · rcases hop with ⟨rfl, rfl⟩ | ⟨rfl, rfl⟩ <;> simp at V2m V2n ⊢ <;> omega
      · rcases hop with ⟨rfl, rfl⟩ | ⟨rfl, rfl⟩ <;> simp at V2m V2n ⊢ <;> omega
      rintro _ ν5 ⟨o5, e5⟩
      refine ⟨o5, ?_⟩
      have e6 : mat m2 k (opF opN (entry ν4 V2)) = U2 := by
        rw [hU2]
        refine mat_opF_congr fun i j hi hj => o4'.rd V2W ?_ ?_ <;>
          rcases hop with ⟨rfl, rfl⟩ | ⟨rfl, rfl⟩ <;> simp at V2m V2n hi hj ⊢ <;> omega
      have e7 : mat m2 n (entry ν4 C2) = mat m2 n (entry μ C2) := by
        rw [mat_ext_iff]
        exact fun i j hi hj => o4'.rd C2W (by omega) (by omega)
      rw [e5, e6, e7]
      show (-1 : 𝕜) • (U2 * mat k n (entry ν4 W)) + (1 : 𝕜) • _ = _
      rw [E4, one_smul, neg_smul, one_smul, neg_add_eq_sub]
    · rw [hr, decide_eq_false h2, if_neg (by decide)]
      refine ⟨Only.refl, ?_⟩
      obtain rfl : m2 = 0 := by omega
      ext i j
      exact i.elim0
  rintro _ ν5 ⟨o5, e5⟩
  refine wp_conseq (wp_trmmL_m (m := k) (n := n) Wm Wn ⟨Or.inl rfl, huV, hopN, by omega, by simp; omega, Wi, V1W⟩) ?_
  rintro _ ν6 ⟨o6, e6⟩
  have E6 : mat k n (entry ν6 W) = -(U1 * X) := by
    rw [e6, hU1, mat_tri_congr (g' := entry μ V1) (fun i j hi hj => (o5.rd V1C2 (by omega) (by omega)).trans (o4'.rd V1W (by omega) (by omega))),
      neg_smul, one_smul]
    congr 2
    rw [← E4, mat_ext_iff]
    exact fun i j hi hj => o5.rd C2W.symm (by omega) (by omega)
  refine wp_conseq (wp_addInto (by omega) (by omega) C1i C1W.symm ν6) ?_
  rintro _ ν7 ⟨o7, e7⟩
  rw [C1m, C1n] at e7
  refine ⟨fun l h1 h2 h3 => ?_, ?_, ?_⟩
  · rw [o7 l h1, o6 l h3, o5 l h2, o4' l h3]
  · rw [e7, E6, ← hX, sub_eq_add_neg]
    congr 1
    rw [mat_ext_iff]
    exact fun i j hi hj => ((o6.rd C1W (by omega) (by omega)).trans (o5.rd C12 (by omega) (by omega))).trans
      (o4'.rd C1W (by omega) (by omega))
  · rw [← hX, ← e5, mat_ext_iff]
    exact fun i j hi hj => (o7.rd C12.symm (by omega) (by omega)).trans (o6.rd C2W (by omega) (by omega))

theorem wp_larfbR {uV uT : Uplo} (huV : uV = .Upper ∨ uV = .Lower) (huT : uT = .Upper ∨ uT = .Lower) {opH opN trans : Op}
    (hop : opPair opH opN) (htr : trans ≠ .Conj) {k m2 n : Nat} {V1 V2 Tm C1 C2 W : MatV L}
    (ok : LbOK opN .Right k m2 n V1 V2 Tm C1 C2 W) {rest : Bool} (hr : rest = decide (0 < m2)) (μ : Store L 𝕜) :
    wp (larfbR uV uT opN opH trans rest V1 V2 Tm C1 C2 W) μ (fun _ ν =>
      (∀ l, ¬ C1.Owns l → ¬ C2.Owns l → ¬ W.Owns l → ν l = μ l) ∧
      (let U1 := mat k k (opF opN (triF uV .Unit (entry μ V1)))
       let U2 := mat m2 k (opF opN (entry μ V2))
       let X := (mat n m2 (entry μ C2) * U2 + mat n k (entry μ C1) * U1) *
         mat k k (opF trans (triF uT .NonUnit (entry μ Tm)))
       mat n k (entry ν C1) = mat n k (entry μ C1) - X * U1.conjTranspose ∧
       mat n m2 (entry ν C2) = mat n m2 (entry μ C2) - X * U2.conjTranspose)) := by
  obtain ⟨V1m, V1n, V2m, V2n, Tmm, Tmn, C1m, C1n, C2m, C2n, Wm, Wn, C1i, C2i, Wi, V1C1, V1C2, V1W, V2C1, V2C2, V2W,
    TC1, TC2, TW, C12, C1W, C2W⟩ := ok
  simp only [reduceCtorEq, if_false] at C1m C1n C2m C2n Wm Wn
  have hopH : opH ≠ .Conj := by rcases hop with ⟨h, _⟩ | ⟨h, _⟩ <;> rw [h] <;> decide
  have hopN : opN ≠ .Conj := by rcases hop with ⟨_, h⟩ | ⟨_, h⟩ <;> rw [h] <;> decide
  unfold larfbR
  simp only [wp_bind]
  refine wp_conseq (wp_lacpyG (by omega) (by omega) Wi C1W μ) ?_
  rintro _ ν1 ⟨o1, e1⟩
  refine wp_conseq (wp_trmmR_m (m := n) (n := k) Wm Wn ⟨Or.inr rfl, huV, hopN, by omega, by simp; omega, Wi, V1W⟩) ?_
  rintro _ ν2 ⟨o2, e2⟩
  have E2 : mat n k (entry ν2 W) = mat n k (entry μ C1) * mat k k (opF opN (triF uV .Unit (entry μ V1))) := by
    rw [e2, one_smul]
    rw [Wm, Wn] at e1
    rw [e1, mat_tri_congr (g' := entry μ V1) (fun i j hi hj => o1.rd V1W (by omega) (by omega))]
  have o2' := o1.trans o2
  refine wp_conseq (Q := fun _ ν3 => Only W μ ν3 ∧ mat n k (entry ν3 W) =
    mat n m2 (entry μ C2) * mat m2 k (opF opN (entry μ V2)) + mat n k (entry ν2 W)) ?_ ?_
  · by_cases h2 : 0 < m2
    · rw [hr, decide_eq_true h2, if_pos rfl]
      refine wp_conseq (wp_gemm_m (m := n) (n := k) (k := m2) ⟨by decide, hopN, C2m, C2n, ?_, ?_, Wm, Wn, Wi, C2W, V2W⟩) ?_
      · rcases hop with ⟨rfl, rfl⟩ | ⟨rfl, rfl⟩ <;> simp at V2m V2n ⊢ <;> omega
      · rcases hop with ⟨rfl, rfl⟩ | ⟨rfl, rfl⟩ <;> simp at V2m V2n ⊢ <;> omega
      rintro _ ν3 ⟨o3, e3⟩
      refine ⟨o2'.trans o3, ?_⟩
      rw [e3, one_smul]
      congr 1
      · congr 1
        · rw [mat_ext_iff]
          exact fun i j hi hj => o2'.rd C2W (by omega) (by omega)
        · refine mat_opF_congr fun i j hi hj => o2'.rd V2W ?_ ?_ <;>
          rcases hop with ⟨rfl, rfl⟩ | ⟨rfl, rfl⟩ <;> simp at V2m V2n hi hj ⊢ <;> omega
      · exact one_smul _ _
    · rw [hr, decide_eq_false h2, if_neg (by decide)]
      refine ⟨o2', ?_⟩
      obtain rfl : m2 = 0 := by omega
      rw [show mat n 0 (entry μ C2) * mat 0 k (opF opN (entry μ V2)) = 0 from ?_, zero_add]
      ext i j
      simp [Matrix.mul_apply]
  rintro _ ν3 ⟨o3, e3⟩
  rw [E2] at e3
  refine wp_conseq (wp_trmmR_m (m := n) (n := k) Wm Wn ⟨Or.inr rfl, huT, htr, by omega, by simp; omega, Wi, TW⟩) ?_
  rintro _ ν4 ⟨o4, e4⟩
  obtain ⟨U1, hU1⟩ : ∃ U1, U1 = mat k k (opF opN (triF uV .Unit (entry μ V1))) := ⟨_, rfl⟩
  obtain ⟨U2, hU2⟩ : ∃ U2, U2 = mat m2 k (opF opN (entry μ V2)) := ⟨_, rfl⟩
  obtain ⟨X, hX⟩ : ∃ X, X = (mat n m2 (entry μ C2) * U2 + mat n k (entry μ C1) * U1) *
         mat k k (opF trans (triF uT .NonUnit (entry μ Tm))) := ⟨_, rfl⟩
  simp only [← hU1, ← hU2] at e3 ⊢
  have E4 : mat n k (entry ν4 W) = X := by
    rw [e4, one_smul, e3, hX, mat_tri_congr (g' := entry μ Tm) (fun i j hi hj => o3.rd TW (by omega) (by omega))]
  have o4' := o3.trans o4
  refine wp_conseq (Q := fun _ ν5 => Only C2 ν4 ν5 ∧ mat n m2 (entry ν5 C2) = mat n m2 (entry μ C2) - X * U2.conjTranspose) ?_ ?_
  · by_cases h2 : 0 < m2
    · rw [hr, decide_eq_true h2, if_pos rfl]
      refine wp_conseq (wp_gemm_m (m := n) (n := m2) (k := k) ⟨by decide, hopH, Wm, Wn, ?_, ?_, C2m, C2n, C2i, C2W.symm, V2C2⟩) ?_
      · rcases hop with ⟨rfl, rfl⟩ | ⟨rfl, rfl⟩ <;> simp at V2m V2n ⊢ <;> omega
      · rcases hop with ⟨rfl, rfl⟩ | ⟨rfl, rfl⟩ <;> simp at V2m V2n ⊢ <;> omega
      rintro _ ν5 ⟨o5, e5⟩
      refine ⟨o5, ?_⟩
      have e6 : mat k m2 (opF opH (entry ν4 V2)) = U2.conjTranspose := by
        rw [hU2, mat_opPair hop]
        congr 1
        refine mat_opF_congr fun i j hi hj => o4'.rd V2W ?_ ?_ <;>
          rcases hop with ⟨rfl, rfl⟩ | ⟨rfl, rfl⟩ <;> simp at V2m V2n hi hj ⊢ <;> omega
      have e7 : mat n m2 (entry ν4 C2) = mat n m2 (entry μ C2) := by
        rw [mat_ext_iff]
        exact fun i j hi hj => o4'.rd C2W (by omega) (by omega)
      rw [e5, e6, e7]
      rw [show mat n k (opF .NoTrans (entry ν4 W)) = mat n k (entry ν4 W) from rfl, show (Coef.val (1 : 𝕜)).toVal = 1 from rfl]
      rw [E4, one_smul, neg_smul, one_smul, neg_add_eq_sub]
    · rw [hr, decide_eq_false h2, if_neg (by decide)]
      refine ⟨Only.refl, ?_⟩
      obtain rfl : m2 = 0 := by omega
      ext i j
      exact j.elim0
  rintro _ ν5 ⟨o5, e5⟩
  refine wp_conseq (wp_trmmR_m (m := n) (n := k) Wm Wn ⟨Or.inr rfl, huV, hopH, by omega, by simp; omega, Wi, V1W⟩) ?_
  rintro _ ν6 ⟨o6, e6⟩
  have E6 : mat n k (entry ν6 W) = -(X * U1.conjTranspose) := by
    rw [e6, hU1, mat_opPair hop, mat_tri_congr (g' := entry μ V1) (fun i j hi hj => (o5.rd V1C2 (by omega) (by omega)).trans (o4'.rd V1W (by omega) (by omega))),
      neg_smul, one_smul]
    congr 2
    rw [← E4, mat_ext_iff]
    exact fun i j hi hj => o5.rd C2W.symm (by omega) (by omega)
  refine wp_conseq (wp_addInto (by omega) (by omega) C1i C1W.symm ν6) ?_
  rintro _ ν7 ⟨o7, e7⟩
  rw [C1m, C1n] at e7
  refine ⟨fun l h1 h2 h3 => ?_, ?_, ?_⟩
  · rw [o7 l h1, o6 l h3, o5 l h2, o4' l h3]
  · rw [e7, E6, ← hX, sub_eq_add_neg]
    congr 1
    rw [mat_ext_iff]
    exact fun i j hi hj => ((o6.rd C1W (by omega) (by omega)).trans (o5.rd C12 (by omega) (by omega))).trans
      (o4'.rd C1W (by omega) (by omega))
  · rw [← hX, ← e5, mat_ext_iff]
    exact fun i j hi hj => (o7.rd C12.symm (by omega) (by omega)).trans (o6.rd C2W (by omega) (by omega))

/-! ### assembling the blocks -/

theorem glueL {a b k n : Nat} {U G G' : Nat → Nat → 𝕜} {Tt : Matrix (Fin k) (Fin k) 𝕜} {X : Matrix (Fin k) (Fin n) 𝕜}
    (hX : X = Tt * ((mat a k U).conjTranspose * mat a n G + (mat b k (sh a 0 U)).conjTranspose * mat b n (sh a 0 G)))
    (h1 : mat a n G' = mat a n G - mat a k U * X)
    (h2 : mat b n (sh a 0 G') = mat b n (sh a 0 G) - mat b k (sh a 0 U) * X) :
    mat (a + b) n G' = (1 - mat (a + b) k U * Tt * (mat (a + b) k U).conjTranspose) * mat (a + b) n G := by
  have e : (mat (a + b) k U).conjTranspose * mat (a + b) n G =
      (mat a k U).conjTranspose * mat a n G + (mat b k (sh a 0 U)).conjTranspose * mat b n (sh a 0 G) := by
    simp only [mat_conjTranspose]
    rw [mat_mul_inner]
    rfl
  rw [Matrix.sub_mul, Matrix.one_mul, Matrix.mul_assoc, Matrix.mul_assoc, e, ← hX]
  ext i j
  by_cases hi : (i : Nat) < a
  · have := congrFun (congrFun h1 ⟨i, hi⟩) j
    simpa [Matrix.mul_apply, mat] using this
  · have := congrFun (congrFun h2 ⟨i - a, by omega⟩) j
    simpa [Matrix.mul_apply, mat, sh, show a + (i - a) = (i : Nat) by omega] using this

theorem glueR {a b k n : Nat} {U G G' : Nat → Nat → 𝕜} {Tt : Matrix (Fin k) (Fin k) 𝕜} {X : Matrix (Fin n) (Fin k) 𝕜}
    (hX : X = (mat n a G * mat a k U + mat n b (sh 0 a G) * mat b k (sh a 0 U)) * Tt)
    (h1 : mat n a G' = mat n a G - X * (mat a k U).conjTranspose)
    (h2 : mat n b (sh 0 a G') = mat n b (sh 0 a G) - X * (mat b k (sh a 0 U)).conjTranspose) :
    mat n (a + b) G' = mat n (a + b) G * (1 - mat (a + b) k U * Tt * (mat (a + b) k U).conjTranspose) := by
  rw [Matrix.mul_sub, Matrix.mul_one, ← Matrix.mul_assoc, ← Matrix.mul_assoc, mat_mul_inner, ← hX]
  ext i j
  by_cases hj : (j : Nat) < a
  · have := congrFun (congrFun h1 i) ⟨j, hj⟩
    simpa [Matrix.mul_apply, mat] using this
  · have := congrFun (congrFun h2 i) ⟨j - a, by omega⟩
    simpa [Matrix.mul_apply, mat, sh, show a + (j - a) = (j : Nat) by omega] using this

/-- Operations of the case analysis of larfb. -/
def lbN (store : StoreV) : Op := if store = .Columnwise then .NoTrans else .ConjTrans
def lbH (store : StoreV) : Op := if store = .Columnwise then .ConjTrans else .NoTrans
def lbU (dir : Direction) (store : StoreV) : Uplo :=
  if store = .Columnwise then (if dir = .Forward then .Lower else .Upper) else (if dir = .Forward then .Upper else .Lower)

theorem lb_pair (store : StoreV) : opPair (lbH store) (lbN store) := by
  cases store
  · exact Or.inl ⟨rfl, rfl⟩
  · exact Or.inr ⟨rfl, rfl⟩

theorem lbU_tri (dir : Direction) (store : StoreV) : lbU dir store = .Upper ∨ lbU dir store = .Lower := by
  cases dir <;> cases store <;> simp [lbU]

/-- Rows (Columnwise) or columns (Rowwise) `a..b` of the reflector vectors. -/
def vpart (store : StoreV) (V : MatV L) (a b : Nat) : MatV L :=
  if store = .Columnwise then V.sub a b 0 V.n else V.sub 0 V.m a b

theorem houseU1 {dir : Direction} {store : StoreV} {q k : Nat} {V : MatV L} {μ : Store L 𝕜} (hk : k ≤ q) {r : Nat}
    (hr : r = if dir = .Forward then 0 else q - k) :
    mat k k (opF (lbN store) (triF (lbU dir store) .Unit (entry μ (vpart store V r (r + k))))) =
      mat k k (sh r 0 (fun r a => houseVec dir store q k (entry μ V) a r)) := by
  rw [mat_ext_iff]
  intro i j hi hj
  have hp : hpiv dir q k (0 + j) = r + j := by rw [hr]; unfold hpiv; split <;> omega
  show _ = houseVec dir store q k (entry μ V) (0 + j) (r + i)
  by_cases e : i = j
  · rw [houseVec_piv (by omega)]
    cases store <;> simp [lbN, opF, triF, e]
  · by_cases hz : if dir = .Forward then i < j else j < i
    · rw [houseVec_zero (by rw [hp]; split <;> simp_all)]
      cases store <;> cases dir <;> simp at hz <;> simp [lbN, lbU, opF, triF, inTri, e, Ne.symm e] <;> omega
    · rw [houseVec_in (by rw [hp]; split <;> simp_all <;> omega)]
      cases store <;> cases dir <;> simp at hz <;>
        simp [lbN, lbU, opF, triF, inTri, e, Ne.symm e, show ¬ j < i ↔ i < j by omega, hz, wF, vpart, entry, MatV.sub] <;> omega

theorem houseU2 {dir : Direction} {store : StoreV} {q k : Nat} {V : MatV L} {μ : Store L 𝕜} (hk : k ≤ q) {r : Nat}
    (hr : r = if dir = .Forward then k else 0) :
    mat (q - k) k (opF (lbN store) (entry μ (vpart store V r (r + (q - k))))) =
      mat (q - k) k (sh r 0 (fun r a => houseVec dir store q k (entry μ V) a r)) := by
  rw [mat_ext_iff]
  intro i j hi hj
  show _ = houseVec dir store q k (entry μ V) (0 + j) (r + i)
  rw [houseVec_in]
  · cases store with
    | Columnwise => simp only [lbN, if_true, opF, vpart, wF]; rfl
    | Rowwise => simp only [lbN, reduceCtorEq, if_false, opF, vpart, wF]; rfl
  · rw [hr]
    unfold hpiv
    cases dir <;> simp <;> omega

/-- The matrix view of the work-space. -/
@[reducible] def wview (work : VecV L) (m n : Nat) : MatV L := ⟨m, n, fun i j => work.cell (i + j * m)⟩

theorem wview_lt {m n i j : Nat} (hi : i < m) (hj : j < n) : i + j * m < m * n := by
  calc i + j * m < m + j * m := by omega
    _ = (j + 1) * m := by ring
    _ ≤ n * m := Nat.mul_le_mul_right _ hj
    _ = m * n := Nat.mul_comm _ _

theorem wview_owns {work : VecV L} {m n : Nat} (h : m * n ≤ work.n) {l : L} (ho : (wview work m n).Owns l) : work.Owns l := by
  obtain ⟨i, j, hi, hj, e⟩ := ho
  exact ⟨i + j * m, lt_of_lt_of_le (wview_lt hi hj) h, e⟩

theorem wview_inj {work : VecV L} {m n : Nat} (hw : work.Inj) (h : m * n ≤ work.n) : (wview work m n).Inj := by
  intro i j i' j' hi hj hi' hj' e
  have := hw _ _ (lt_of_lt_of_le (wview_lt hi hj) h) (lt_of_lt_of_le (wview_lt hi' hj') h) e
  have h1 : (i + j * m) % m = i := by rw [Nat.add_mul_mod_self_right, Nat.mod_eq_of_lt hi]
  have h2 : (i' + j' * m) % m = i' := by rw [Nat.add_mul_mod_self_right, Nat.mod_eq_of_lt hi']
  have h3 : i = i' := by rw [← h1, ← h2, this]
  subst h3
  have h4 : j * m = j' * m := Nat.add_left_cancel this
  exact ⟨rfl, Nat.eq_of_mul_eq_mul_right (show 0 < m by simp only [wview] at hi; omega) h4⟩

theorem wview_disj {A : MatV L} {work : VecV L} {m n : Nat} (h : m * n ≤ work.n) (hd : A.DisjV work) :
    A.Disj (wview work m n) := fun i j hi hj ho => hd i j hi hj (wview_owns h ho)

theorem wp_reshapeWM {work : VecV L} {m n : Nat} (h : m * n ≤ work.n) {μ : Store L 𝕜} {Q : MatV L × VecV L → Store L 𝕜 → Prop} {E}
    (hQ : Q (wview work m n, work.sub (m * n) work.n) μ) : wp (reshapeWM work m n) μ Q E := by
  unfold reshapeWM
  simp only [wp_bind, wp_check, decide_eq_true h, if_true]
  exact hQ

theorem LarfbOK.lb {side : Side} {store : StoreV} {V Tm C : MatV L} {work : VecV L} (h : LarfbOK side store V Tm C work)
    {r1 r2 : Nat} (h1 : r1 + Tm.m ≤ vlen store V) (h2 : r2 + (vlen store V - Tm.m) ≤ vlen store V)
    (hd : r1 + Tm.m ≤ r2 ∨ r2 + (vlen store V - Tm.m) ≤ r1) :
    LbOK (lbN store) side Tm.m (vlen store V - Tm.m) (if side = .Left then C.n else C.m)
      (vpart store V r1 (r1 + Tm.m)) (vpart store V r2 (r2 + (vlen store V - Tm.m))) Tm
      (if side = .Left then C.sub r1 (r1 + Tm.m) 0 C.n else C.sub 0 C.m r1 (r1 + Tm.m))
      (if side = .Left then C.sub r2 (r2 + (vlen store V - Tm.m)) 0 C.n else C.sub 0 C.m r2 (r2 + (vlen store V - Tm.m)))
      (if side = .Left then wview work Tm.m C.n else wview work C.m Tm.m) := by
  obtain ⟨hside, inj, winj, VC, Vw, TC, Tw, Cw, Tsq, Vk, Vq, kq, wn⟩ := h
  have hvp : ∀ {a b : Nat}, b ≤ vlen store V → ∀ {l}, (vpart store V a b).Owns l → V.Owns l := by
    intro a b hb l ho
    unfold vlen at hb
    unfold vpart at ho
    split at ho <;> rename_i e <;> simp only [e, if_true, if_false] at hb
    · exact ho.sub hb (le_refl _)
    · exact ho.sub (le_refl _) hb
  have dV : ∀ {a b : Nat} {B : MatV L}, b ≤ vlen store V → V.Disj B → (vpart store V a b).Disj B := by
    intro a b B hb hd' i j hi hj ho
    obtain ⟨i', j', hi', hj', e⟩ := hvp hb ⟨i, j, hi, hj, rfl⟩
    rw [← e] at ho
    exact hd' i' j' hi' hj' ho
  unfold larfbWorksize at wn
  rcases hside with rfl | rfl
  · simp only [if_true] at Vq wn ⊢
    simp only [WorkInfo.size, WorkInfo.ofMat] at wn
    refine ⟨?_, ?_, ?_, ?_, rfl, Tsq.symm, ?_, ?_, ?_, ?_, ?_, ?_, inj.sub (by omega) (le_refl _), inj.sub (by omega) (le_refl _),
      wview_inj winj wn, dV (by omega) (VC.sub_right (by omega) (le_refl _)), dV (by omega) (VC.sub_right (by omega) (le_refl _)),
      dV (by omega) (wview_disj wn Vw), dV (by omega) (VC.sub_right (by omega) (le_refl _)),
      dV (by omega) (VC.sub_right (by omega) (le_refl _)), dV (by omega) (wview_disj wn Vw),
      TC.sub_right (by omega) (le_refl _), TC.sub_right (by omega) (le_refl _), wview_disj wn Tw,
      inj.disj_sub (by omega) (le_refl _) (by omega) (le_refl _) (by omega), wview_disj wn (Cw.rows (by omega) (le_refl _)),
      wview_disj wn (Cw.rows (by omega) (le_refl _))⟩ <;>
    cases store <;> simp [vpart, MatV.sub, lbN, vlen, vcnt] at Vk ⊢ <;> omega
  · simp only [reduceCtorEq, if_false] at Vq wn ⊢
    simp only [WorkInfo.size, WorkInfo.ofMat] at wn
    refine ⟨?_, ?_, ?_, ?_, rfl, Tsq.symm, ?_, ?_, ?_, ?_, ?_, ?_, inj.sub (le_refl _) (by omega), inj.sub (le_refl _) (by omega),
      wview_inj winj wn, dV (by omega) (VC.sub_right (le_refl _) (by omega)), dV (by omega) (VC.sub_right (le_refl _) (by omega)),
      dV (by omega) (wview_disj wn Vw), dV (by omega) (VC.sub_right (le_refl _) (by omega)),
      dV (by omega) (VC.sub_right (le_refl _) (by omega)), dV (by omega) (wview_disj wn Vw),
      TC.sub_right (le_refl _) (by omega), TC.sub_right (le_refl _) (by omega), wview_disj wn Tw,
      inj.disj_sub (le_refl _) (by omega) (le_refl _) (by omega) (by omega), wview_disj wn (Cw.rows (le_refl _) (by omega)),
      wview_disj wn (Cw.rows (le_refl _) (by omega))⟩ <;>
    cases store <;> simp [vpart, MatV.sub, lbN, vlen, vcnt] at Vk ⊢ <;> omega

/-- The core of larfb in a form common to the eight cases. -/
def larfbCore (side : Side) (trans : Op) (dir : Direction) (store : StoreV) (V Tm C W : MatV L) (r1 r2 k m2 : Nat) : M L 𝕜 Unit :=
  if side = .Left then
    larfbL (lbU dir store) (duplo dir) (lbH store) (lbN store) trans (decide (0 < m2)) (vpart store V r1 (r1 + k))
      (vpart store V r2 (r2 + m2)) Tm (C.sub r1 (r1 + k) 0 C.n) (C.sub r2 (r2 + m2) 0 C.n) W
  else
    larfbR (lbU dir store) (duplo dir) (lbN store) (lbH store) trans (decide (0 < m2)) (vpart store V r1 (r1 + k))
      (vpart store V r2 (r2 + m2)) Tm (C.sub 0 C.m r1 (r1 + k)) (C.sub 0 C.m r2 (r2 + m2)) W

theorem opQ_blk {dir : Direction} {q k : Nat} {u : Nat → Nat → 𝕜} {trans : Op} {Tf : Nat → Nat → 𝕜}
    (ht : trans = .NoTrans ∨ trans = .ConjTrans ∨ (trans = .Trans ∧ ∀ z : 𝕜, star z = z)) :
    opQ trans (mat q q (blkF (range k) u Tf)) = 1 - mat q k (fun r a => u a r) * mat k k (opF trans Tf) *
      (mat q k (fun r a => u a r)).conjTranspose := by
  have hC : (mat q q (blkF (range k) u Tf)).conjTranspose = 1 - mat q k (fun r a => u a r) * mat k k (opF .ConjTrans Tf) *
      (mat q k (fun r a => u a r)).conjTranspose := by
    rw [blkF_mat, Matrix.conjTranspose_sub, Matrix.conjTranspose_one, Matrix.conjTranspose_mul,
      Matrix.conjTranspose_mul, Matrix.conjTranspose_conjTranspose, Matrix.mul_assoc, mat_conjTranspose k k]
    rfl
  rcases ht with rfl | rfl | ⟨rfl, hs⟩
  · exact blkF_mat q k u Tf
  · exact hC
  · have e1 : opQ .Trans (mat q q (blkF (range k) u Tf)) = (mat q q (blkF (range k) u Tf)).conjTranspose := by
      ext i j
      simp [opQ, Matrix.conjTranspose_apply, hs]
    have e2 : opF .Trans Tf = opF .ConjTrans Tf := by
      funext i j; simp [opF, hs]
    rw [e1, e2, hC]

theorem wp_larfbCore {side : Side} {trans : Op} {dir : Direction} {store : StoreV} {V Tm C : MatV L} {work : VecV L}
    (ok : LarfbOK side store V Tm C work)
    (ht : trans = .NoTrans ∨ trans = .ConjTrans ∨ (trans = .Trans ∧ ∀ z : 𝕜, star z = z)) {r1 r2 q : Nat} (hq : q = vlen store V)
    (h1 : r1 = if dir = .Forward then 0 else q - Tm.m) (h2 : r2 = if dir = .Forward then Tm.m else 0) (μ : Store L 𝕜) :
    wp (larfbCore side trans dir store V Tm C (if side = .Left then wview work Tm.m C.n else wview work C.m Tm.m) r1 r2 Tm.m
      (q - Tm.m)) μ (fun _ ν =>
      (let H := mat (q) (q) (blkF (range Tm.m) (houseVec dir store (q) Tm.m (entry μ V))
          (triF (duplo dir) .NonUnit (entry μ Tm)))
       if side = .Left then mat (q) C.n (entry ν C) = opQ trans H * mat (q) C.n (entry μ C)
       else mat C.m (q) (entry ν C) = mat C.m (q) (entry μ C) * opQ trans H) ∧
      ∀ l, ¬ C.Owns l → ¬ work.Owns l → ν l = μ l) := by
  have kq := ok.kq
  have hlb := ok.lb (r1 := r1) (r2 := r2) (by rw [h1, hq]; split <;> omega) (by rw [h2, ]; split <;> omega)
    (by rw [h1, h2, hq]; split <;> omega)
  have htc : trans ≠ .Conj := by rcases ht with rfl | rfl | ⟨rfl, _⟩ <;> decide
  have Vq := ok.Vq
  have wn := ok.wn
  simp only [← hq] at kq Vq wn hlb
  have hH := opQ_blk (dir := dir) (q := q) (k := Tm.m) (u := houseVec dir store q Tm.m (entry μ V)) (trans := trans)
    (Tf := triF (duplo dir) .NonUnit (entry μ Tm)) ht
  have hU1 := houseU1 (dir := dir) (store := store) (V := V) (μ := μ) kq h1
  have hU2 := houseU2 (dir := dir) (store := store) (V := V) (μ := μ) kq h2
  obtain ⟨m2, hm2⟩ : ∃ m2, m2 = q - Tm.m := ⟨_, rfl⟩
  rw [← hm2] at hlb hU2 h1 ⊢
  have hqe : q = Tm.m + m2 := by omega
  unfold larfbCore
  unfold larfbWorksize at wn
  rcases ok.hside with rfl | rfl
  · simp only [if_true] at hlb wn Vq ⊢
    simp only [WorkInfo.size, WorkInfo.ofMat] at wn
    refine wp_conseq (wp_larfbL (lbU_tri _ _) (duplo_tri dir) (lb_pair store) htc hlb rfl μ) ?_
    rintro _ ν ⟨fr, e1, e2⟩
    refine ⟨?_, fun l hC hW => fr l (fun ho => hC (ho.sub ?_ (le_refl _))) (fun ho => hC (ho.sub ?_ (le_refl _))) (fun ho => hW (wview_owns wn ho))⟩
    · rw [hH]
      rw [hU1, hU2] at e1 e2
      simp only [sh_entry] at e1 e2
      cases dir with
      | Forward =>
        simp only [if_true] at h1 h2
        subst h1 h2
        rw [hqe]
        simp only [sh_zero] at e1 e2
        refine glueL (X := _) rfl ?_ ?_
        · rw [add_comm (Matrix.conjTranspose _ * _)]; simpa [hqe] using e1
        · rw [add_comm (Matrix.conjTranspose _ * _)]; simpa [hqe] using e2
      | Backward =>
        simp only [reduceCtorEq, if_false] at h1 h2
        subst h2
        subst r1
        rw [show q = m2 + Tm.m by omega]
        simp only [sh_zero] at e1 e2
        refine glueL (X := _) rfl ?_ ?_
        · simpa [hqe, add_comm m2] using e2
        · simpa [hqe, add_comm m2] using e1
    · rw [h1]; split <;> omega
    · rw [h2]; split <;> omega
  · simp only [reduceCtorEq, if_false] at hlb wn Vq ⊢
    simp only [WorkInfo.size, WorkInfo.ofMat] at wn
    refine wp_conseq (wp_larfbR (lbU_tri _ _) (duplo_tri dir) (lb_pair store) htc hlb rfl μ) ?_
    rintro _ ν ⟨fr, e1, e2⟩
    refine ⟨?_, fun l hC hW => fr l (fun ho => hC (ho.sub (le_refl _) ?_)) (fun ho => hC (ho.sub (le_refl _) ?_)) (fun ho => hW (wview_owns wn ho))⟩
    · rw [hH]
      rw [hU1, hU2] at e1 e2
      simp only [sh_entry] at e1 e2
      cases dir with
      | Forward =>
        simp only [if_true] at h1 h2
        subst h1 h2
        rw [hqe]
        simp only [sh_zero] at e1 e2
        refine glueR (X := _) rfl ?_ ?_
        · rw [add_comm (mat C.m Tm.m _ * _)]; simpa [hqe] using e1
        · rw [add_comm (mat C.m Tm.m _ * _)]; simpa [hqe] using e2
      | Backward =>
        simp only [reduceCtorEq, if_false] at h1 h2
        subst h2
        subst r1
        rw [show q = m2 + Tm.m by omega]
        simp only [sh_zero] at e1 e2
        refine glueR (X := _) rfl ?_ ?_
        · simpa [hqe, add_comm m2] using e2
        · simpa [hqe, add_comm m2] using e1
    · rw [h1]; split <;> omega
    · rw [h2]; split <;> omega

end TLA
