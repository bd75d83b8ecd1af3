import Verif.Proofs.Lu
import Verif.Proofs.LuMult
import Verif.Proofs.Trtri
import Verif.Proofs.MW

/-! Proofs about getri. -/

set_option linter.unusedTactic false
set_option linter.unreachableTactic false
set_option linter.unusedSectionVars false

namespace TLA
open Finset
variable {L T : Type} [DecidableEq L]

/-- One exchange of columns as vectors. -/
theorem wp_swapColsV {A : MatV L} {μ0 μ : Store L T} {G : Nat → Nat → T} {i p : Nat} (hA : A.Inj)
    (h : MState A μ0 G μ) (hi : i < A.n) (hp : p < A.n) (hne : p ≠ i) :
    wp (swapColsV A i p) μ (fun _ ν => MState A μ0 (fun r c => G r (Equiv.swap i p c)) ν) := by
  unfold swapColsV
  simp only [wp_bind]
  refine wp_sliceCol (Nat.zero_le _) (le_refl _) hi ?_
  refine wp_sliceCol (Nat.zero_le _) (le_refl _) hp ?_
  have hd : (A.colv 0 A.m i).Disj (A.colv 0 A.m p) := by
    rintro j hj ⟨j', hj', e⟩
    simp only [MatV.colv] at hj hj' e
    have := hA _ _ _ _ (by omega) hp (by omega) hi e
    omega
  refine wp_conseq (wp_swap (hA.colv (le_refl _) hi) (hA.colv (le_refl _) hp) rfl hd) ?_
  rintro _ ν ⟨h1, h2, h3⟩
  refine ⟨fun r c hr hc => ?_, fun l hl => ?_⟩
  · have e1 := h1 r (by simpa [MatV.colv] using hr)
    have e2 := h2 r (by simpa [MatV.colv] using hr)
    simp only [ventry, MatV.colv, Nat.zero_add] at e1 e2
    by_cases hri : c = i
    · subst hri
      rw [e1, Equiv.swap_apply_left, h.val r p hr hp]
    · by_cases hrp : c = p
      · subst hrp
        rw [e2, Equiv.swap_apply_right, h.val r i hr hi]
      · rw [Equiv.swap_apply_of_ne_of_ne hri hrp, ← h.val r c hr hc]
        refine h3 _ ?_ ?_
        · rintro ⟨j', hj', e⟩
          simp only [MatV.colv] at hj' e
          have := hA _ _ _ _ (by omega) hi hr hc e
          omega
        · rintro ⟨j', hj', e⟩
          simp only [MatV.colv] at hj' e
          have := hA _ _ _ _ (by omega) hp hr hc e
          omega
  · rw [h3 l (fun ho => hl (ho.colv (le_refl _) hi)) (fun ho => hl (ho.colv (le_refl _) hp)), h.frame l hl]

section
variable [Field T] [StarRing T] [ReIm T] [DecidableEq T]

/-- The final exchanges of getri. -/
theorem wp_getriSwaps {A : MatV L} {μ : Store L T} {piv : IArr} {n : Nat} (hA : A.Inj) (hk : n ≤ piv.n)
    (hn : A.n = n) (hp : ∀ j, j < n → piv.f j < n) :
    wp (getriSwaps A piv n) μ
      (fun _ ν => MState A μ (fun r c => entry μ A r ((pivPerm piv.f n).symm c)) ν) := by
  unfold getriSwaps
  refine wp_forDown_ (fun j ν => MState A μ (fun r c => entry μ A r ((pivPerm piv.f n).symm (pivPerm piv.f j c))) ν)
    (Nat.zero_le _) (MState.init A μ _ (fun _ _ _ _ => by rw [Equiv.symm_apply_apply]; rfl)) ?_ (fun _ h => h)
  intro j ν _ hj hν
  simp only [wp_bind]
  refine wp_iget (by omega) ?_
  by_cases e : piv.f j = j
  · rw [if_neg (by simpa using e), wp_pure]
    refine hν.congr (fun r c _ _ => ?_)
    rw [pivPerm_succ, e, Equiv.swap_self]; rfl
  · rw [if_pos e]
    refine wp_conseq (wp_swapColsV hA hν (by omega) (by rw [hn]; exact hp j hj) e) (fun _ _ h => h.congr (fun r c _ _ => ?_))
    rw [pivPerm_succ, Equiv.swap_apply_self]

/-- getri_uili: `A := U⁻¹ L⁻¹`. -/
theorem wp_getriUili {dbg : Bool} {n : Nat} {A : MatV L} {μ : Store L T} (h0 : 0 < n) (hm : A.m = n)
    (hn : A.n = n) (hA : A.Inj) (hd : ∀ i, i < n → entry μ A i i ≠ 0) :
    wp (getriUili dbg A) μ (fun r ν => r = 0 ∧ Only A μ ν ∧ mat n n (entry ν A) *
      (mat n n (triF .Lower .Unit (entry μ A)) * mat n n (triF .Upper .NonUnit (entry μ A))) = 1) := by
  unfold getriUili
  simp only [wp_bind, wp_check]
  rw [if_pos (by simp [hm, hn])]
  refine wp_conseq (wp_trtri (Or.inl rfl) n dbg A μ hm hn hA (fun _ => hd)) ?_
  rintro _ ν1 ⟨rfl, o1, e1⟩
  rw [if_neg (by simp)]
  simp only [wp_bind]
  refine wp_conseq (wp_trtri (diag := .Unit) (Or.inr rfl) n dbg A ν1 hm hn hA (by simp)) ?_
  rintro _ ν2 ⟨rfl, o2, e2⟩
  refine wp_conseq (wp_ulMult n h0 hm hn hA) ?_
  rintro _ ν3 ⟨o3, e3⟩
  rw [wp_pure]
  refine ⟨rfl, o1.only.trans (o2.only.trans o3), ?_⟩
  have c1 : ∀ i j, i < n → j < n → j < i → entry ν1 A i j = entry μ A i j := fun i j hi hj h =>
    o1.out hA (by omega) (by omega) (show ¬ i ≤ j by omega)
  have c2 : ∀ i j, i < n → j < n → i ≤ j → entry ν2 A i j = entry ν1 A i j := fun i j hi hj h =>
    o2.out hA (by omega) (by omega) (show ¬ j < i by omega)
  have t1 : mat n n (triF .Lower .Unit (entry ν1 A)) = mat n n (triF .Lower .Unit (entry μ A)) :=
    mat_triF_congr (by simp) (fun i j hi hj hne ht => c1 i j hi hj (by
      have : j ≤ i := ht
      omega))
  have t2 : mat n n (triF .Upper .NonUnit (entry ν2 A)) = mat n n (triF .Upper .NonUnit (entry ν1 A)) :=
    mat_triF_congr (fun _ i hi => c2 i i hi hi (le_refl _)) (fun i j hi hj hne ht => c2 i j hi hj ht)
  rw [e3, t2, Matrix.mul_assoc, ← Matrix.mul_assoc (mat n n (triF .Lower .Unit (entry ν2 A))), ← t1, e2,
    Matrix.one_mul, e1]

/-- getri_uili on a singular factor. -/
theorem wp_getriUili_fail {dbg : Bool} {n k : Nat} {A : MatV L} {μ : Store L T} (hm : A.m = n)
    (hn : A.n = n) (hA : A.Inj) (hk : k < n) (h0 : entry μ A k k = 0) (hlt : ∀ i, i < k → entry μ A i i ≠ 0) :
    wp (getriUili dbg A) μ (fun r ν => dbg = false ∧ r = k + 1 ∧ Only A μ ν)
      (fun e ν => dbg = true ∧ e = .runtime 1 ∧ Only A μ ν) := by
  unfold getriUili
  simp only [wp_bind, wp_check]
  rw [if_pos (by simp [hm, hn])]
  refine wp_mono (wp_trtri_fail (Or.inl rfl) n dbg A μ k hm hn hA hk h0 hlt) ?_ ?_
  · rintro _ ν ⟨rfl, rfl, o⟩
    rw [if_pos (by simp), wp_pure]
    exact ⟨rfl, rfl, o.only⟩
  · rintro e ν ⟨h1, h2, o⟩
    exact ⟨h1, h2, o.only⟩

/-- Block inverse of a product of triangular factors. -/
theorem uxli_block {t : Nat} {G X : Nat → Nat → T} (h0 : G 0 0 ≠ 0)
    (h11 : mat t t (sh 1 1 X) * (mat t t (triF .Lower .Unit (sh 1 1 G)) *
      mat t t (triF .Upper .NonUnit (sh 1 1 G))) = 1)
    (h01 : ∀ c, c < t → X 0 (1 + c) = (-1 / G 0 0) * ∑ l ∈ range t, X (1 + l) (1 + c) * G 0 (1 + l))
    (h00 : X 0 0 = 1 / G 0 0 - ∑ l ∈ range t, G (1 + l) 0 * X 0 (1 + l))
    (h10 : ∀ i, i < t → X (1 + i) 0 = -1 * ∑ l ∈ range t, X (1 + i) (1 + l) * G (1 + l) 0) :
    mat (1 + t) (1 + t) X * (mat (1 + t) (1 + t) (triF .Lower .Unit G) *
      mat (1 + t) (1 + t) (triF .Upper .NonUnit G)) = 1 := by
  have e01 : mat 1 t (sh 0 1 X) = (-1 / G 0 0) • (mat 1 t (sh 0 1 G) * mat t t (sh 1 1 X)) := by
    rw [mat_mul, mat_smul, mat_ext_iff]
    intro i c hi hc
    obtain rfl : i = 0 := by omega
    refine (h01 c hc).trans ?_
    congr 1
    exact Finset.sum_congr rfl (fun l _ => by simp only [sh, Nat.zero_add]; ring)
  have e00 : mat 1 1 X + mat 1 t (sh 0 1 X) * mat t 1 (sh 1 0 G) = mat 1 1 (fun _ _ => 1 / G 0 0) := by
    rw [mat_mul, mat_add, mat_ext_iff]
    intro i c hi hc
    obtain rfl : i = 0 := by omega
    obtain rfl : c = 0 := by omega
    rw [h00, sub_add_eq_add_sub, add_sub_assoc, ← Finset.sum_sub_distrib]
    rw [Finset.sum_eq_zero, add_zero]
    intro l _
    simp only [sh, Nat.zero_add, Nat.add_zero]; ring
  have e10 : mat t 1 (sh 1 0 X) + mat t t (sh 1 1 X) * mat t 1 (sh 1 0 G) = 0 := by
    rw [mat_mul, mat_add]
    funext i c
    obtain ⟨i, hi⟩ := i
    obtain rfl : c = 0 := Subsingleton.elim _ _
    show X (1 + i) (0 + 0) + _ = 0
    rw [Nat.add_zero, h10 i hi]
    simp [sh]
  have eL : mat 1 1 (triF .Lower .Unit G) = 1 := by
    rw [← mat_idF, mat_ext_iff]
    intro i j hi hj
    obtain rfl : i = 0 := by omega
    obtain rfl : j = 0 := by omega
    simp [triF, idF]
  have eU : mat 1 1 (triF .Upper .NonUnit G) = mat 1 1 G := by
    rw [mat_ext_iff]
    intro i j hi hj
    obtain rfl : i = 0 := by omega
    obtain rfl : j = 0 := by omega
    simp [triF]
  have eI : mat 1 1 (fun _ _ => 1 / G 0 0) * mat 1 1 G = 1 := by
    rw [mat_mul, ← mat_idF, mat_ext_iff]
    intro i j hi hj
    obtain rfl : i = 0 := by omega
    obtain rfl : j = 0 := by omega
    simp [idF, h0]
  rw [← Matrix.mul_assoc, mat_mulF, mat_mulF, ← mat_idF]
  have p00 : mat 1 1 (mulF (1 + t) X (triF .Lower .Unit G)) = mat 1 1 (fun _ _ => 1 / G 0 0) := by
    rw [← mat_mulF, mat_mul_inner, triL_10, eL, Matrix.mul_one, e00]
  have p01 : mat 1 t (sh 0 1 (mulF (1 + t) X (triF .Lower .Unit G))) =
      mat 1 t (sh 0 1 X) * mat t t (triF .Lower .Unit (sh 1 1 G)) := by
    rw [mat_mul_block, mat_mul_inner]
    simp only [sh_sh, sh_zero, Nat.zero_add, Nat.add_zero]
    rw [triL_01, Matrix.mul_zero, zero_add, triF_sh (Or.inr rfl)]
  have p10 : mat t 1 (sh 1 0 (mulF (1 + t) X (triF .Lower .Unit G))) = 0 := by
    rw [mat_mul_block, mat_mul_inner]
    simp only [sh_sh, sh_zero, Nat.zero_add, Nat.add_zero]
    rw [triL_10, eL, Matrix.mul_one, e10]
  have p11 : mat t t (sh 1 1 (mulF (1 + t) X (triF .Lower .Unit G))) =
      mat t t (sh 1 1 X) * mat t t (triF .Lower .Unit (sh 1 1 G)) := by
    rw [mat_mul_block, mat_mul_inner]
    simp only [sh_sh, sh_zero, Nat.zero_add, Nat.add_zero]
    rw [triL_01, Matrix.mul_zero, zero_add, triF_sh (Or.inr rfl)]
  refine mat_ext4 ?_ ?_ ?_ ?_
  · rw [← mat_mulF, mat_mul_inner, p00, p01, triU_10, Matrix.mul_zero, add_zero, eU, eI, mat_idF]
  · rw [mat_mul_block, mat_mul_inner]
    simp only [sh_sh, sh_zero, Nat.zero_add, Nat.add_zero]
    rw [p00, p01, triU_01, triF_sh (Or.inl rfl), mat_idF_01, e01, Matrix.smul_mul, Matrix.smul_mul,
      Matrix.mul_assoc, Matrix.mul_assoc, h11, Matrix.mul_one]
    funext i c
    obtain rfl : i = 0 := Subsingleton.elim _ _
    have : (mat 1 1 (fun _ _ => 1 / G 0 0) * mat 1 t (sh 0 1 G)) 0 c = 1 / G 0 0 * G 0 (1 + c) := by
      simp [Matrix.mul_apply, mat, sh]
    show (mat 1 1 (fun _ _ => 1 / G 0 0) * mat 1 t (sh 0 1 G)) 0 c + -1 / G 0 0 * G (0 + 0) (1 + c) = 0
    rw [this]; ring
  · rw [mat_mul_block, mat_mul_inner]
    simp only [sh_sh, sh_zero, Nat.zero_add, Nat.add_zero]
    rw [p10, p11, Matrix.zero_mul, zero_add, triU_10, Matrix.mul_zero, mat_idF_10]
  · rw [mat_mul_block, mat_mul_inner]
    simp only [sh_sh, sh_zero, Nat.zero_add, Nat.add_zero]
    rw [p10, p11, Matrix.zero_mul, zero_add, triF_sh (Or.inl rfl), Matrix.mul_assoc, h11, sh_idF, mat_idF]


/-- State of getri_uxli when the columns from `j` on are done. -/
structure UxliInv (A : MatV L) (W : VecV L) (μ : Store L T) (n j : Nat) (ν : Store L T) : Prop where
  frame : ∀ l, ¬ A.Owns l → ¬ W.Owns l → ν l = μ l
  same : ∀ i c, i < n → c < n → (i < j ∨ c < j) → entry ν A i c = entry μ A i c
  inv : mat (n - j) (n - j) (sh j j (entry ν A)) * (mat (n - j) (n - j) (triF .Lower .Unit (sh j j (entry μ A))) *
    mat (n - j) (n - j) (triF .Upper .NonUnit (sh j j (entry μ A)))) = 1

theorem wp_getriUxliStep {A : MatV L} {W : VecV L} {μ ν : Store L T} {n j : Nat} (hA : A.Inj) (hm : A.m = n)
    (hn : A.n = n) (hW : n - 1 ≤ W.n) (hWi : W.Inj) (hAW : A.DisjV W) (hj : j < n)
    (hd : entry μ A j j ≠ 0) (h : UxliInv A W μ n (j + 1) ν) :
    wp (getriUxliStep A W n j) ν (fun r ν' => r = none ∧ UxliInv A W μ n j ν') := by
  have hjj : ν (A.cell j j) = entry μ A j j := h.same j j hj hj (by omega)
  have hm0 : MW A W μ (entry ν A) ν := ⟨fun _ _ _ _ => rfl, h.frame⟩
  unfold getriUxliStep
  simp only [wp_bind]
  refine wp_getE ⟨by omega, by omega⟩ ?_
  rw [hjj, if_neg hd]
  by_cases hlast : j + 1 = n
  · rw [if_pos hlast]
    simp only [wp_bind]
    rw [wp_set]
    refine ⟨⟨by omega, by omega⟩, ?_⟩
    rw [wp_pure]
    have h1 := hm0.set (v := 1 / entry μ A j j) hA (show j < A.m by omega) (show j < A.n by omega)
    refine ⟨rfl, h1.frame, fun i c hi hc hic => ?_, ?_⟩
    · rw [h1.val i c (by omega) (by omega), if_neg (by omega)]
      exact h.same i c hi hc (by omega)
    · rw [show n - j = 1 by omega, mat_mul, mat_mul, ← mat_idF, mat_ext_iff]
      intro i c hi hc
      obtain rfl : i = 0 := by omega
      obtain rfl : c = 0 := by omega
      have := h1.val j j (by omega) (by omega)
      rw [if_pos ⟨rfl, rfl⟩] at this
      simp [sh, triF, idF, hd, -one_div, this]
  rw [if_neg hlast]
  obtain ⟨t, ht⟩ : ∃ t, n - (j + 1) = t := ⟨_, rfl⟩
  have ht0 : 0 < t := by omega
  simp only [wp_bind]
  refine wp_slice (by omega) (by omega) (by omega) (by omega) ?_
  refine wp_sliceCol (by omega) (by omega) (by omega) ?_
  refine wp_sliceRow (by omega) (by omega) (by omega) ?_
  refine wp_vslice (Nat.zero_le _) (by omega) ?_
  have hwW : ∀ l, (W.sub 0 (n - j - 1)).Owns l → W.Owns l := fun l ho => ho.sub (by omega)
  refine wp_conseq (wp_gemv_e (m := t) (n := t) ⟨by simp [MatV.sub, ht], by simp [MatV.sub, ht],
    by simp only [MatV.rowv]; omega, by simp only [VecV.sub]; omega, hWi.sub (by omega),
    hAW.sub (by omega) (by omega) (by omega), hAW.rowv (by omega) (by omega) (by omega)⟩ (Or.inl ht0)) ?_
  rintro _ ν1 ⟨o1, e1⟩
  have m1 := hm0.work hAW hwW o1
  refine wp_getE ⟨by omega, by omega⟩ ?_
  rw [m1.at j j (by omega) (by omega) (show entry ν A j j = entry μ A j j from hjj)]
  refine wp_conseq (wp_dotu (by simp only [VecV.sub, MatV.colv]; omega)) ?_
  rintro d ν1' ⟨hdot, rfl⟩
  rw [wp_set]
  refine ⟨⟨by omega, by omega⟩, ?_⟩
  have m2 := m1.set (v := 1 / entry μ A j j - d) hA (show j < A.m by omega) (show j < A.n by omega)
  have w2 : ∀ c, c < t → ventry (upd ν1' (A.cell j j) (1 / entry μ A j j - d)) (W.sub 0 (n - j - 1)) c =
      ventry ν1' (W.sub 0 (n - j - 1)) c := by
    intro c hc
    unfold ventry upd
    rw [if_neg]
    intro he
    exact hAW j j (by omega) (by omega) ⟨0 + c, by omega, he⟩
  generalize hν2 : upd ν1' (A.cell j j) (1 / entry μ A j j - d) = ν2 at m2 w2
  refine wp_conseq (wp_copy (hA.rowv (by omega) (by omega)) (by simp only [VecV.sub, MatV.rowv]; omega)
    (VecV.Disj.symm (hAW.rowv (by omega) (by omega) (by omega))) (VState.init _ _ (ventry ν2 _) (fun _ _ => rfl))) ?_
  intro _ ν3 h3
  have m3 := m2.row hA (by omega) (by omega) h3
  refine wp_conseq (wp_gemv_e (m := t) (n := t) ⟨by simp [MatV.sub, ht], by simp [MatV.sub, ht],
    by simp only [MatV.colv]; omega, by simp only [VecV.sub]; omega, hWi.sub (by omega),
    hAW.sub (by omega) (by omega) (by omega), hAW.colv (by omega) (by omega) (by omega)⟩ (Or.inl ht0)) ?_
  rintro _ ν4 ⟨o4, e4⟩
  have m4 := m3.work hAW hwW o4
  refine wp_conseq (wp_copy (hA.colv (by omega) (by omega)) (by simp only [VecV.sub, MatV.colv]; omega)
    (VecV.Disj.symm (hAW.colv (by omega) (by omega) (by omega))) (VState.init _ _ (ventry ν4 _) (fun _ _ => rfl))) ?_
  intro _ ν5 h5
  have m5 := m4.col hA (by omega) (by omega) h5
  rw [wp_pure]
  have hwn : (W.sub 0 (n - j - 1)).n = t := by simp only [VecV.sub]; omega
  simp only [hwn] at m3 m4 m5 e1 e4
  -- the new entries
  have v11 : ∀ i c, i < t → c < t → entry ν5 A (j + 1 + i) (j + 1 + c) = entry ν A (j + 1 + i) (j + 1 + c) := by
    intro i c hi hc
    rw [m5.val _ _ (by omega) (by omega)]
    rw [if_neg (by omega), if_neg (by omega), if_neg (by omega)]
  have v11' : ∀ i c, i < t → c < t → entry ν3 A (j + 1 + i) (j + 1 + c) = entry ν A (j + 1 + i) (j + 1 + c) := by
    intro i c hi hc
    rw [m3.val _ _ (by omega) (by omega)]
    rw [if_neg (by omega), if_neg (by omega)]
  have vl : ∀ i, i < t → entry ν3 A (j + 1 + i) j = entry μ A (j + 1 + i) j := by
    intro i hi
    rw [m3.val _ _ (by omega) (by omega)]
    rw [if_neg (by omega), if_neg (by omega)]
    exact h.same _ _ (by omega) (by omega) (by omega)
  have v01 : ∀ c, c < t → entry ν5 A j (j + 1 + c) =
      (-1 / entry μ A j j) * ∑ l ∈ range t, entry ν A (j + 1 + l) (j + 1 + c) * entry μ A j (j + 1 + l) := by
    intro c hc
    rw [m5.val _ _ (by omega) (by omega)]
    rw [if_neg (by omega), if_pos (by omega), show j + 1 + c - (j + 1) = c by omega, if_pos hc, w2 c hc,
      e1 c hc]
    simp only [Coef.toVal, zero_mul, add_zero]
    congr 1
    refine Finset.sum_congr rfl (fun l hl => ?_)
    have hl := Finset.mem_range.1 hl
    rw [← h.same j (j + 1 + l) (by omega) (by omega) (by omega)]
    rfl
  have v00 : entry ν5 A j j = 1 / entry μ A j j -
      ∑ l ∈ range t, entry μ A (j + 1 + l) j * entry ν5 A j (j + 1 + l) := by
    rw [m5.val j j (by omega) (by omega)]
    rw [if_neg (by omega), if_neg (by omega), if_pos ⟨rfl, rfl⟩, hdot]
    have : (A.colv (j + 1) n j).n = t := by simp only [MatV.colv]; omega
    rw [this, foldUp0_sum, zero_add]
    congr 1
    refine Finset.sum_congr rfl (fun l hl => ?_)
    have hl := Finset.mem_range.1 hl
    rw [m5.val j (j + 1 + l) (by omega) (by omega)]
    rw [if_neg (by omega), if_pos (by omega), show j + 1 + l - (j + 1) = l by omega, if_pos hl, w2 l hl]
    congr 1
    have := m1.val (j + 1 + l) j (by omega) (by omega)
    rw [h.same _ _ (by omega) (by omega) (by omega)] at this
    exact this
  have v10 : ∀ i, i < t → entry ν5 A (j + 1 + i) j =
      -1 * ∑ l ∈ range t, entry ν A (j + 1 + i) (j + 1 + l) * entry μ A (j + 1 + l) j := by
    intro i hi
    rw [m5.val _ _ (by omega) (by omega)]
    rw [if_pos (by omega), show j + 1 + i - (j + 1) = i by omega, if_pos hi, e4 i hi]
    simp only [Coef.toVal, zero_mul, add_zero]
    congr 1
    refine Finset.sum_congr rfl (fun l hl => ?_)
    have hl := Finset.mem_range.1 hl
    rw [← v11' i l hi hl, ← vl l hl]
    rfl
  refine ⟨rfl, m5.frame, fun i c hi hc hic => ?_, ?_⟩
  · rw [m5.val i c (by omega) (by omega)]
    rw [if_neg (by omega), if_neg (by omega), if_neg (by omega)]
    exact h.same i c hi hc (by omega)
  · have hinv := h.inv
    rw [ht] at hinv
    rw [show n - j = 1 + t by omega]
    refine uxli_block hd ?_ (fun c hc => ?_) ?_ (fun i hi => ?_)
    · simp only [sh_sh]
      refine Eq.trans ?_ hinv
      congr 1
      rw [mat_ext_iff]
      intro i c hi hc
      exact v11 i c hi hc
    · have := v01 c hc
      simp only [sh, Nat.add_zero, show j + (1 + c) = j + 1 + c by omega]
      rw [this]
      congr 1
      refine Finset.sum_congr rfl (fun l hl => ?_)
      have hl := Finset.mem_range.1 hl
      rw [show j + (1 + l) = j + 1 + l by omega, v11 l c hl hc]
    · simp only [sh, Nat.add_zero]
      rw [v00]
      congr 1
      refine Finset.sum_congr rfl (fun l _ => ?_)
      rw [show j + (1 + l) = j + 1 + l by omega]
    · have := v10 i hi
      simp only [sh, Nat.add_zero, show j + (1 + i) = j + 1 + i by omega]
      rw [this]
      congr 1
      refine Finset.sum_congr rfl (fun l hl => ?_)
      have hl := Finset.mem_range.1 hl
      rw [show j + (1 + l) = j + 1 + l by omega, v11 i l hi hl]

theorem UxliInv.start (A : MatV L) (W : VecV L) (μ : Store L T) (n : Nat) : UxliInv A W μ n n μ := by
  refine ⟨fun _ _ _ => rfl, fun _ _ _ _ _ => rfl, ?_⟩
  rw [Nat.sub_self]
  exact Subsingleton.elim _ _

theorem wp_getriUxliLoop {A : MatV L} {W : VecV L} {μ : Store L T} {n : Nat} (hA : A.Inj) (hm : A.m = n)
    (hn : A.n = n) (hW : n - 1 ≤ W.n) (hWi : W.Inj) (hAW : A.DisjV W) : ∀ (j : Nat) {ν : Store L T},
    j ≤ n → (∀ i, i < j → entry μ A i i ≠ 0) → UxliInv A W μ n j ν →
    wp (getriUxliLoop A W n j) ν (fun r ν' => r = 0 ∧ UxliInv A W μ n 0 ν') := by
  intro j
  induction j with
  | zero => intro ν _ _ h; exact ⟨rfl, h⟩
  | succ j ih =>
    intro ν hj hd h
    unfold getriUxliLoop
    simp only [wp_bind]
    refine wp_conseq (wp_getriUxliStep hA hm hn hW hWi hAW (by omega) (hd j (by omega)) h) ?_
    rintro _ ν' ⟨rfl, h'⟩
    exact ih (by omega) (fun i hi => hd i (by omega)) h'

theorem wp_getriUxliLoop_fail {A : MatV L} {W : VecV L} {μ : Store L T} {n k : Nat} (hA : A.Inj) (hm : A.m = n)
    (hn : A.n = n) (hW : n - 1 ≤ W.n) (hWi : W.Inj) (hAW : A.DisjV W) : ∀ (j : Nat) {ν : Store L T},
    j ≤ n → k < j → entry μ A k k = 0 → (∀ i, k < i → i < j → entry μ A i i ≠ 0) → UxliInv A W μ n j ν →
    wp (getriUxliLoop A W n j) ν (fun r ν' => r = k + 1 ∧ ∀ l, ¬ A.Owns l → ¬ W.Owns l → ν' l = μ l) := by
  intro j
  induction j with
  | zero => intro ν _ h; omega
  | succ j ih =>
    intro ν hj hk h0 hd h
    unfold getriUxliLoop
    simp only [wp_bind]
    by_cases e : k = j
    · subst e
      unfold getriUxliStep
      simp only [wp_bind]
      refine wp_getE ⟨by omega, by omega⟩ ?_
      rw [if_pos (show ν (A.cell k k) = 0 from (h.same k k (by omega) (by omega) (by omega)).trans h0)]
      exact ⟨rfl, h.frame⟩
    · refine wp_conseq (wp_getriUxliStep hA hm hn hW hWi hAW (by omega) (hd j (by omega) (by omega)) h) ?_
      rintro _ ν' ⟨rfl, h'⟩
      exact ih (by omega) (by omega) h0 (fun i h1 h2 => hd i h1 (by omega)) h'

end
end TLA
