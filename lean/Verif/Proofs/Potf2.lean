import Verif.Proofs.Chol

set_option linter.unusedTactic false
set_option linter.unreachableTactic false

/-! potf2 and the blocked variants. -/

namespace TLA
variable {L 𝕜 : Type} [DecidableEq L] [RCLike 𝕜]
open Finset

omit [DecidableEq L] in
theorem wp_forStep {ρ : Type} {nb n : Nat} {body : Nat → M L 𝕜 (Option ρ)}
    {Q : Option ρ → Store L 𝕜 → Prop} {E} (I : Nat → Store L 𝕜 → Prop) (hnb : 0 < nb)
    (hs : ∀ j ν, j < n → I j ν → wp (body j) ν
      (fun r ν' => match r with | none => I (j + nb) ν' | some r => Q (some r) ν') E)
    (hQ : ∀ j ν, n ≤ j → I j ν → Q none ν) :
    ∀ j μ, I j μ → wp (forStep nb n body j) μ Q E := by
  intro j
  induction hk : n - j using Nat.strong_induction_on generalizing j with
  | _ k ih =>
    intro μ h0
    rw [forStep]
    by_cases hj : j < n
    · rw [dif_pos hj]
      simp only [wp_bind]
      refine wp_mono (hs j μ hj h0) ?_ (fun _ _ h => h)
      intro r ν hr
      cases r with
      | none =>
        simp only at hr ⊢
        rw [dif_neg (by omega)]
        exact ih (n - (j + nb)) (by omega) (j + nb) rfl ν hr
      | some r => exact hr
    · rw [dif_neg hj]
      exact hQ j μ (by omega) h0

theorem wp_conjugate_e {x : VecV L} {μ : Store L 𝕜} (hx : x.Inj) :
    wp (conjugate x) μ (fun _ ν => OnlyV x μ ν ∧
      ∀ i, i < x.n → ventry ν x i = star (ventry μ x i)) :=
  wp_conseq (wp_conjugate hx (VState.init x μ (ventry μ x) (fun _ _ => rfl)))
    (fun _ _ h => ⟨h.frame, h.val⟩)

theorem wp_scal_e {x : VecV L} {μ : Store L 𝕜} {alpha : 𝕜} (hx : x.Inj) :
    wp (scal alpha x) μ (fun _ ν => OnlyV x μ ν ∧
      ∀ i, i < x.n → ventry ν x i = ventry μ x i * alpha) :=
  wp_conseq (wp_scal hx (VState.init x μ (ventry μ x) (fun _ _ => rfl)))
    (fun _ _ h => ⟨h.frame, h.val⟩)

/-- State of potf2 before step `j`. -/
structure Potf2Inv (uplo : Uplo) (A : MatV L) (n : Nat) (μ : Store L 𝕜) (j : Nat)
    (ν : Store L 𝕜) : Prop where
  le : j ≤ n
  off : SameOff A uplo μ ν
  rest : ∀ i c, j ≤ i → i ≤ c → c < n → rowsF uplo (entry ν A) i c = rowsF uplo (entry μ A) i c
  rows : CholRows (hermF uplo (entry μ A)) (rowsF uplo (entry ν A)) j n

/-- What one successful step has to do to the stored factor. -/
theorem Potf2Inv.next {uplo : Uplo} (hu : uplo = .Upper ∨ uplo = .Lower) {A : MatV L} {n : Nat}
    {μ : Store L 𝕜} {j : Nat} {ν ν' : Store L 𝕜} (h : Potf2Inv uplo A n μ j ν) (hj : j < n)
    (off : SameOff A uplo ν ν')
    (same : ∀ i c, i ≤ c → c < n → i ≠ j →
      rowsF uplo (entry ν' A) i c = rowsF uplo (entry ν A) i c)
    {p : ℝ} (hp : 0 < p)
    (hpiv : ((p : ℝ) : 𝕜) = re (rowsF uplo (entry ν A) j j) -
      ∑ l ∈ range j, star (rowsF uplo (entry ν A) l j) * rowsF uplo (entry ν A) l j)
    (diag : rowsF uplo (entry ν' A) j j = ((Real.sqrt p : ℝ) : 𝕜))
    (row : ∀ c, j < c → c < n → rowsF uplo (entry ν' A) j c =
      (rowsF uplo (entry ν A) j c - ∑ l ∈ range j, star (rowsF uplo (entry ν A) l j) *
        rowsF uplo (entry ν A) l c) / ((Real.sqrt p : ℝ) : 𝕜)) :
    Potf2Inv uplo A n μ (j + 1) ν' := by
  have hs0 : ((Real.sqrt p : ℝ) : 𝕜) ≠ 0 := by
    have := Real.sqrt_pos.2 hp
    exact_mod_cast this.ne'
  refine ⟨hj, h.off.trans off, fun i c h1 h2 h3 => ?_, fun i c hi hic hc => ?_, fun i hi => ?_⟩
  · rw [same i c h2 h3 (by omega), h.rest i c (by omega) h2 h3]
  · have hsum : ∀ l, l < j → ∀ c, l ≤ c → c < n → rowsF uplo (entry ν' A) l c = rowsF uplo (entry ν A) l c :=
      fun l hl c h1 h2 => same l c h1 h2 (by omega)
    by_cases hc1 : i < j
    · rw [← h.rows.eq i c hc1 hic hc]
      refine Finset.sum_congr rfl (fun l hl => ?_)
      have := Finset.mem_range.1 hl
      rw [hsum l (by omega) i (by omega) (by omega), hsum l (by omega) c (by omega) hc]
    · obtain rfl : i = j := by omega
      rw [Finset.sum_range_succ]
      have e1 : ∑ l ∈ range i, star (rowsF uplo (entry ν' A) l i) * rowsF uplo (entry ν' A) l c =
          ∑ l ∈ range i, star (rowsF uplo (entry ν A) l i) * rowsF uplo (entry ν A) l c := by
        refine Finset.sum_congr rfl (fun l hl => ?_)
        have := Finset.mem_range.1 hl
        rw [hsum l (by omega) i (by omega) (by omega), hsum l (by omega) c (by omega) hc]
      rw [e1, diag, hermF_rows hu _ hic]
      by_cases hc2 : i = c
      · subst hc2
        rw [diag, sqrt_ok hp, hpiv, if_pos rfl, h.rest i i (le_refl _) (le_refl _) hc]
        ring
      · rw [if_neg hc2, row c (by omega) hc, RCLike.star_def, RCLike.conj_ofReal,
          mul_div_cancel₀ _ hs0, h.rest i c (le_refl _) hic hc]
        ring
  · by_cases hc1 : i < j
    · rw [same i i (le_refl _) (by omega) (by omega)]; exact h.rows.pos i hc1
    · obtain rfl : i = j := by omega
      rw [diag]
      simp [hp]

/-- The breakdown. -/
theorem Potf2Inv.fail {uplo : Uplo} (hu : uplo = .Upper ∨ uplo = .Lower) {A : MatV L} {n : Nat}
    {μ : Store L 𝕜} {j : Nat} {ν : Store L 𝕜} (h : Potf2Inv uplo A n μ j ν) (hj : j < n)
    (hp : RCLike.re (rowsF uplo (entry ν A) j j) ≤
      RCLike.re (∑ l ∈ range j, star (rowsF uplo (entry ν A) l j) * rowsF uplo (entry ν A) l j)) :
    CholFail (hermF uplo (entry μ A)) j := by
  refine ⟨_, h.rows.mono (le_refl _) (by omega), ?_⟩
  rw [hermF_rows hu _ (le_refl _), if_pos rfl, re_def, RCLike.ofReal_re,
    ← h.rest j j (le_refl _) (le_refl _) hj]
  exact hp

/-- Post-condition of a step. -/
def Potf2Step (thr : Bool) (uplo : Uplo) (A : MatV L) (n : Nat) (μ : Store L 𝕜) (j : Nat) (r : Option Nat)
    (ν' : Store L 𝕜) : Prop :=
  match r with
  | none => Potf2Inv uplo A n μ (j + 1) ν'
  | some k => thr = false ∧ k = j + 1 ∧ SameOff A uplo μ ν' ∧ CholFail (hermF uplo (entry μ A)) j

theorem wp_potf2UStep {thr : Bool} {A : MatV L} {n : Nat} (hA : A.Inj) (hm : A.m = n) (hn : A.n = n)
    {μ : Store L 𝕜} {j : Nat} {ν : Store L 𝕜} (hj : j < n) (h : Potf2Inv .Upper A n μ j ν) :
    wp (potf2UStep thr A n j) ν (Potf2Step thr .Upper A n μ j)
      (CholThrow thr (· + 1) .Upper A n μ) := by
  unfold potf2UStep
  simp only [wp_bind]
  refine wp_sliceCol (by omega) (by omega) (by omega) ?_
  refine wp_getE ⟨by omega, by omega⟩ ?_
  refine wp_mono (wp_dot (E := fun _ _ => False) rfl) ?_ (fun _ _ h => h.elim)
  rintro d ν0 ⟨hd, rfl⟩
  rw [foldUp0_add, zero_add] at hd
  have hd' : d = ∑ l ∈ range j, star (rowsF .Upper (entry ν0 A) l j) * rowsF .Upper (entry ν0 A) l j := by
    rw [hd]
    show ∑ i ∈ range (j - 0), _ = _
    rw [Nat.sub_zero]
    refine Finset.sum_congr rfl (fun l _ => ?_)
    simp only [ventry, MatV.colv, zero_add]; rfl
  have ha : ν0 (A.cell j j) = rowsF .Upper (entry ν0 A) j j := rfl
  rw [ha]
  obtain ⟨p, hpdef⟩ : ∃ p : ℝ, p = RCLike.re (rowsF .Upper (entry ν0 A) j j) - RCLike.re d := ⟨_, rfl⟩
  have hpiv : (re (rowsF .Upper (entry ν0 A) j j) - re d : 𝕜) = ((p : ℝ) : 𝕜) := by
    rw [hpdef, re_def, re_def]; push_cast; ring
  rw [hpiv]
  have hpiv' : ((p : ℝ) : 𝕜) = re (rowsF .Upper (entry ν0 A) j j) -
      ∑ l ∈ range j, star (rowsF .Upper (entry ν0 A) l j) * rowsF .Upper (entry ν0 A) l j := by
    rw [← hpiv, hd', re_sum_selfAdj]
  have hsq : (RealOps.sqrt ((p : ℝ) : 𝕜) : 𝕜) = ((Real.sqrt p : ℝ) : 𝕜) := by simp [RealOps.sqrt]
  by_cases hp : 0 < p
  · rw [if_pos (by simpa [RealOps.lt] using hp), hsq]
    simp only [wp_bind]
    refine wp_conseq (wp_set.2 ⟨⟨by omega, by omega⟩, ?_⟩) (fun _ _ h => h)
    generalize hν1 : upd ν0 (A.cell j j) ((Real.sqrt p : ℝ) : 𝕜) = ν1
    have v1 : entry ν1 A j j = ((Real.sqrt p : ℝ) : 𝕜) := by rw [← hν1]; exact upd_in
    have c1 : ∀ i c, i < n → c < n → (i ≠ j ∨ c ≠ j) → entry ν1 A i c = entry ν0 A i c := by
      intro i c hi hc ho
      rw [← hν1]
      exact upd_out hA (by omega) (by omega) (by omega) (by omega) ho
    have o1 : SameOff A .Upper ν0 ν1 := by
      rw [← hν1]; exact upd_sameOff (by omega) (by omega) (le_refl j)
    by_cases hlast : j + 1 < n
    · rw [if_pos hlast]
      simp only [wp_bind]
      refine wp_slice (by omega) (by omega) (by omega) (by omega) ?_
      refine wp_sliceRow (by omega) (by omega) (by omega) ?_
      refine wp_conseq (wp_conjugate_e (hA.colv (by omega) (by omega))) ?_
      rintro _ ν2 ⟨o2, e2⟩
      refine wp_conseq (wp_gemv_e (m := n - (j + 1)) (n := j) ⟨rfl, rfl, rfl, rfl,
        hA.rowv (by omega) (by omega), ?_, ?_⟩ (Or.inr rfl)) ?_
      · rintro a b ha hb ⟨c, hc, e⟩
        simp only [MatV.sub, MatV.rowv] at ha hb hc e
        have := hA _ _ _ _ (by omega) (by omega) (by omega) (by omega) e
        omega
      · rintro a ha ⟨c, hc, e⟩
        simp only [MatV.colv, MatV.rowv] at ha hc e
        have := hA _ _ _ _ (by omega) (by omega) (by omega) (by omega) e
        omega
      rintro _ ν3 ⟨o3, e3⟩
      refine wp_conseq (wp_conjugate_e (hA.colv (by omega) (by omega))) ?_
      rintro _ ν4 ⟨o4, e4⟩
      refine wp_conseq (wp_scal_e (hA.rowv (by omega) (by omega))) ?_
      rintro _ ν5 ⟨o5, e5⟩
      have c2 : ∀ i c, i < n → c < n → (j ≤ i ∨ c ≠ j) → entry ν2 A i c = entry ν1 A i c :=
        fun i c hi hc ho => o2.outCol hA (by omega) (by omega) (by omega) (by omega) (by omega)
      have c3 : ∀ i c, i < n → c < n → (i ≠ j ∨ c ≤ j) → entry ν3 A i c = entry ν2 A i c :=
        fun i c hi hc ho => o3.outRow hA (by omega) (by omega) (by omega) (by omega) (by omega)
      have c4 : ∀ i c, i < n → c < n → (j ≤ i ∨ c ≠ j) → entry ν4 A i c = entry ν3 A i c :=
        fun i c hi hc ho => o4.outCol hA (by omega) (by omega) (by omega) (by omega) (by omega)
      have c5 : ∀ i c, i < n → c < n → (i ≠ j ∨ c ≤ j) → entry ν5 A i c = entry ν4 A i c :=
        fun i c hi hc ho => o5.outRow hA (by omega) (by omega) (by omega) (by omega) (by omega)
      have f2 : ∀ i, i < j → entry ν2 A i j = star (entry ν0 A i j) := by
        intro i hi
        have := e2 i (by simp only [MatV.colv]; omega)
        simp only [ventry, MatV.colv, zero_add] at this
        rw [entry, this]
        exact congrArg star (c1 i j (by omega) (by omega) (by omega))
      have f4 : ∀ i, i < j → entry ν4 A i j = entry ν0 A i j := by
        intro i hi
        have := e4 i (by simp only [MatV.colv]; omega)
        simp only [ventry, MatV.colv, zero_add] at this
        rw [entry, this]
        have h3 : ν3 (A.cell i j) = star (entry ν0 A i j) :=
          (c3 i j (by omega) (by omega) (by omega)).trans (f2 i hi)
        rw [h3, star_star]
      refine Potf2Inv.next (Or.inl rfl) h hj ?_ ?_ hp hpiv' ?_ ?_
      · refine (((o1.trans (o2.sameOffCol (by omega) (by omega) ?_)).trans
          (o3.sameOffRow (by omega) (by omega) ?_)).trans
          (o4.sameOffCol (by omega) (by omega) ?_)).trans (o5.sameOffRow (by omega) (by omega) ?_)
        all_goals intro c h1 h2
        · exact show c ≤ j by omega
        · exact show j ≤ c by omega
        · exact show c ≤ j by omega
        · exact show j ≤ c by omega
      · intro i c hic hc hij
        rw [rowsF_U, rowsF_U, c5 i c (by omega) hc (by omega)]
        by_cases hcj : c = j
        · subst hcj
          exact f4 i (by omega)
        · rw [c4 i c (by omega) hc (by omega), c3 i c (by omega) hc (by omega),
            c2 i c (by omega) hc (by omega), c1 i c (by omega) hc (by omega)]
      · rw [rowsF_U, c5 j j hj hj (by omega), c4 j j hj hj (by omega), c3 j j hj hj (by omega),
          c2 j j hj hj (by omega), v1]
      · intro c hc1 hc
        obtain ⟨b, rfl⟩ := Nat.exists_eq_add_of_le (show j + 1 ≤ c by omega)
        have g5 := e5 b (by simp only [MatV.rowv]; omega)
        have g3 := e3 b (by simp only [MatV.rowv]; omega)
        simp only [ventry, MatV.rowv, opF, Coef.toVal, MatV.sub, entry, MatV.colv, zero_add] at g5 g3
        rw [rowsF_U, entry, g5]
        have h4 : ν4 (A.cell j (j + 1 + b)) = ν3 (A.cell j (j + 1 + b)) :=
          c4 _ _ (by omega) (by omega) (by omega)
        rw [h4, g3, one_mul, mul_one_div]
        have h2 : ν2 (A.cell j (j + 1 + b)) = entry ν0 A j (j + 1 + b) :=
          (c2 _ _ (by omega) (by omega) (by omega)).trans (c1 _ _ (by omega) (by omega) (by omega))
        rw [h2]
        have hs : ∑ l ∈ range j, ν2 (A.cell l (j + 1 + b)) * ν2 (A.cell l j) =
            ∑ l ∈ range j, star (rowsF .Upper (entry ν0 A) l j) *
              rowsF .Upper (entry ν0 A) l (j + 1 + b) := by
          refine Finset.sum_congr rfl (fun l hl => ?_)
          have hl' := Finset.mem_range.1 hl
          have q1 : ν2 (A.cell l j) = star (entry ν0 A l j) := f2 l hl'
          have q2 : ν2 (A.cell l (j + 1 + b)) = entry ν0 A l (j + 1 + b) :=
            (c2 _ _ (by omega) (by omega) (by omega)).trans (c1 _ _ (by omega) (by omega) (by omega))
          rw [q1, q2, rowsF_U, rowsF_U, mul_comm]
        rw [hs]
        congr 1
        show _ = entry ν0 A j (j + 1 + b) - _
        ring
    · rw [if_neg hlast]
      simp only [wp_pure]
      refine Potf2Inv.next (Or.inl rfl) h hj o1 ?_ hp hpiv' v1 (fun c h1 h2 => by omega)
      intro i c hic hc hij
      exact c1 i c (by omega) hc (Or.inl hij)
  · rw [if_neg (by simpa [RealOps.lt] using hp)]
    have hf := Potf2Inv.fail (Or.inl rfl) h hj (by rw [← hd']; linarith)
    simp only [wp_bind, wp_raise]
    cases thr
    · rw [if_neg (by decide)]
      exact ⟨rfl, rfl, h.off, hf⟩
    · rw [if_pos rfl]
      exact ⟨rfl, h.off, j, hj, rfl, hf⟩


theorem wp_potf2LStep {thr : Bool} {A : MatV L} {n : Nat} (hA : A.Inj) (hm : A.m = n) (hn : A.n = n)
    {μ : Store L 𝕜} {j : Nat} {ν : Store L 𝕜} (hj : j < n) (h : Potf2Inv .Lower A n μ j ν) :
    wp (potf2LStep thr A n j) ν (Potf2Step thr .Lower A n μ j)
      (CholThrow thr (· + 1) .Lower A n μ) := by
  unfold potf2LStep
  simp only [wp_bind]
  refine wp_sliceRow (by omega) (by omega) (by omega) ?_
  refine wp_getE ⟨by omega, by omega⟩ ?_
  refine wp_mono (wp_dot (E := fun _ _ => False) rfl) ?_ (fun _ _ h => h.elim)
  rintro d ν0 ⟨hd, rfl⟩
  rw [foldUp0_add, zero_add] at hd
  have hd' : d = ∑ l ∈ range j, star (rowsF .Lower (entry ν0 A) l j) * rowsF .Lower (entry ν0 A) l j := by
    rw [hd]
    show ∑ i ∈ range (j - 0), _ = _
    rw [Nat.sub_zero]
    refine Finset.sum_congr rfl (fun l _ => ?_)
    rw [rowsF_L, star_star, mul_comm]
    simp only [ventry, MatV.rowv, zero_add]; rfl
  have ha : (re (ν0 (A.cell j j)) : 𝕜) = re (rowsF .Lower (entry ν0 A) j j) := by
    rw [rowsF_L, re_star']; rfl
  rw [ha]
  obtain ⟨p, hpdef⟩ : ∃ p : ℝ, p = RCLike.re (rowsF .Lower (entry ν0 A) j j) - RCLike.re d := ⟨_, rfl⟩
  have hpiv : (re (rowsF .Lower (entry ν0 A) j j) - re d : 𝕜) = ((p : ℝ) : 𝕜) := by
    rw [hpdef, re_def, re_def]; push_cast; ring
  rw [hpiv]
  have hpiv' : ((p : ℝ) : 𝕜) = re (rowsF .Lower (entry ν0 A) j j) -
      ∑ l ∈ range j, star (rowsF .Lower (entry ν0 A) l j) * rowsF .Lower (entry ν0 A) l j := by
    rw [← hpiv, hd', re_sum_selfAdj]
  have hsq : (RealOps.sqrt ((p : ℝ) : 𝕜) : 𝕜) = ((Real.sqrt p : ℝ) : 𝕜) := by simp [RealOps.sqrt]
  by_cases hp : 0 < p
  · rw [if_pos (by simpa [RealOps.lt] using hp), hsq]
    simp only [wp_bind]
    refine wp_conseq (wp_set.2 ⟨⟨by omega, by omega⟩, ?_⟩) (fun _ _ h => h)
    generalize hν1 : upd ν0 (A.cell j j) ((Real.sqrt p : ℝ) : 𝕜) = ν1
    have v1 : entry ν1 A j j = ((Real.sqrt p : ℝ) : 𝕜) := by rw [← hν1]; exact upd_in
    have c1 : ∀ i c, i < n → c < n → (i ≠ j ∨ c ≠ j) → entry ν1 A i c = entry ν0 A i c := by
      intro i c hi hc ho
      rw [← hν1]
      exact upd_out hA (by omega) (by omega) (by omega) (by omega) ho
    have o1 : SameOff A .Lower ν0 ν1 := by
      rw [← hν1]; exact upd_sameOff (by omega) (by omega) (le_refl j)
    have sreal : star ((Real.sqrt p : ℝ) : 𝕜) = ((Real.sqrt p : ℝ) : 𝕜) := by
      rw [RCLike.star_def, RCLike.conj_ofReal]
    by_cases hlast : j + 1 < n
    · rw [if_pos hlast]
      simp only [wp_bind]
      refine wp_slice (by omega) (by omega) (by omega) (by omega) ?_
      refine wp_sliceCol (by omega) (by omega) (by omega) ?_
      refine wp_conseq (wp_conjugate_e (hA.rowv (by omega) (by omega))) ?_
      rintro _ ν2 ⟨o2, e2⟩
      refine wp_conseq (wp_gemv_e (m := n - (j + 1)) (n := j) ⟨rfl, rfl, rfl, rfl,
        hA.colv (by omega) (by omega), ?_, ?_⟩ (Or.inr rfl)) ?_
      · rintro a b ha hb ⟨c, hc, e⟩
        simp only [MatV.sub, MatV.colv] at ha hb hc e
        have := hA _ _ _ _ (by omega) (by omega) (by omega) (by omega) e
        omega
      · rintro a ha ⟨c, hc, e⟩
        simp only [MatV.colv, MatV.rowv] at ha hc e
        have := hA _ _ _ _ (by omega) (by omega) (by omega) (by omega) e
        omega
      rintro _ ν3 ⟨o3, e3⟩
      refine wp_conseq (wp_conjugate_e (hA.rowv (by omega) (by omega))) ?_
      rintro _ ν4 ⟨o4, e4⟩
      refine wp_conseq (wp_scal_e (hA.colv (by omega) (by omega))) ?_
      rintro _ ν5 ⟨o5, e5⟩
      have c2 : ∀ i c, i < n → c < n → (j ≤ c ∨ i ≠ j) → entry ν2 A i c = entry ν1 A i c :=
        fun i c hi hc ho => o2.outRow hA (by omega) (by omega) (by omega) (by omega) (by omega)
      have c3 : ∀ i c, i < n → c < n → (c ≠ j ∨ i ≤ j) → entry ν3 A i c = entry ν2 A i c :=
        fun i c hi hc ho => o3.outCol hA (by omega) (by omega) (by omega) (by omega) (by omega)
      have c4 : ∀ i c, i < n → c < n → (j ≤ c ∨ i ≠ j) → entry ν4 A i c = entry ν3 A i c :=
        fun i c hi hc ho => o4.outRow hA (by omega) (by omega) (by omega) (by omega) (by omega)
      have c5 : ∀ i c, i < n → c < n → (c ≠ j ∨ i ≤ j) → entry ν5 A i c = entry ν4 A i c :=
        fun i c hi hc ho => o5.outCol hA (by omega) (by omega) (by omega) (by omega) (by omega)
      have f2 : ∀ i, i < j → entry ν2 A j i = star (entry ν0 A j i) := by
        intro i hi
        have := e2 i (by simp only [MatV.rowv]; omega)
        simp only [ventry, MatV.rowv, zero_add] at this
        rw [entry, this]
        exact congrArg star (c1 j i (by omega) (by omega) (by omega))
      have f4 : ∀ i, i < j → entry ν4 A j i = entry ν0 A j i := by
        intro i hi
        have := e4 i (by simp only [MatV.rowv]; omega)
        simp only [ventry, MatV.rowv, zero_add] at this
        rw [entry, this]
        have h3 : ν3 (A.cell j i) = star (entry ν0 A j i) :=
          (c3 j i (by omega) (by omega) (by omega)).trans (f2 i hi)
        rw [h3, star_star]
      refine Potf2Inv.next (Or.inr rfl) h hj ?_ ?_ hp hpiv' ?_ ?_
      · refine (((o1.trans (o2.sameOffRow (by omega) (by omega) ?_)).trans
          (o3.sameOffCol (by omega) (by omega) ?_)).trans
          (o4.sameOffRow (by omega) (by omega) ?_)).trans (o5.sameOffCol (by omega) (by omega) ?_)
        all_goals intro c h1 h2
        · exact show c ≤ j by omega
        · exact show j ≤ c by omega
        · exact show c ≤ j by omega
        · exact show j ≤ c by omega
      · intro i c hic hc hij
        rw [rowsF_L, rowsF_L, c5 c i (by omega) (by omega) (by omega)]
        congr 1
        by_cases hcj : c = j
        · subst hcj
          exact f4 i (by omega)
        · rw [c4 c i (by omega) (by omega) (by omega), c3 c i (by omega) (by omega) (by omega),
            c2 c i (by omega) (by omega) (by omega), c1 c i (by omega) (by omega) (by omega)]
      · rw [rowsF_L, c5 j j hj hj (by omega), c4 j j hj hj (by omega), c3 j j hj hj (by omega),
          c2 j j hj hj (by omega), v1, sreal]
      · intro c hc1 hc
        obtain ⟨b, rfl⟩ := Nat.exists_eq_add_of_le (show j + 1 ≤ c by omega)
        have g5 := e5 b (by simp only [MatV.colv]; omega)
        have g3 := e3 b (by simp only [MatV.colv]; omega)
        simp only [ventry, MatV.rowv, opF, Coef.toVal, MatV.sub, entry, MatV.colv, zero_add] at g5 g3
        rw [rowsF_L, entry, g5]
        have h4 : ν4 (A.cell (j + 1 + b) j) = ν3 (A.cell (j + 1 + b) j) :=
          c4 _ _ (by omega) (by omega) (by omega)
        rw [h4, g3, one_mul, mul_one_div]
        have h2 : ν2 (A.cell (j + 1 + b) j) = entry ν0 A (j + 1 + b) j :=
          (c2 _ _ (by omega) (by omega) (by omega)).trans (c1 _ _ (by omega) (by omega) (by omega))
        rw [h2]
        have hs : star (∑ l ∈ range j, ν2 (A.cell (j + 1 + b) l) * ν2 (A.cell j l)) =
            ∑ l ∈ range j, star (rowsF .Lower (entry ν0 A) l j) *
              rowsF .Lower (entry ν0 A) l (j + 1 + b) := by
          rw [star_sum]
          refine Finset.sum_congr rfl (fun l hl => ?_)
          have hl' := Finset.mem_range.1 hl
          have q1 : ν2 (A.cell j l) = star (entry ν0 A j l) := f2 l hl'
          have q2 : ν2 (A.cell (j + 1 + b) l) = entry ν0 A (j + 1 + b) l :=
            (c2 _ _ (by omega) (by omega) (by omega)).trans (c1 _ _ (by omega) (by omega) (by omega))
          rw [q1, q2, rowsF_L, rowsF_L, star_star, star_mul', star_star, mul_comm]
        rw [star_div₀, sreal, star_add, star_mul', hs, rowsF_L]
        congr 1
        simp
        ring
    · rw [if_neg hlast]
      simp only [wp_pure]
      refine Potf2Inv.next (Or.inr rfl) h hj o1 ?_ hp hpiv' (by rw [rowsF_L, v1, sreal])
        (fun c h1 h2 => by omega)
      intro i c hic hc hij
      rw [rowsF_L, rowsF_L, c1 c i (by omega) (by omega) (Or.inr hij)]
  · rw [if_neg (by simpa [RealOps.lt] using hp)]
    have hf := Potf2Inv.fail (Or.inr rfl) h hj (by rw [← hd']; linarith)
    simp only [wp_bind, wp_raise]
    cases thr
    · rw [if_neg (by decide)]
      exact ⟨rfl, rfl, h.off, hf⟩
    · rw [if_pos rfl]
      exact ⟨rfl, h.off, j, hj, rfl, hf⟩

theorem wp_potf2 {uplo : Uplo} (hu : uplo = .Upper ∨ uplo = .Lower) {thr : Bool} {A : MatV L}
    {n : Nat} (hA : A.Inj) (hm : A.m = n) (hn : A.n = n) (μ : Store L 𝕜) :
    wp (potf2 thr uplo A) μ (CholRet thr uplo A n μ) (CholThrow thr (· + 1) uplo A n μ) := by
  unfold potf2
  simp only [wp_bind, hm]
  refine wp_squareTriChecks hu (by omega) ?_
  refine wp_mono (wp_forStep (Q := fun r ν => CholRet thr uplo A n μ (r.getD 0) ν)
    (E := CholThrow thr (· + 1) uplo A n μ) (Potf2Inv uplo A n μ) (by omega) ?_ ?_ 0 μ ?_)
    (fun r ν h => h) (fun _ _ h => h)
  · intro j ν hj h
    have key : wp (if uplo = .Upper then potf2UStep thr A n j else potf2LStep thr A n j) ν
        (Potf2Step thr uplo A n μ j) (CholThrow thr (· + 1) uplo A n μ) := by
      rcases hu with rfl | rfl
      · rw [if_pos rfl]; exact wp_potf2UStep hA hm hn hj h
      · rw [if_neg (by decide)]; exact wp_potf2LStep hA hm hn hj h
    refine wp_mono key ?_ (fun _ _ h => h)
    intro r ν' hr
    cases r with
    | none => exact hr
    | some k =>
      obtain ⟨h0, rfl, h1, h2⟩ := hr
      exact ⟨h1, Or.inr ⟨h0, j, hj, rfl, h2⟩⟩
  · intro j ν hj h
    obtain rfl : j = n := le_antisymm h.le hj
    exact ⟨h.off, Or.inl ⟨rfl, h.rows⟩⟩
  · exact ⟨Nat.zero_le _, SameOff.refl, fun _ _ _ _ _ => rfl,
      fun _ _ h => by omega, fun _ h => by omega⟩

end TLA
