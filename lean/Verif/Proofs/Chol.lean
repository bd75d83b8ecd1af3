import Verif.Proofs.Block
import Verif.Proofs.Raise
import Verif.Proofs.Blas1
import Verif.Proofs.CholAlg

set_option linter.unusedTactic false
set_option linter.unreachableTactic false

/-! Cholesky routines meet `CholRows` / `CholFail`. -/

namespace TLA
variable {L 𝕜 : Type} [DecidableEq L] [RCLike 𝕜]
open Finset

/-- The upper factor stored in the selected triangle: `U` itself, or `Lᴴ`. -/
def rowsF (uplo : Uplo) (g : Nat → Nat → 𝕜) : Nat → Nat → 𝕜 := fun k i =>
  if uplo = .Lower then star (g i k) else g k i

theorem rowsF_U (g : Nat → Nat → 𝕜) (i j : Nat) : rowsF .Upper g i j = g i j := rfl
theorem rowsF_L (g : Nat → Nat → 𝕜) (i j : Nat) : rowsF .Lower g i j = star (g j i) := rfl

theorem re_star' (z : 𝕜) : (re (star z) : 𝕜) = re z := ExactScalar.re_star z

theorem hermF_rows {uplo : Uplo} (hu : uplo = .Upper ∨ uplo = .Lower) (g : Nat → Nat → 𝕜)
    {i j : Nat} (hij : i ≤ j) :
    hermF uplo g i j = if i = j then re (rowsF uplo g i i) else rowsF uplo g i j := by
  rcases hu with rfl | rfl
  · unfold hermF
    rw [ite_upper, if_pos hij, rowsF_U, rowsF_U]
  · unfold hermF
    by_cases h : i = j
    · subst h
      rw [if_pos rfl, if_pos rfl, rowsF_L, re_star']
    · rw [if_neg h, if_neg h, ite_lower, if_neg (by omega), rowsF_L]

theorem hermF_starC {uplo : Uplo} (hu : uplo = .Upper ∨ uplo = .Lower) (g : Nat → Nat → 𝕜)
    (i j : Nat) : star (hermF uplo g i j) = hermF uplo g j i := by
  unfold hermF
  by_cases h : i = j
  · subst h
    rw [if_pos rfl, ExactScalar.star_re]
  · rw [if_neg h, if_neg (Ne.symm h)]
    rcases hu with rfl | rfl
    · rw [ite_upper, ite_upper]
      by_cases h1 : i ≤ j
      · rw [if_pos h1, if_neg (by omega)]
      · rw [if_neg h1, if_pos (by omega), star_star]
    · rw [ite_lower, ite_lower]
      by_cases h1 : j ≤ i
      · rw [if_pos h1, if_neg (by omega)]
      · rw [if_neg h1, if_pos (by omega), star_star]

theorem sum_selfAdj (s : Finset Nat) (f : Nat → 𝕜) :
    ((RCLike.re (∑ l ∈ s, star (f l) * f l) : ℝ) : 𝕜) = ∑ l ∈ s, star (f l) * f l := by
  apply RCLike.conj_eq_iff_re.1
  rw [← RCLike.star_def, star_sum]
  refine Finset.sum_congr rfl (fun l _ => ?_)
  rw [star_mul', star_star, mul_comm]

theorem re_sum_selfAdj (s : Finset Nat) (f : Nat → 𝕜) :
    (re (∑ l ∈ s, star (f l) * f l) : 𝕜) = ∑ l ∈ s, star (f l) * f l := sum_selfAdj s f

theorem re_sub' (a b : 𝕜) : (re (a - b) : 𝕜) = re a - re b := by simp [re_def]
theorem re_re' (a : 𝕜) : (re (re a) : 𝕜) = re a := by simp [re_def]

theorem upper_trunc {m i : Nat} (hi : i < m) (a : Nat → Nat → 𝕜) (x : Nat → 𝕜) :
    ∑ l ∈ range m, star (triF .Upper .NonUnit a l i) * x l =
      ∑ l ∈ range (i + 1), star (a l i) * x l := by
  symm
  have h1 : ∀ l ∈ range (i + 1), star (a l i) * x l = star (triF .Upper .NonUnit a l i) * x l := by
    intro l hl
    have := Finset.mem_range.1 hl
    unfold triF
    by_cases h : l = i
    · subst h; rw [if_pos rfl]
    · rw [if_neg h, ite_upper, if_pos (by omega)]
  rw [Finset.sum_congr rfl h1]
  refine Finset.sum_subset (fun l hl => ?_) (fun l hl hl' => ?_)
  · have := Finset.mem_range.1 hl; exact Finset.mem_range.2 (by omega)
  · have := mt Finset.mem_range.2 hl'
    unfold triF
    rw [if_neg (by omega), ite_upper, if_neg (by omega)]; simp

theorem lower_trunc {m i : Nat} (hi : i < m) (a : Nat → Nat → 𝕜) (x : Nat → 𝕜) :
    ∑ l ∈ range m, x l * triF .Lower .NonUnit a i l =
      ∑ l ∈ range (i + 1), x l * a i l := by
  symm
  have h1 : ∀ l ∈ range (i + 1), x l * a i l = x l * triF .Lower .NonUnit a i l := by
    intro l hl
    have := Finset.mem_range.1 hl
    unfold triF
    by_cases h : i = l
    · subst h; rw [if_pos rfl]
    · rw [if_neg h, ite_lower, if_pos (by omega)]
  rw [Finset.sum_congr rfl h1]
  refine Finset.sum_subset (fun l hl => ?_) (fun l hl hl' => ?_)
  · have := Finset.mem_range.1 hl; exact Finset.mem_range.2 (by omega)
  · have := mt Finset.mem_range.2 hl'
    unfold triF
    rw [if_neg (by omega), ite_lower, if_neg (by omega)]; simp

/-- trsm + herk between two diagonal blocks. -/
theorem wp_cholPanel {uplo : Uplo} (hu : uplo = .Upper ∨ uplo = .Lower) {A : MatV L} {n j0 j1 : Nat}
    (hA : A.Inj) (hm : A.m = n) (hn : A.n = n) (h01 : j0 ≤ j1) (h1n : j1 ≤ n) {μ : Store L 𝕜}
    (hd : ∀ i, i < j1 - j0 → entry μ A (j0 + i) (j0 + i) ≠ 0) {E} :
    wp (cholPanel uplo A j0 j1 n) μ (fun _ ν => SameOff A uplo μ ν ∧
      (∀ i j, i ≤ j → j < n → (i < j0 ∨ j < j1) →
        rowsF uplo (entry ν A) i j = rowsF uplo (entry μ A) i j) ∧
      (∀ i j, i < j1 - j0 → j < n - j1 →
        ∑ l ∈ range (i + 1), star (rowsF uplo (entry μ A) (j0 + l) (j0 + i)) *
          rowsF uplo (entry ν A) (j0 + l) (j1 + j) = rowsF uplo (entry μ A) (j0 + i) (j1 + j)) ∧
      (∀ i j, i ≤ j → j < n - j1 →
        hermF uplo (entry ν A) (j1 + i) (j1 + j) = hermF uplo (entry μ A) (j1 + i) (j1 + j) -
          ∑ l ∈ range (j1 - j0), star (rowsF uplo (entry ν A) (j0 + l) (j1 + i)) *
            rowsF uplo (entry ν A) (j0 + l) (j1 + j))) E := by
  unfold cholPanel
  rcases hu with rfl | rfl
  · rw [if_pos rfl]
    simp only [wp_bind]
    refine wp_slice (by omega) (by omega) (by omega) (by omega) ?_
    refine wp_slice (by omega) (by omega) (by omega) (by omega) ?_
    refine wp_slice (by omega) (by omega) (by omega) (by omega) ?_
    refine wp_conseq (wp_trsmL ⟨Or.inl rfl, Or.inl rfl, by decide, rfl, rfl,
      hA.sub (by omega) (by omega), hA.disj_sub (by omega) (by omega) (by omega) (by omega) (by omega)⟩
      (fun _ i hi => hd i hi)) ?_
    rintro _ ν1 ⟨o1, e1⟩
    refine wp_conseq (wp_herk_e (n := n - j1) (k := j1 - j0) ⟨Or.inl rfl, Or.inr rfl, rfl, rfl, rfl,
      rfl, rfl, rfl, hA.sub (by omega) (by omega),
      hA.disj_sub (by omega) (by omega) (by omega) (by omega) (by omega),
      hA.disj_sub (by omega) (by omega) (by omega) (by omega) (by omega)⟩ (Or.inl rfl) (by simp)) ?_
    rintro _ ν2 ⟨o2, e2⟩
    have o2' := o2.only
    have c1 : ∀ i j, i < n → j < n → (i < j0 ∨ j1 ≤ i ∨ j < j1) → entry ν1 A i j = entry μ A i j :=
      fun i j hi hj ho => o1.out hA (by omega) (by omega) (by omega) (by omega) (by omega)
    have c2 : ∀ i j, i < n → j < n → (i < j1 ∨ j < j1) → entry ν2 A i j = entry ν1 A i j :=
      fun i j hi hj ho => o2'.out hA (by omega) (by omega) (by omega) (by omega) (by omega)
    refine ⟨?_, ?_, ?_, ?_⟩
    · exact (o1.sameOff (u := .Upper) (by omega) (by omega) (fun i j _ _ _ _ => show i ≤ j by omega)).trans
        (o2.sub (Or.inl rfl) (by omega) (by omega))
    · intro i j hij hj ho
      rw [rowsF_U, rowsF_U, c2 i j (by omega) (by omega) (by omega),
        c1 i j (by omega) (by omega) (by omega)]
    · intro i j hi hj
      have := e1 i j (by simp only [MatV.sub]; omega) (by simp only [MatV.sub]; omega)
      simp only [MatV.sub, opF] at this
      rw [one_mul, upper_trunc hi] at this
      rw [rowsF_U]
      refine Eq.trans (Finset.sum_congr rfl (fun l hl => ?_)) this
      have := Finset.mem_range.1 hl
      rw [rowsF_U, rowsF_U, c2 _ _ (by omega) (by omega) (by omega)]
      rfl
    · intro i j hij hj
      have := e2 i j (by omega) (by omega) hij
      have c3 : ∀ i j, i < n - j1 → j < n - j1 → entry ν1 (A.sub j1 n j1 n) i j =
          entry μ A (j1 + i) (j1 + j) :=
        fun i j hi hj => c1 _ _ (by omega) (by omega) (by omega)
      have c4 : ∀ l j, l < j1 - j0 → j < n - j1 → entry ν1 (A.sub j0 j1 j1 n) l j =
          entry ν2 A (j0 + l) (j1 + j) :=
        fun l j hi hj => (c2 _ _ (by omega) (by omega) (by omega)).symm
      rw [c3 _ _ (by omega) (by omega), c3 _ _ (by omega) (by omega)] at this
      simp only [opF, star_star, Coef.toVal, one_mul] at this
      have hs : ∑ l ∈ range (j1 - j0), star (entry ν1 (A.sub j0 j1 j1 n) l i) *
          entry ν1 (A.sub j0 j1 j1 n) l j = ∑ l ∈ range (j1 - j0),
          star (rowsF .Upper (entry ν2 A) (j0 + l) (j1 + i)) *
            rowsF .Upper (entry ν2 A) (j0 + l) (j1 + j) := by
        refine Finset.sum_congr rfl (fun l hl => ?_)
        have := Finset.mem_range.1 hl
        rw [c4 _ _ (by omega) (by omega), c4 _ _ (by omega) (by omega)]
        rfl
      rw [hs] at this
      have he : entry ν2 (A.sub j1 n j1 n) i j = entry ν2 A (j1 + i) (j1 + j) := rfl
      rw [he] at this
      rw [hermF_rows (Or.inl rfl) _ (by omega), hermF_rows (Or.inl rfl) _ (by omega)]
      by_cases hc : i = j
      · subst hc
        rw [if_pos rfl] at this
        rw [if_pos rfl, if_pos rfl, rowsF_U, rowsF_U, this]
        rw [neg_one_mul, neg_add_eq_sub, re_sub', re_re', re_sum_selfAdj]
      · rw [if_neg hc] at this
        rw [if_neg (by omega), if_neg (by omega), rowsF_U, rowsF_U, this]
        ring
  · rw [if_neg (by decide)]
    simp only [wp_bind]
    refine wp_slice (by omega) (by omega) (by omega) (by omega) ?_
    refine wp_slice (by omega) (by omega) (by omega) (by omega) ?_
    refine wp_slice (by omega) (by omega) (by omega) (by omega) ?_
    refine wp_conseq (wp_trsmR ⟨Or.inr rfl, Or.inr rfl, by decide, rfl, rfl,
      hA.sub (by omega) (by omega), hA.disj_sub (by omega) (by omega) (by omega) (by omega) (by omega)⟩
      (fun _ i hi => hd i hi)) ?_
    rintro _ ν1 ⟨o1, e1⟩
    refine wp_conseq (wp_herk_e (n := n - j1) (k := j1 - j0) ⟨Or.inr (Or.inl rfl), Or.inl rfl, rfl, rfl, rfl,
      rfl, rfl, rfl, hA.sub (by omega) (by omega),
      hA.disj_sub (by omega) (by omega) (by omega) (by omega) (by omega),
      hA.disj_sub (by omega) (by omega) (by omega) (by omega) (by omega)⟩ (Or.inr rfl) (by simp)) ?_
    rintro _ ν2 ⟨o2, e2⟩
    have o2' := o2.only
    have c1 : ∀ i j, i < n → j < n → (j < j0 ∨ j1 ≤ j ∨ i < j1) → entry ν1 A i j = entry μ A i j :=
      fun i j hi hj ho => o1.out hA (by omega) (by omega) (by omega) (by omega) (by omega)
    have c2 : ∀ i j, i < n → j < n → (i < j1 ∨ j < j1) → entry ν2 A i j = entry ν1 A i j :=
      fun i j hi hj ho => o2'.out hA (by omega) (by omega) (by omega) (by omega) (by omega)
    refine ⟨?_, ?_, ?_, ?_⟩
    · exact (o1.sameOff (u := .Lower) (by omega) (by omega) (fun i j _ _ _ _ => show j ≤ i by omega)).trans
        (o2.sub (Or.inr rfl) (by omega) (by omega))
    · intro i j hij hj ho
      rw [rowsF_L, rowsF_L, c2 j i (by omega) (by omega) (by omega),
        c1 j i (by omega) (by omega) (by omega)]
    · intro i j hi hj
      have := e1 j i (by simp only [MatV.sub]; omega) (by simp only [MatV.sub]; omega)
      simp only [MatV.sub, opF] at this
      have h2 := congrArg star this
      rw [star_sum, one_mul] at h2
      simp only [star_mul', star_star] at h2
      rw [lower_trunc hi] at h2
      rw [rowsF_L]
      refine Eq.trans (Finset.sum_congr rfl (fun l hl => ?_)) h2
      have := Finset.mem_range.1 hl
      rw [rowsF_L, rowsF_L, c2 _ _ (by omega) (by omega) (by omega), star_star, mul_comm]
      rfl
    · intro i j hij hj
      have := e2 j i (by omega) (by omega) hij
      have c3 : ∀ i j, i < n - j1 → j < n - j1 → entry ν1 (A.sub j1 n j1 n) i j =
          entry μ A (j1 + i) (j1 + j) :=
        fun i j hi hj => c1 _ _ (by omega) (by omega) (by omega)
      have c4 : ∀ l j, l < j1 - j0 → j < n - j1 → entry ν1 (A.sub j1 n j0 j1) j l =
          entry ν2 A (j1 + j) (j0 + l) :=
        fun l j hi hj => (c2 _ _ (by omega) (by omega) (by omega)).symm
      rw [c3 _ _ (by omega) (by omega), c3 _ _ (by omega) (by omega)] at this
      simp only [opF, Coef.toVal, one_mul] at this
      have hs : star (∑ l ∈ range (j1 - j0), entry ν1 (A.sub j1 n j0 j1) j l *
          star (entry ν1 (A.sub j1 n j0 j1) i l)) = ∑ l ∈ range (j1 - j0),
          star (rowsF .Lower (entry ν2 A) (j0 + l) (j1 + i)) *
            rowsF .Lower (entry ν2 A) (j0 + l) (j1 + j) := by
        rw [star_sum]
        refine Finset.sum_congr rfl (fun l hl => ?_)
        have := Finset.mem_range.1 hl
        rw [c4 _ _ (by omega) (by omega), c4 _ _ (by omega) (by omega), star_mul', star_star,
          rowsF_L, rowsF_L, star_star, mul_comm]
      have he : entry ν2 (A.sub j1 n j1 n) j i = entry ν2 A (j1 + j) (j1 + i) := rfl
      rw [he] at this
      rw [hermF_rows (Or.inr rfl) _ (by omega), hermF_rows (Or.inr rfl) _ (by omega)]
      rw [← hs]
      by_cases hc : i = j
      · subst hc
        rw [if_pos rfl] at this
        rw [if_pos rfl, if_pos rfl, rowsF_L, rowsF_L, re_star', re_star', this, hs]
        rw [neg_one_mul, neg_add_eq_sub, re_sub', re_re', ← re_star' (∑ l ∈ _, _), hs, re_sum_selfAdj]
      · rw [if_neg (Ne.symm hc)] at this
        rw [if_neg (by omega), if_neg (by omega), rowsF_L, rowsF_L, this, star_add, star_mul', hs]
        simp
        ring

/-! ### outcome of a Cholesky routine -/

/-- Normal return with `info`. -/
def CholRet (thr : Bool) (uplo : Uplo) (A : MatV L) (s : Nat) (μ : Store L 𝕜) (info : Nat) (ν : Store L 𝕜) : Prop :=
  SameOff A uplo μ ν ∧
    ((info = 0 ∧ CholRows (hermF uplo (entry μ A)) (rowsF uplo (entry ν A)) s s) ∨
      (thr = false ∧ ∃ k, k < s ∧ info = k + 1 ∧ CholFail (hermF uplo (entry μ A)) k))

/-- `std::runtime_error` (only if `thr`); the reported code is `code k`. -/
def CholThrow (thr : Bool) (code : Nat → Nat) (uplo : Uplo) (A : MatV L) (s : Nat) (μ : Store L 𝕜)
    (e : Err) (ν : Store L 𝕜) : Prop :=
  thr = true ∧ SameOff A uplo μ ν ∧
    ∃ k, k < s ∧ e = .runtime (code k) ∧ CholFail (hermF uplo (entry μ A)) k

theorem hermF_sub (uplo : Uplo) (hu : uplo = .Upper ∨ uplo = .Lower) (A : MatV L) (μ : Store L 𝕜)
    (p q i j : Nat) : hermF uplo (entry μ (A.sub p q p q)) i j = hermF uplo (entry μ A) (p + i) (p + j) := by
  unfold hermF
  have e : ∀ i j, entry μ (A.sub p q p q) i j = entry μ A (p + i) (p + j) := fun _ _ => rfl
  rw [e, e, e]
  by_cases h : i = j
  · rw [if_pos h, if_pos (by omega)]
  · rw [if_neg h, if_neg (show ¬ p + i = p + j by omega)]
    exact if_congr (inTri_shift hu p i j).symm rfl rfl

theorem rowsF_sub (uplo : Uplo) (A : MatV L) (μ : Store L 𝕜)
    (p q i j : Nat) : rowsF uplo (entry μ (A.sub p q p q)) i j = rowsF uplo (entry μ A) (p + i) (p + j) :=
  rfl

theorem rowsF_diag_ne {uplo : Uplo} {g : Nat → Nat → 𝕜} {i : Nat}
    (h : 0 < RCLike.re (rowsF uplo g i i)) : g i i ≠ 0 := by
  intro h0
  unfold rowsF at h
  split at h <;> rw [h0] at h <;> simp at h

theorem sqrt_ok {x : ℝ} (hx : 0 < x) :
    star ((Real.sqrt x : ℝ) : 𝕜) * ((Real.sqrt x : ℝ) : 𝕜) = ((x : ℝ) : 𝕜) := by
  rw [RCLike.star_def, RCLike.conj_ofReal, ← RCLike.ofReal_mul, Real.mul_self_sqrt hx.le]

theorem wp_potrf2 {uplo : Uplo} (hu : uplo = .Upper ∨ uplo = .Lower) (s : Nat) :
    ∀ (thr : Bool) (A : MatV L) (μ : Store L 𝕜), A.m = s → A.n = s → A.Inj →
      wp (potrf2 thr uplo A) μ (CholRet thr uplo A s μ) (CholThrow thr (· + 1) uplo A s μ) := by
  induction s using Nat.strong_induction_on with
  | _ s ih =>
    intro thr A μ hm hn hA
    rw [potrf2]
    simp only [wp_bind]
    refine wp_squareTriChecks hu (by omega) ?_
    by_cases h0 : s = 0
    · subst h0
      rw [if_pos hm]
      exact ⟨SameOff.refl, Or.inl ⟨rfl, fun _ _ h => by omega, fun _ h => by omega⟩⟩
    rw [if_neg (by omega)]
    by_cases h1 : s = 1
    · subst h1
      rw [dif_pos hm]
      simp only [wp_bind]
      refine wp_getE ⟨by omega, by omega⟩ ?_
      have hh : (hermF uplo (entry μ A) 0 0 : 𝕜) = re (μ (A.cell 0 0)) := by
        unfold hermF; rw [if_pos rfl]; rfl
      by_cases hp : 0 < RCLike.re (μ (A.cell 0 0))
      · rw [if_pos (by simpa [RealOps.lt, re_def] using hp)]
        simp only [wp_bind]
        refine wp_conseq (wp_set.2 ⟨⟨by omega, by omega⟩, ?_⟩) (fun _ _ h => h)
        have ht : inTri uplo 0 0 := by rcases hu with rfl | rfl <;> exact le_refl 0
        refine ⟨upd_sameOff (by omega) (by omega) ht, Or.inl ⟨rfl, ?_⟩⟩
        have hr : rowsF uplo (entry (upd μ (A.cell 0 0) (RealOps.sqrt (re (μ (A.cell 0 0))))) A) 0 0 =
            ((Real.sqrt (RCLike.re (μ (A.cell 0 0))) : ℝ) : 𝕜) := by
          unfold rowsF
          rw [upd_in]
          split <;> simp [RealOps.sqrt, re_def]
        refine ⟨fun i j hi hij hj => ?_, fun i hi => ?_⟩
        · obtain rfl : i = 0 := by omega
          obtain rfl : j = 0 := by omega
          rw [zero_add, Finset.sum_range_one, hr, sqrt_ok hp, hh, re_def]
        · obtain rfl : i = 0 := by omega
          rw [hr]
          simp [hp]
      · rw [if_neg (by simpa [RealOps.lt, re_def] using hp)]
        have hf : CholFail (hermF uplo (entry μ A)) 0 := by
          refine ⟨fun _ _ => 0, ⟨fun _ _ h => by omega, fun _ h => by omega⟩, ?_⟩
          rw [hh, re_def]
          simpa using hp
        simp only [wp_bind, wp_raise]
        cases thr
        · rw [if_neg (by decide)]
          exact ⟨SameOff.refl, Or.inr ⟨rfl, 0, by omega, rfl, hf⟩⟩
        · rw [if_pos rfl]
          exact ⟨rfl, SameOff.refl, 0, by omega, rfl, hf⟩
    rw [dif_neg (by omega)]
    simp only [hm]
    set n1 := s / 2 with hn1
    simp only [wp_bind]
    refine wp_sliceChk (by omega) (by omega) (by omega) (by omega) ?_
    refine wp_sliceChk (by omega) (by omega) (by omega) (by omega) ?_
    refine wp_mono (ih n1 (by omega) false (A.sub 0 n1 0 n1) μ rfl rfl
      (hA.sub (by omega) (by omega))) ?_ (fun e ν h => absurd h.1 (by decide))
    rintro info ν1 ⟨o1, hres⟩
    have o1' : SameOff A uplo μ ν1 := o1.sub hu (by omega) (by omega)
    have c1 : ∀ i j, i < s → j < s → (n1 ≤ i ∨ n1 ≤ j) → entry ν1 A i j = entry μ A i j :=
      fun i j hi hj ho => o1.only.out hA (by omega) (by omega) (by omega) (by omega) (by omega)
    have c1r : ∀ i j, i < s → j < s → (n1 ≤ i ∨ n1 ≤ j) →
        rowsF uplo (entry ν1 A) i j = rowsF uplo (entry μ A) i j := by
      intro i j hi hj ho
      unfold rowsF
      rw [c1 i j hi hj ho, c1 j i hj hi (by omega)]
    rcases hres with ⟨rfl, hR⟩ | ⟨_, k, hk, rfl, hF⟩
    · rw [if_neg (by decide)]
      have hR' : CholRows (hermF uplo (entry μ A)) (rowsF uplo (entry ν1 A)) n1 n1 := by
        refine hR.congr (le_refl _) (fun i j _ _ _ => ?_) (fun i j _ _ _ => ?_)
        · rw [hermF_sub uplo hu, zero_add, zero_add]
        · rw [rowsF_sub, zero_add, zero_add]
      simp only [wp_bind]
      refine wp_mono (wp_cholPanel hu (n := s) hA hm hn (by omega) (by omega) (fun i hi => ?_)
        (E := fun _ _ => False)) ?_ (fun _ _ h => h.elim)
      · rw [zero_add]
        exact rowsF_diag_ne (hR'.pos i (by omega)).1
      rintro _ ν2 ⟨o2, p1, p2, p3⟩
      have hrows : CholRows (hermF uplo (entry μ A)) (rowsF uplo (entry ν2 A)) n1 s := by
        refine ⟨fun i j hi hij hj => ?_, fun i hi => ?_⟩
        · by_cases hc : j < n1
          · rw [← hR'.eq i j hi hij hc]
            refine Finset.sum_congr rfl (fun l hl => ?_)
            have := Finset.mem_range.1 hl
            rw [p1 l i (by omega) (by omega) (by omega), p1 l j (by omega) (by omega) (by omega)]
          · obtain ⟨j, rfl⟩ := Nat.exists_eq_add_of_le (by omega : n1 ≤ j)
            have := p2 i j (by omega) (by omega)
            simp only [zero_add] at this
            rw [hermF_rows hu _ hij, if_neg (by omega), ← c1r i (n1 + j) (by omega) hj (by omega), ← this]
            refine Finset.sum_congr rfl (fun l hl => ?_)
            have := Finset.mem_range.1 hl
            rw [p1 l i (by omega) (by omega) (by omega)]
        · rw [p1 i i (by omega) (by omega) (by omega)]
          exact hR'.pos i hi
      have hS : ∀ i j, i ≤ j → n1 + j < s →
          hermF uplo (entry ν2 (A.sub n1 s n1 s)) i j = hermF uplo (entry μ A) (n1 + i) (n1 + j) -
            ∑ l ∈ range n1, star (rowsF uplo (entry ν2 A) l (n1 + i)) *
              rowsF uplo (entry ν2 A) l (n1 + j) := by
        intro i j hij hj
        rw [hermF_sub uplo hu, p3 i j hij (by omega)]
        simp only [zero_add, Nat.sub_zero]
        congr 1
        rw [hermF_rows hu _ (by omega), hermF_rows hu _ (by omega), c1r _ _ (by omega) (by omega) (by omega),
          c1r _ _ (by omega) (by omega) (by omega)]
      refine wp_mono (ih (s - n1) (by omega) false (A.sub n1 s n1 s) ν2 rfl rfl
        (hA.sub (by omega) (by omega))) ?_ (fun e ν h => absurd h.1 (by decide))
      rintro info ν3 ⟨o3, hres⟩
      have o3' : SameOff A uplo μ ν3 :=
        (o1'.trans o2).trans (o3.sub hu (by omega) (by omega))
      have c3 : ∀ i j, i < s → j < s → (i < n1 ∨ j < n1) → entry ν3 A i j = entry ν2 A i j :=
        fun i j hi hj ho => o3.only.out hA (by omega) (by omega) (by omega) (by omega) (by omega)
      rcases hres with ⟨rfl, hR2⟩ | ⟨_, k, hk, rfl, hF⟩
      · rw [if_pos rfl]
        refine ⟨o3', Or.inl ⟨rfl, ?_⟩⟩
        have := CholRows.append (r' := rowsF uplo (entry ν3 A)) hrows (by omega) (le_refl _)
          (fun i j _ h2 h3 => hS i j h2 h3) hR2 (fun l j h1 h2 h3 => ?_) (fun l j h1 h2 h3 => rfl)
        · rwa [show n1 + (s - n1) = s by omega] at this
        · unfold rowsF
          rw [c3 l j (by omega) h3 (by omega), c3 j l h3 (by omega) (by omega)]
      · rw [if_neg (by omega)]
        have hF' := CholFail.append hrows (by omega) hS hF
        simp only [wp_bind, wp_raise]
        cases thr
        · rw [if_neg (by decide)]
          exact ⟨o3', Or.inr ⟨rfl, n1 + k, by omega, by omega, hF'⟩⟩
        · rw [if_pos rfl]
          exact ⟨rfl, o3', n1 + k, by omega, by show Err.runtime (k + 1 + n1) = Err.runtime (n1 + k + 1); congr 1; omega, hF'⟩
    · rw [if_pos (by omega)]
      have hF' : CholFail (hermF uplo (entry μ A)) k :=
        hF.congr (fun i j _ _ => by rw [hermF_sub uplo hu, zero_add, zero_add])
      simp only [wp_bind, wp_raise]
      cases thr
      · rw [if_neg (by decide)]
        exact ⟨o1', Or.inr ⟨rfl, k, by omega, rfl, hF'⟩⟩
      · rw [if_pos rfl]
        exact ⟨rfl, o1', k, by omega, rfl, hF'⟩

end TLA
