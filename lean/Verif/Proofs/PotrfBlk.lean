import Verif.Proofs.Potf2

set_option linter.unusedTactic false
set_option linter.unreachableTactic false

/-! The blocked Cholesky variants. -/

namespace TLA
variable {L 𝕜 : Type} [DecidableEq L] [RCLike 𝕜]
open Finset

/-- Extending a factored diagonal block by its panel. -/
theorem panel_rows {h r1 r2 : Nat → Nat → 𝕜} {j0 j1 n : Nat} (h01 : j0 ≤ j1) (h1n : j1 ≤ n)
    (hR : CholRows h (fun i c => r1 (j0 + i) (j0 + c)) (j1 - j0) (j1 - j0))
    (p1 : ∀ i j, i ≤ j → j < j1 → r2 i j = r1 i j)
    (p2 : ∀ i c, i < j1 - j0 → c < n - j1 →
        ∑ l ∈ range (i + 1), star (r1 (j0 + l) (j0 + i)) * r2 (j0 + l) (j1 + c) =
          h i (j1 - j0 + c)) :
    CholRows h (fun i c => r2 (j0 + i) (j0 + c)) (j1 - j0) (n - j0) := by
  refine ⟨fun i c hi hic hc => ?_, fun i hi => ?_⟩
  · by_cases hcb : c < j1 - j0
    · rw [← hR.eq i c hi hic hcb]
      refine Finset.sum_congr rfl (fun l hl => ?_)
      have := Finset.mem_range.1 hl
      beta_reduce
      rw [p1 _ _ (by omega) (by omega), p1 _ _ (by omega) (by omega)]
    · obtain ⟨c, rfl⟩ := Nat.exists_eq_add_of_le (by omega : j1 - j0 ≤ c)
      rw [← p2 i c hi (by omega)]
      refine Finset.sum_congr rfl (fun l hl => ?_)
      have := Finset.mem_range.1 hl
      beta_reduce
      rw [p1 _ _ (by omega) (by omega), show j0 + (j1 - j0 + c) = j1 + c by omega]
  · beta_reduce
    rw [p1 _ _ (by omega) (by omega)]
    exact hR.pos i hi

/-- State of potrf_rl before block `j`. -/
structure RlInv (uplo : Uplo) (A : MatV L) (n : Nat) (μ : Store L 𝕜) (j : Nat)
    (ν : Store L 𝕜) : Prop where
  le : j ≤ n
  off : SameOff A uplo μ ν
  trail : ∀ i c, i ≤ c → j + c < n → hermF uplo (entry ν A) (j + i) (j + c) =
    hermF uplo (entry μ A) (j + i) (j + c) - ∑ l ∈ range j, star (rowsF uplo (entry ν A) l (j + i)) *
      rowsF uplo (entry ν A) l (j + c)
  rows : CholRows (hermF uplo (entry μ A)) (rowsF uplo (entry ν A)) j n

theorem rowsF_congr {uplo : Uplo} {g g' : Nat → Nat → 𝕜} {i j : Nat} (h1 : g i j = g' i j)
    (h2 : g j i = g' j i) : rowsF uplo g i j = rowsF uplo g' i j := by
  unfold rowsF; rw [h1, h2]

theorem wp_potrfRlStep {thr : Bool} {uplo : Uplo} (hu : uplo = .Upper ∨ uplo = .Lower) {A : MatV L}
    {n nb : Nat} (hA : A.Inj) (hm : A.m = n) (hn : A.n = n) (hnb : 0 < nb)
    {μ : Store L 𝕜} {j : Nat} {ν : Store L 𝕜} (hj : j < n) (hdvd : nb ∣ j)
    (h : RlInv uplo A n μ j ν) :
    wp (potrfRlStep thr uplo A n nb j) ν
      (fun r ν' => match r with
        | none => RlInv uplo A n μ (min (j + nb) n) ν'
        | some k => thr = false ∧ SameOff A uplo μ ν' ∧
            ∃ i, i < n ∧ k = i + 1 ∧ CholFail (hermF uplo (entry μ A)) i)
      (CholThrow thr (fun k => k % nb + 1) uplo A n μ) := by
  unfold potrfRlStep
  simp only [wp_bind]
  obtain ⟨j1, hj1⟩ : ∃ j1, j1 = j + min nb (n - j) := ⟨_, rfl⟩
  rw [← hj1]
  have hj1' : min (j + nb) n = j1 := by omega
  rw [hj1']
  have hlt : j < j1 := by omega
  have hle1 : j1 ≤ n := by omega
  have hbnb : j1 - j ≤ nb := by omega
  clear hj1' hj1
  refine wp_slice (by omega) (by omega) (by omega) (by omega) ?_
  have hfail : ∀ k, k < j1 - j → CholFail (hermF uplo (entry ν (A.sub j j1 j j1))) k →
      CholFail (hermF uplo (entry μ A)) (j + k) := by
    intro k hk hF
    refine CholFail.append h.rows (by omega) (fun i c h1 h2 => h.trail i c h1 h2) ?_
    exact hF.congr (fun i c _ _ => (hermF_sub uplo hu A ν j j1 i c).symm)
  refine wp_mono (wp_potf2 hu (hA.sub (by omega) (by omega)) rfl rfl ν) ?_ ?_
  · rintro info ν1 ⟨o1, hres⟩
    have o1' : SameOff A uplo ν ν1 := o1.sub hu (by omega) (by omega)
    have c1 : ∀ i c, i < n → c < n → (i < j ∨ c < j ∨ j1 ≤ i ∨ j1 ≤ c) →
        rowsF uplo (entry ν1 A) i c = rowsF uplo (entry ν A) i c := fun i c hi hc ho =>
      rowsF_congr (o1.only.out hA (by omega) (by omega) (by omega) (by omega) (by omega))
        (o1.only.out hA (by omega) (by omega) (by omega) (by omega) (by omega))
    have c1h : ∀ i c, i ≤ c → c < n → j1 ≤ c →
        hermF uplo (entry ν1 A) i c = hermF uplo (entry ν A) i c := by
      intro i c hic hc hj
      rw [hermF_rows hu _ hic, hermF_rows hu _ hic, c1 i c (by omega) hc (by omega)]
      by_cases he : i = c
      · subst he
        rw [if_pos rfl, if_pos rfl, c1 i i hc hc (by omega)]
      · rw [if_neg he, if_neg he]
    rcases hres with ⟨rfl, hR⟩ | ⟨rfl, k, hk, rfl, hF⟩
    · rw [if_neg (by decide)]
      have hR' : CholRows (fun i c => hermF uplo (entry ν A) (j + i) (j + c))
          (fun i c => rowsF uplo (entry ν1 A) (j + i) (j + c)) (j1 - j) (j1 - j) :=
        hR.congr (le_refl _) (fun i c _ _ _ => (hermF_sub uplo hu A ν j j1 i c).symm)
          (fun _ _ _ _ _ => rfl)
      by_cases hlast : j1 < n
      · rw [if_pos hlast]
        simp only [wp_bind]
        refine wp_mono (wp_cholPanel hu (n := n) hA hm hn (by omega) (by omega) (fun i hi => ?_)
          (E := fun _ _ => False)) ?_ (fun _ _ h => h.elim)
        · exact rowsF_diag_ne (hR'.pos i hi).1
        rintro _ ν2 ⟨o2, p1, p2, p3⟩
        have hR2 : CholRows (fun i c => hermF uplo (entry ν A) (j + i) (j + c))
            (fun i c => rowsF uplo (entry ν2 A) (j + i) (j + c)) (j1 - j) (n - j) := by
          refine panel_rows (by omega) (by omega) hR' (fun i c h1 h2 => p1 i c h1 (by omega) (by omega))
            (fun i c h1 h2 => ?_)
          rw [p2 i c h1 h2, show j + (j1 - j + c) = j1 + c by omega,
            hermF_rows hu _ (by omega), if_neg (by omega), c1 _ _ (by omega) (by omega) (by omega)]
        have hrows : CholRows (hermF uplo (entry μ A)) (rowsF uplo (entry ν2 A)) j1 n := by
          have := CholRows.append (r' := rowsF uplo (entry ν2 A)) h.rows (by omega)
            (by omega : j1 - j ≤ n - j) (fun i c _ h2 h3 => h.trail i c h2 h3) hR2
            (fun l c h1 h2 h3 => by
              rw [p1 l c h2 h3 (by omega), c1 l c (by omega) h3 (by omega)])
            (fun _ _ _ _ _ => rfl)
          rwa [show j + (j1 - j) = j1 by omega] at this
        refine ⟨by omega, (h.off.trans o1').trans o2, fun i c hic hc => ?_, hrows⟩
        rw [p3 i c hic (by omega), c1h _ _ (by omega) (by omega) (by omega)]
        have ht := h.trail (j1 - j + i) (j1 - j + c) (by omega) (by omega)
        rw [show j + (j1 - j + i) = j1 + i by omega, show j + (j1 - j + c) = j1 + c by omega] at ht
        rw [ht, sub_sub]
        congr 1
        conv_rhs => rw [show j1 = j + (j1 - j) by omega, Finset.sum_range_add]
        congr 1
        · refine Finset.sum_congr rfl (fun l hl => ?_)
          have := Finset.mem_range.1 hl
          rw [show j + (j1 - j) = j1 by omega, p1 _ _ (by omega) (by omega) (by omega),
            p1 _ _ (by omega) (by omega) (by omega),
            c1 _ _ (by omega) (by omega) (by omega), c1 _ _ (by omega) (by omega) (by omega)]
        · rw [show j + (j1 - j) = j1 by omega]
      · rw [if_neg hlast]
        simp only [wp_pure]
        obtain rfl : j1 = n := by omega
        have hrows : CholRows (hermF uplo (entry μ A)) (rowsF uplo (entry ν1 A)) j1 j1 := by
          have := CholRows.append (r' := rowsF uplo (entry ν1 A)) h.rows (by omega)
            (le_refl _) (fun i c _ h2 h3 => h.trail i c h2 h3) hR'
            (fun l c h1 h2 h3 => c1 l c (by omega) h3 (by omega))
            (fun _ _ _ _ _ => rfl)
          rwa [show j + (j1 - j) = j1 by omega] at this
        exact ⟨le_refl _, h.off.trans o1', fun i c _ hc => by omega, hrows⟩
    · replace hk : k < j1 - j := hk
      rw [if_pos (by omega)]
      simp only [wp_bind, wp_raise]
      rw [if_neg (by decide)]
      simp only [wp_pure]
      exact ⟨trivial, h.off.trans o1', j + k, by omega, by omega, hfail k hk hF⟩
  · rintro e ν1 ⟨ht, o1, k, hk, rfl, hF⟩
    replace hk : k < j1 - j := hk
    refine ⟨ht, h.off.trans (o1.sub hu (by omega) (by omega)), j + k, by omega, ?_, hfail k hk hF⟩
    obtain ⟨q, rfl⟩ := hdvd
    show Err.runtime (k + 1) = Err.runtime ((nb * q + k) % nb + 1)
    rw [Nat.mul_add_mod, Nat.mod_eq_of_lt (by omega)]

theorem wp_potrfRl {uplo : Uplo} (hu : uplo = .Upper ∨ uplo = .Lower) {thr : Bool} {A : MatV L}
    {n nb : Nat} (hA : A.Inj) (hm : A.m = n) (hn : A.n = n) (hnb : 0 < nb) (μ : Store L 𝕜) :
    wp (potrfRl thr nb uplo A) μ (CholRet thr uplo A n μ)
      (CholThrow thr (fun k => k % nb + 1) uplo A n μ) := by
  unfold potrfRl
  simp only [wp_bind, hm]
  refine wp_squareTriChecks hu (by omega) ?_
  by_cases h0 : n = 0
  · subst h0
    rw [if_pos rfl]
    exact ⟨SameOff.refl, Or.inl ⟨rfl, fun _ _ h => by omega, fun _ h => by omega⟩⟩
  rw [if_neg h0]
  by_cases hle : n ≤ nb
  · rw [if_pos hle]
    refine wp_mono (wp_potf2 hu hA hm hn μ) (fun _ _ h => h) ?_
    rintro e ν ⟨ht, o, k, hk, rfl, hF⟩
    exact ⟨ht, o, k, hk, by beta_reduce; rw [Nat.mod_eq_of_lt (by omega)], hF⟩
  rw [if_neg hle]
  simp only [wp_bind]
  refine wp_mono (wp_forStep (Q := fun r ν => CholRet thr uplo A n μ (r.getD 0) ν)
    (E := CholThrow thr (fun k => k % nb + 1) uplo A n μ)
    (fun j ν => nb ∣ j ∧ RlInv uplo A n μ (min j n) ν) hnb ?_ ?_ 0 μ ?_)
    (fun r ν h => h) (fun _ _ h => h)
  · rintro j ν hj ⟨hd, h⟩
    rw [Nat.min_eq_left (by omega)] at h
    refine wp_mono (wp_potrfRlStep hu hA hm hn hnb hj hd h) ?_ (fun _ _ h => h)
    intro r ν' hr
    cases r with
    | none => exact ⟨(Nat.dvd_add_right hd).2 (dvd_refl nb), hr⟩
    | some k =>
      obtain ⟨h0, h1, i, hi, rfl, h2⟩ := hr
      exact ⟨h1, Or.inr ⟨h0, i, hi, rfl, h2⟩⟩
  · rintro j ν hj ⟨_, h⟩
    rw [Nat.min_eq_right hj] at h
    exact ⟨h.off, Or.inl ⟨rfl, h.rows⟩⟩
  · refine ⟨dvd_zero nb, ?_⟩
    rw [Nat.zero_min]
    exact ⟨Nat.zero_le _, SameOff.refl, fun _ _ _ _ => by simp,
      fun _ _ h => by omega, fun _ h => by omega⟩

/-! ### left-looking -/

/-- The update of the diagonal block. -/
theorem wp_leftHerk {uplo : Uplo} (hu : uplo = .Upper ∨ uplo = .Lower) {A : MatV L} {n j j1 : Nat}
    (hA : A.Inj) (hm : A.m = n) (hn : A.n = n) (h01 : j ≤ j1) (h1n : j1 ≤ n) {μ : Store L 𝕜} :
    wp (if uplo = .Upper then herk .Upper .ConjTrans (-1) (A.sub 0 j j j1) (.val 1) (A.sub j j1 j j1)
      else herk .Lower .NoTrans (-1) (A.sub j j1 0 j) (.val 1) (A.sub j j1 j j1)) μ
    (fun _ ν => SameOff (A.sub j j1 j j1) uplo μ ν ∧
      ∀ i c, i ≤ c → c < j1 - j → hermF uplo (entry ν A) (j + i) (j + c) =
        hermF uplo (entry μ A) (j + i) (j + c) - ∑ l ∈ range j,
          star (rowsF uplo (entry μ A) l (j + i)) * rowsF uplo (entry μ A) l (j + c)) := by
  rcases hu with rfl | rfl
  · rw [if_pos rfl]
    refine wp_conseq (wp_herk_e (n := j1 - j) (k := j) ⟨Or.inl rfl, Or.inr rfl, rfl, rfl, rfl,
      rfl, rfl, rfl, hA.sub (by omega) (by omega),
      hA.disj_sub (by omega) (by omega) (by omega) (by omega) (by omega),
      hA.disj_sub (by omega) (by omega) (by omega) (by omega) (by omega)⟩ (Or.inl rfl) (by simp)) ?_
    rintro _ ν ⟨o, e⟩
    refine ⟨o, fun i c hic hc => ?_⟩
    have := e i c (by omega) hc hic
    simp only [opF, star_star, Coef.toVal, one_mul, entry, MatV.sub, zero_add] at this
    have he : entry ν A (j + i) (j + c) = ν (A.cell (j + i) (j + c)) := rfl
    rw [hermF_rows (Or.inl rfl) _ (by omega), hermF_rows (Or.inl rfl) _ (by omega)]
    have hs : ∑ l ∈ range j, star (μ (A.cell l (j + i))) * μ (A.cell l (j + c)) =
        ∑ l ∈ range j, star (rowsF .Upper (entry μ A) l (j + i)) *
          rowsF .Upper (entry μ A) l (j + c) := rfl
    rw [hs] at this
    by_cases hic' : i = c
    · subst hic'
      rw [if_pos rfl] at this
      rw [if_pos rfl, if_pos rfl, rowsF_U, he, this, neg_one_mul, neg_add_eq_sub, re_sub', re_re',
        re_sum_selfAdj]
      rfl
    · rw [if_neg hic'] at this
      rw [if_neg (by omega), if_neg (by omega), rowsF_U, he, this, neg_one_mul, neg_add_eq_sub]
      rfl
  · rw [if_neg (by decide)]
    refine wp_conseq (wp_herk_e (n := j1 - j) (k := j) ⟨Or.inr (Or.inl rfl), Or.inl rfl, rfl, rfl, rfl,
      rfl, rfl, rfl, hA.sub (by omega) (by omega),
      hA.disj_sub (by omega) (by omega) (by omega) (by omega) (by omega),
      hA.disj_sub (by omega) (by omega) (by omega) (by omega) (by omega)⟩ (Or.inr rfl) (by simp)) ?_
    rintro _ ν ⟨o, e⟩
    refine ⟨o, fun i c hic hc => ?_⟩
    have := e c i hc (by omega) hic
    simp only [opF, Coef.toVal, one_mul, entry, MatV.sub, zero_add] at this
    have he : entry ν A (j + c) (j + i) = ν (A.cell (j + c) (j + i)) := rfl
    rw [hermF_rows (Or.inr rfl) _ (by omega), hermF_rows (Or.inr rfl) _ (by omega)]
    have hs : star (∑ l ∈ range j, μ (A.cell (j + c) l) * star (μ (A.cell (j + i) l))) =
        ∑ l ∈ range j, star (rowsF .Lower (entry μ A) l (j + i)) *
          rowsF .Lower (entry μ A) l (j + c) := by
      rw [star_sum]
      refine Finset.sum_congr rfl (fun l _ => ?_)
      rw [star_mul', star_star, rowsF_L, rowsF_L, star_star, mul_comm]
      rfl
    by_cases hic' : i = c
    · subst hic'
      rw [if_pos rfl] at this
      rw [if_pos rfl, if_pos rfl, rowsF_L, re_star', he, this, neg_one_mul, neg_add_eq_sub, re_sub',
        re_re', ← hs, ← re_star' (∑ l ∈ _, _), hs, re_sum_selfAdj, rowsF_L, re_star']
      rfl
    · rw [if_neg (Ne.symm hic')] at this
      rw [if_neg (by omega), if_neg (by omega), rowsF_L, he, this, star_add, star_mul', hs, rowsF_L]
      simp only [star_neg, star_one]
      rw [neg_one_mul, neg_add_eq_sub]
      rfl

/-- The panel to the right of (below) the diagonal block. -/
theorem wp_leftPanel {uplo : Uplo} (hu : uplo = .Upper ∨ uplo = .Lower) {A : MatV L} {n j j1 : Nat}
    (hA : A.Inj) (hm : A.m = n) (hn : A.n = n) (h01 : j ≤ j1) (h1n : j1 ≤ n) {μ : Store L 𝕜}
    (hd : ∀ i, i < j1 - j → entry μ A (j + i) (j + i) ≠ 0) :
    wp (if uplo = .Upper then
        (do gemm .ConjTrans .NoTrans (-1) (A.sub 0 j j j1) (A.sub 0 j j1 n) (.val 1) (A.sub j j1 j1 n)
            trsm .Left .Upper .ConjTrans .NonUnit 1 (A.sub j j1 j j1) (A.sub j j1 j1 n))
      else
        (do gemm .NoTrans .ConjTrans (-1) (A.sub j1 n 0 j) (A.sub j j1 0 j) (.val 1) (A.sub j1 n j j1)
            trsm .Right .Lower .ConjTrans .NonUnit 1 (A.sub j j1 j j1) (A.sub j1 n j j1))) μ
    (fun _ ν => SameOff A uplo μ ν ∧
      (∀ i c, i ≤ c → c < n → (i < j ∨ j1 ≤ i ∨ c < j1) →
        rowsF uplo (entry ν A) i c = rowsF uplo (entry μ A) i c) ∧
      ∀ i c, i < j1 - j → c < n - j1 →
        ∑ l ∈ range (i + 1), star (rowsF uplo (entry μ A) (j + l) (j + i)) *
          rowsF uplo (entry ν A) (j + l) (j1 + c) =
        rowsF uplo (entry μ A) (j + i) (j1 + c) - ∑ l ∈ range j,
          star (rowsF uplo (entry μ A) l (j + i)) * rowsF uplo (entry μ A) l (j1 + c)) := by
  rcases hu with rfl | rfl
  · rw [if_pos rfl]
    simp only [wp_bind]
    refine wp_conseq (wp_gemm_e (m := j1 - j) (n := n - j1) (k := j) ⟨by decide, by decide, rfl, rfl, rfl,
      rfl, rfl, rfl, hA.sub (by omega) (by omega),
      hA.disj_sub (by omega) (by omega) (by omega) (by omega) (by omega),
      hA.disj_sub (by omega) (by omega) (by omega) (by omega) (by omega)⟩) ?_
    rintro _ ν1 ⟨o1, e1⟩
    have c1 : ∀ i c, i < n → c < n → (i < j ∨ j1 ≤ i ∨ c < j1) → entry ν1 A i c = entry μ A i c :=
      fun i c hi hc ho => o1.out hA (by omega) (by omega) (by omega) (by omega) (by omega)
    refine wp_conseq (wp_trsmL ⟨Or.inl rfl, Or.inl rfl, by decide, rfl, rfl,
      hA.sub (by omega) (by omega), hA.disj_sub (by omega) (by omega) (by omega) (by omega) (by omega)⟩
      (fun _ i hi => ?_)) ?_
    · simp only [MatV.sub] at hi
      have h1 : entry ν1 A (j + i) (j + i) = entry μ A (j + i) (j + i) :=
        c1 _ _ (by omega) (by omega) (by omega)
      have h2 := hd i hi
      rw [← h1] at h2
      exact h2
    rintro _ ν2 ⟨o2, e2⟩
    have c2 : ∀ i c, i < n → c < n → (i < j ∨ j1 ≤ i ∨ c < j1) → entry ν2 A i c = entry ν1 A i c :=
      fun i c hi hc ho => o2.out hA (by omega) (by omega) (by omega) (by omega) (by omega)
    refine ⟨(o1.sameOff (u := .Upper) (by omega) (by omega)
      (fun i c _ _ _ _ => show i ≤ c by omega)).trans (o2.sameOff (by omega) (by omega)
      (fun i c _ _ _ _ => show i ≤ c by omega)), fun i c hic hc ho => ?_, fun i c hi hc => ?_⟩
    · rw [rowsF_U, rowsF_U, c2 i c (by omega) hc ho, c1 i c (by omega) hc ho]
    · have g2 := e2 i c (by simp only [MatV.sub]; omega) (by simp only [MatV.sub]; omega)
      have g1 := e1 i c (by simp only [MatV.sub]; omega) (by simp only [MatV.sub]; omega)
      rw [g1] at g2
      simp only [MatV.sub, opF] at g2
      rw [one_mul, upper_trunc hi] at g2
      simp only [entry, Coef.toVal, zero_add, one_mul] at g2
      rw [rowsF_U]
      refine Eq.trans (Finset.sum_congr rfl (fun l hl => ?_)) (g2.trans ?_)
      · have := Finset.mem_range.1 hl
        have h1 : ν1 (A.cell (j + l) (j + i)) = μ (A.cell (j + l) (j + i)) :=
          c1 _ _ (by omega) (by omega) (by omega)
        rw [h1]; rfl
      · rw [neg_one_mul, neg_add_eq_sub]
        rfl
  · rw [if_neg (by decide)]
    simp only [wp_bind]
    refine wp_conseq (wp_gemm_e (m := n - j1) (n := j1 - j) (k := j) ⟨by decide, by decide, rfl, rfl, rfl,
      rfl, rfl, rfl, hA.sub (by omega) (by omega),
      hA.disj_sub (by omega) (by omega) (by omega) (by omega) (by omega),
      hA.disj_sub (by omega) (by omega) (by omega) (by omega) (by omega)⟩) ?_
    rintro _ ν1 ⟨o1, e1⟩
    have c1 : ∀ i c, i < n → c < n → (c < j ∨ j1 ≤ c ∨ i < j1) → entry ν1 A i c = entry μ A i c :=
      fun i c hi hc ho => o1.out hA (by omega) (by omega) (by omega) (by omega) (by omega)
    refine wp_conseq (wp_trsmR ⟨Or.inr rfl, Or.inr rfl, by decide, rfl, rfl,
      hA.sub (by omega) (by omega), hA.disj_sub (by omega) (by omega) (by omega) (by omega) (by omega)⟩
      (fun _ i hi => ?_)) ?_
    · simp only [MatV.sub] at hi
      have h1 : entry ν1 A (j + i) (j + i) = entry μ A (j + i) (j + i) :=
        c1 _ _ (by omega) (by omega) (by omega)
      have h2 := hd i hi
      rw [← h1] at h2
      exact h2
    rintro _ ν2 ⟨o2, e2⟩
    have c2 : ∀ i c, i < n → c < n → (c < j ∨ j1 ≤ c ∨ i < j1) → entry ν2 A i c = entry ν1 A i c :=
      fun i c hi hc ho => o2.out hA (by omega) (by omega) (by omega) (by omega) (by omega)
    refine ⟨(o1.sameOff (u := .Lower) (by omega) (by omega)
      (fun i c _ _ _ _ => show c ≤ i by omega)).trans (o2.sameOff (by omega) (by omega)
      (fun i c _ _ _ _ => show c ≤ i by omega)), fun i c hic hc ho => ?_, fun i c hi hc => ?_⟩
    · rw [rowsF_L, rowsF_L, c2 c i hc (by omega) ho, c1 c i hc (by omega) ho]
    · have g2 := e2 c i (by simp only [MatV.sub]; omega) (by simp only [MatV.sub]; omega)
      have g1 := e1 c i (by simp only [MatV.sub]; omega) (by simp only [MatV.sub]; omega)
      rw [g1] at g2
      simp only [MatV.sub, opF] at g2
      have g3 := congrArg star g2
      rw [star_sum, one_mul] at g3
      simp only [star_mul', star_star] at g3
      rw [lower_trunc hi] at g3
      simp only [entry, Coef.toVal, zero_add, one_mul] at g3
      rw [rowsF_L]
      refine Eq.trans (Finset.sum_congr rfl (fun l hl => ?_)) (g3.trans ?_)
      · have := Finset.mem_range.1 hl
        have h1 : ν1 (A.cell (j + i) (j + l)) = μ (A.cell (j + i) (j + l)) :=
          c1 _ _ (by omega) (by omega) (by omega)
        rw [rowsF_L, rowsF_L, star_star, mul_comm, h1]; rfl
      · have hs : star (∑ l ∈ range j, μ (A.cell (j1 + c) l) * star (μ (A.cell (j + i) l))) =
            ∑ l ∈ range j, star (rowsF .Lower (entry μ A) l (j + i)) *
              rowsF .Lower (entry μ A) l (j1 + c) := by
          rw [star_sum]
          refine Finset.sum_congr rfl (fun l _ => ?_)
          rw [star_mul', star_star, rowsF_L, rowsF_L, star_star, mul_comm]
          rfl
        rw [star_add, star_mul', hs]
        simp only [star_neg, star_one]
        rw [neg_one_mul, neg_add_eq_sub]
        rfl

theorem wp_potrfBlockedStep {thr : Bool} {uplo : Uplo} (hu : uplo = .Upper ∨ uplo = .Lower) {A : MatV L}
    {n nb : Nat} (hA : A.Inj) (hm : A.m = n) (hn : A.n = n) (hnb : 0 < nb)
    {μ : Store L 𝕜} {j : Nat} {ν : Store L 𝕜} (hj : j < n) (hdvd : nb ∣ j)
    (h : Potf2Inv uplo A n μ j ν) :
    wp (potrfBlockedStep thr uplo A n nb j) ν
      (fun r ν' => match r with
        | none => Potf2Inv uplo A n μ (min (j + nb) n) ν'
        | some k => thr = false ∧ SameOff A uplo μ ν' ∧
            ∃ i, i < n ∧ k = i + 1 ∧ CholFail (hermF uplo (entry μ A)) i)
      (CholThrow thr (fun k => k % nb + 1) uplo A n μ) := by
  unfold potrfBlockedStep
  obtain ⟨j1, hj1⟩ : ∃ j1, j1 = j + min nb (n - j) := ⟨_, rfl⟩
  simp only [← hj1]
  have hj1' : min (j + nb) n = j1 := by omega
  rw [hj1']
  have hlt : j < j1 := by omega
  have hle1 : j1 ≤ n := by omega
  have hbnb : j1 - j ≤ nb := by omega
  clear hj1' hj1
  -- both variants as one program
  have huni : wp (do
      (if uplo = .Upper then herk .Upper .ConjTrans (-1) (A.sub 0 j j j1) (.val 1) (A.sub j j1 j j1)
        else herk .Lower .NoTrans (-1) (A.sub j j1 0 j) (.val 1) (A.sub j j1 j j1))
      let info ← potf2 thr uplo (A.sub j j1 j j1)
      if info ≠ 0 then do
        raise thr (info + j)
        pure (some (info + j))
      else if j1 < n then do
        (if uplo = .Upper then
          (do gemm .ConjTrans .NoTrans (-1) (A.sub 0 j j j1) (A.sub 0 j j1 n) (.val 1) (A.sub j j1 j1 n)
              trsm .Left .Upper .ConjTrans .NonUnit 1 (A.sub j j1 j j1) (A.sub j j1 j1 n))
        else
          (do gemm .NoTrans .ConjTrans (-1) (A.sub j1 n 0 j) (A.sub j j1 0 j) (.val 1) (A.sub j1 n j j1)
              trsm .Right .Lower .ConjTrans .NonUnit 1 (A.sub j j1 j j1) (A.sub j1 n j j1)))
        pure none
      else pure none) ν
      (fun r ν' => match r with
        | none => Potf2Inv uplo A n μ j1 ν'
        | some k => thr = false ∧ SameOff A uplo μ ν' ∧
            ∃ i, i < n ∧ k = i + 1 ∧ CholFail (hermF uplo (entry μ A)) i)
      (CholThrow thr (fun k => k % nb + 1) uplo A n μ) := by
    rw [wp_bind]
    refine wp_conseq (wp_leftHerk (n := n) hu hA hm hn (by omega) (by omega)) ?_
    rintro _ ν1 ⟨o1, e1⟩
    have o1' : SameOff A uplo ν ν1 := o1.sub hu (by omega) (by omega)
    have c1 : ∀ i c, i < n → c < n → (i < j ∨ c < j ∨ j1 ≤ i ∨ j1 ≤ c) →
        rowsF uplo (entry ν1 A) i c = rowsF uplo (entry ν A) i c := fun i c hi hc ho =>
      rowsF_congr (o1.only.out hA (by omega) (by omega) (by omega) (by omega) (by omega))
        (o1.only.out hA (by omega) (by omega) (by omega) (by omega) (by omega))
    -- the Schur complement
    obtain ⟨S, hS⟩ : ∃ S : Nat → Nat → 𝕜, S = fun i c => hermF uplo (entry μ A) (j + i) (j + c) -
        ∑ l ∈ range j, star (rowsF uplo (entry ν A) l (j + i)) * rowsF uplo (entry ν A) l (j + c) :=
      ⟨_, rfl⟩
    have hνh : ∀ i c, i ≤ c → j + c < n → hermF uplo (entry ν A) (j + i) (j + c) =
        hermF uplo (entry μ A) (j + i) (j + c) := by
      intro i c hic hc
      rw [hermF_rows hu _ (by omega), hermF_rows hu _ (by omega),
        h.rest _ _ (by omega) (by omega) (by omega), h.rest _ _ (by omega) (by omega) (by omega)]
    have hSd : ∀ i c, i ≤ c → c < j1 - j →
        hermF uplo (entry ν1 (A.sub j j1 j j1)) i c = S i c := by
      intro i c hic hc
      rw [hermF_sub uplo hu, e1 i c hic hc, hS, hνh i c hic (by omega)]
    have hfail : ∀ k, k < j1 - j → CholFail (hermF uplo (entry ν1 (A.sub j j1 j j1))) k →
        CholFail (hermF uplo (entry μ A)) (j + k) := by
      intro k hk hF
      refine CholFail.append (s := S) h.rows (by omega) (fun i c h1 h2 => by rw [hS]) ?_
      exact hF.congr (fun i c h1 h2 => (hSd i c h1 (by omega)).symm)
    rw [wp_bind]
    refine wp_mono (wp_potf2 hu (hA.sub (by omega) (by omega)) rfl rfl ν1) ?_ ?_
    · rintro info ν2 ⟨o2, hres⟩
      have o2' : SameOff A uplo ν1 ν2 := o2.sub hu (by omega) (by omega)
      have c2 : ∀ i c, i < n → c < n → (i < j ∨ c < j ∨ j1 ≤ i ∨ j1 ≤ c) →
          rowsF uplo (entry ν2 A) i c = rowsF uplo (entry ν A) i c := fun i c hi hc ho =>
        (rowsF_congr (o2.only.out hA (by omega) (by omega) (by omega) (by omega) (by omega))
          (o2.only.out hA (by omega) (by omega) (by omega) (by omega) (by omega))).trans
          (c1 i c hi hc ho)
      rcases hres with ⟨rfl, hR⟩ | ⟨rfl, k, hk, rfl, hF⟩
      · rw [if_neg (by decide)]
        have hR' : CholRows S (fun i c => rowsF uplo (entry ν2 A) (j + i) (j + c)) (j1 - j) (j1 - j) :=
          hR.congr (le_refl _) (fun i c _ h1 h2 => (hSd i c h1 h2).symm) (fun _ _ _ _ _ => rfl)
        by_cases hlast : j1 < n
        · rw [if_pos hlast, wp_bind]
          refine wp_conseq (wp_leftPanel (n := n) hu hA hm hn (by omega) (by omega)
            (fun i hi => rowsF_diag_ne (hR'.pos i hi).1)) ?_
          rintro _ ν3 ⟨o3, p1, p2⟩
          have hR2 : CholRows S (fun i c => rowsF uplo (entry ν3 A) (j + i) (j + c)) (j1 - j) (n - j) := by
            refine panel_rows (by omega) (by omega) hR' (fun i c h1 h2 => p1 i c h1 (by omega) (by omega))
              (fun i c h1 h2 => ?_)
            rw [p2 i c h1 h2, hS]
            beta_reduce
            rw [show j + (j1 - j + c) = j1 + c by omega,
              hermF_rows hu _ (by omega), if_neg (by omega), c2 _ _ (by omega) (by omega) (by omega),
              h.rest _ _ (by omega) (by omega) (by omega)]
            congr 1
            refine Finset.sum_congr rfl (fun l hl => ?_)
            have := Finset.mem_range.1 hl
            rw [c2 _ _ (by omega) (by omega) (by omega), c2 _ _ (by omega) (by omega) (by omega)]
          have hrows : CholRows (hermF uplo (entry μ A)) (rowsF uplo (entry ν3 A)) j1 n := by
            have := CholRows.append (s := S) (r' := rowsF uplo (entry ν3 A)) h.rows (by omega)
              (by omega : j1 - j ≤ n - j) (fun i c _ h2 h3 => by rw [hS]) hR2
              (fun l c h1 h2 h3 => by
                rw [p1 l c h2 h3 (by omega), c2 l c (by omega) h3 (by omega)])
              (fun _ _ _ _ _ => rfl)
            rwa [show j + (j1 - j) = j1 by omega] at this
          refine ⟨by omega, ((h.off.trans o1').trans o2').trans o3, fun i c h1 h2 h3 => ?_, hrows⟩
          rw [p1 i c h2 h3 (by omega), c2 i c (by omega) h3 (by omega), h.rest i c (by omega) h2 h3]
        · rw [if_neg hlast]
          simp only [wp_pure]
          obtain rfl : j1 = n := by omega
          have hrows : CholRows (hermF uplo (entry μ A)) (rowsF uplo (entry ν2 A)) j1 j1 := by
            have := CholRows.append (s := S) (r' := rowsF uplo (entry ν2 A)) h.rows (by omega)
              (le_refl _) (fun i c _ h2 h3 => by rw [hS]) hR'
              (fun l c h1 h2 h3 => c2 l c (by omega) h3 (by omega))
              (fun _ _ _ _ _ => rfl)
            rwa [show j + (j1 - j) = j1 by omega] at this
          exact ⟨le_refl _, (h.off.trans o1').trans o2', fun i c _ _ _ => by omega, hrows⟩
      · replace hk : k < j1 - j := hk
        rw [if_pos (by omega)]
        simp only [wp_bind, wp_raise]
        rw [if_neg (by decide)]
        simp only [wp_pure]
        exact ⟨trivial, (h.off.trans o1').trans o2', j + k, by omega, by omega, hfail k hk hF⟩
    · rintro e ν2 ⟨ht, o2, k, hk, rfl, hF⟩
      replace hk : k < j1 - j := hk
      refine ⟨ht, (h.off.trans o1').trans (o2.sub hu (by omega) (by omega)), j + k, by omega, ?_,
        hfail k hk hF⟩
      obtain ⟨q, rfl⟩ := hdvd
      show Err.runtime (k + 1) = Err.runtime ((nb * q + k) % nb + 1)
      rw [Nat.mul_add_mod, Nat.mod_eq_of_lt (by omega)]
  rcases hu with rfl | rfl
  · rw [if_pos rfl] at huni ⊢
    simp only [if_true, wp_bind] at huni ⊢
    refine wp_slice (by omega) (by omega) (by omega) (by omega) ?_
    refine wp_slice (by omega) (by omega) (by omega) (by omega) ?_
    refine wp_mono huni (fun _ ν1 h1 => wp_mono h1 (fun info ν2 h2 => ?_) (fun _ _ h => h)) (fun _ _ h => h)
    by_cases hi : info = 0
    · subst hi
      rw [if_neg (by decide)] at h2 ⊢
      by_cases hl : j1 < n
      · rw [if_pos hl] at h2 ⊢
        simp only [wp_bind] at h2 ⊢
        refine wp_slice (by omega) (by omega) (by omega) (by omega) ?_
        refine wp_slice (by omega) (by omega) (by omega) (by omega) ?_
        exact h2
      · rw [if_neg hl] at h2 ⊢
        exact h2
    · rw [if_pos hi] at h2 ⊢
      exact h2
  · rw [if_neg (by decide)] at huni ⊢
    simp only [if_false, reduceCtorEq, wp_bind] at huni ⊢
    refine wp_slice (by omega) (by omega) (by omega) (by omega) ?_
    refine wp_slice (by omega) (by omega) (by omega) (by omega) ?_
    refine wp_mono huni (fun _ ν1 h1 => wp_mono h1 (fun info ν2 h2 => ?_) (fun _ _ h => h)) (fun _ _ h => h)
    by_cases hi : info = 0
    · subst hi
      rw [if_neg (by decide)] at h2 ⊢
      by_cases hl : j1 < n
      · rw [if_pos hl] at h2 ⊢
        simp only [wp_bind] at h2 ⊢
        refine wp_slice (by omega) (by omega) (by omega) (by omega) ?_
        refine wp_slice (by omega) (by omega) (by omega) (by omega) ?_
        exact h2
      · rw [if_neg hl] at h2 ⊢
        exact h2
    · rw [if_pos hi] at h2 ⊢
      exact h2

theorem wp_potrfBlocked {uplo : Uplo} (hu : uplo = .Upper ∨ uplo = .Lower) {thr : Bool} {A : MatV L}
    {n nb : Nat} (hA : A.Inj) (hm : A.m = n) (hn : A.n = n) (hnb : 0 < nb) (μ : Store L 𝕜) :
    wp (potrfBlocked thr nb uplo A) μ (CholRet thr uplo A n μ)
      (CholThrow thr (fun k => k % nb + 1) uplo A n μ) := by
  unfold potrfBlocked
  simp only [wp_bind, hm]
  refine wp_squareTriChecks hu (by omega) ?_
  by_cases h0 : n = 0
  · subst h0
    rw [if_pos rfl]
    exact ⟨SameOff.refl, Or.inl ⟨rfl, fun _ _ h => by omega, fun _ h => by omega⟩⟩
  rw [if_neg h0]
  by_cases hle : n ≤ nb
  · rw [if_pos hle]
    refine wp_mono (wp_potf2 hu hA hm hn μ) (fun _ _ h => h) ?_
    rintro e ν ⟨ht, o, k, hk, rfl, hF⟩
    exact ⟨ht, o, k, hk, by beta_reduce; rw [Nat.mod_eq_of_lt (by omega)], hF⟩
  rw [if_neg hle]
  simp only [wp_bind]
  refine wp_mono (wp_forStep (Q := fun r ν => CholRet thr uplo A n μ (r.getD 0) ν)
    (E := CholThrow thr (fun k => k % nb + 1) uplo A n μ)
    (fun j ν => nb ∣ j ∧ Potf2Inv uplo A n μ (min j n) ν) hnb ?_ ?_ 0 μ ?_)
    (fun r ν h => h) (fun _ _ h => h)
  · rintro j ν hj ⟨hd, h⟩
    rw [Nat.min_eq_left (by omega)] at h
    refine wp_mono (wp_potrfBlockedStep hu hA hm hn hnb hj hd h) ?_ (fun _ _ h => h)
    intro r ν' hr
    cases r with
    | none => exact ⟨(Nat.dvd_add_right hd).2 (dvd_refl nb), hr⟩
    | some k =>
      obtain ⟨h0, h1, i, hi, rfl, h2⟩ := hr
      exact ⟨h1, Or.inr ⟨h0, i, hi, rfl, h2⟩⟩
  · rintro j ν hj ⟨_, h⟩
    rw [Nat.min_eq_right hj] at h
    exact ⟨h.off, Or.inl ⟨rfl, h.rows⟩⟩
  · refine ⟨dvd_zero nb, ?_⟩
    rw [Nat.zero_min]
    exact ⟨Nat.zero_le _, SameOff.refl, fun _ _ _ _ _ => rfl,
      fun _ _ h => by omega, fun _ h => by omega⟩

end TLA
