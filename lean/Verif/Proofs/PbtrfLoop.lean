import Verif.Proofs.Pbtrf
import Verif.Proofs.UngqBlk

set_option linter.unusedTactic false
set_option linter.unreachableTactic false
set_option linter.unusedVariables false
set_option linter.unusedSectionVars false

/-! One step and the loop of pbtrf. -/

namespace TLA
variable {L 𝕜 : Type} [DecidableEq L] [RCLike 𝕜]
open Finset
open scoped ComplexOrder

/-- What the panel of a step establishes. -/
structure PbPanel (uplo : Uplo) (A W : MatV L) (n w kd j0 j1 : Nat) (μ ν : Store L 𝕜) : Prop where
  wz : WZero uplo W w ν
  off : BandOff uplo A W n kd μ ν
  p1 : ∀ i c, i ≤ c → c < n → (i < j0 ∨ c < j1) → rowsF uplo (entry ν A) i c = rowsF uplo (entry μ A) i c
  p2 : ∀ i c, i < j1 - j0 → c < n - j1 →
        ∑ l ∈ range (i + 1), star (rowsF uplo (entry μ A) (j0 + l) (j0 + i)) *
          bd kd (rowsF uplo (entry ν A)) (j0 + l) (j1 + c) = bd kd (rowsF uplo (entry μ A)) (j0 + i) (j1 + c)
  p3 : ∀ i c, j1 ≤ i → i ≤ c → c < n →
        bd kd (hermF uplo (entry ν A)) i c = bd kd (hermF uplo (entry μ A)) i c -
          ∑ l ∈ range (j1 - j0), star (bd kd (rowsF uplo (entry ν A)) (j0 + l) i) * bd kd (rowsF uplo (entry ν A)) (j0 + l) c

theorem wp_pbMid {uplo : Uplo} (hu : uplo = .Upper ∨ uplo = .Lower) {A W : MatV L} {n kd j0 j1 c1 ib i2 : Nat}
    (hA : A.Inj) (hm : A.m = n) (hn : A.n = n) (hj1 : j1 = j0 + ib) (hc1 : c1 = j1 + i2) (hmin : c1 = min (j0 + kd) n)
    {μ : Store L 𝕜} (hd : ∀ i, i < ib → entry μ A (j0 + i) (j0 + i) ≠ 0) {Q : Unit → Store L 𝕜 → Prop} {E}
    (hQ : ∀ ν, (Only A μ ν ∧ BandOff uplo A W n kd μ ν ∧
      (∀ i c, i ≤ c → c < n → (i < j0 ∨ c < j1 ∨ c1 ≤ c) → rowsF uplo (entry ν A) i c = rowsF uplo (entry μ A) i c) ∧
      (∀ i c, i < j1 - j0 → c < c1 - j1 →
        ∑ l ∈ range (i + 1), star (rowsF uplo (entry μ A) (j0 + l) (j0 + i)) *
          rowsF uplo (entry ν A) (j0 + l) (j1 + c) = rowsF uplo (entry μ A) (j0 + i) (j1 + c)) ∧
      (∀ i c, j1 ≤ i → i ≤ c → c < c1 →
        hermF uplo (entry ν A) i c = hermF uplo (entry μ A) i c -
          ∑ l ∈ range (j1 - j0), star (rowsF uplo (entry ν A) (j0 + l) i) * rowsF uplo (entry ν A) (j0 + l) c)) → Q () ν) :
    wp (if 0 < i2 then pbMid uplo A (A.sub j0 j1 j0 j1) j0 ib i2 kd n else pure () : M L 𝕜 Unit) μ Q E := by
  by_cases h0 : 0 < i2
  · rw [if_pos h0]
    have key := wp_pbMidOps (W := W) hu (j0 := j0) (j1 := j1) (c1 := c1) (kd := kd) hA hm hn (by omega) (by omega) (by omega) (by omega)
      (μ := μ) (fun i hi => hd i (by omega))
    unfold pbMid
    rcases hu with rfl | rfl
    · rw [if_pos rfl, show ib + j0 = j1 by omega, show j0 + ib = j1 by omega, show min (j1 + i2) n = c1 by omega, ← hmin]
      simp only [wp_bind] at key ⊢
      refine wp_slice (by omega) (by omega) (by omega) (by omega) ?_
      refine wp_conseq key fun _ ν1 h => ?_
      refine wp_slice (by omega) (by omega) (by omega) (by omega) ?_
      exact wp_conseq h fun _ ν2 h => hQ _ h
    · rw [if_neg (by decide), show ib + i2 + j0 = c1 by omega, show ib + j0 = j1 by omega, show j0 + ib = j1 by omega,
        show j1 + i2 = c1 by omega]
      simp only [wp_bind] at key ⊢
      refine wp_slice (by omega) (by omega) (by omega) (by omega) ?_
      refine wp_conseq key fun _ ν1 h => ?_
      refine wp_slice (by omega) (by omega) (by omega) (by omega) ?_
      exact wp_conseq h fun _ ν2 h => hQ _ h
  · rw [if_neg h0]
    refine wp_pure.2 (hQ _ ⟨Only.refl, BandOff.refl, fun _ _ _ _ _ => rfl, fun i c _ _ => by omega, fun i c _ _ _ => by omega⟩)

theorem wp_pbTail {uplo : Uplo} (hu : uplo = .Upper ∨ uplo = .Lower) {A W : MatV L} {n w kd j0 j1 j2 j3 ib i2 i3 : Nat}
    (hA : A.Inj) (hm : A.m = n) (hn : A.n = n) (hW : W.Inj) (hwm : W.m = w) (hwn : W.n = w) (hAW : A.Disj W) (hWA : W.Disj A)
    (h1 : j1 = j0 + ib) (h2 : j2 = j0 + kd) (hi2 : j2 = j1 + i2) (h3 : j3 = j2 + i3) (hib : ib ≤ kd) (hi3 : i3 ≤ ib) (hibw : ib ≤ w) (h3n : j3 ≤ n)
    (hib0 : 0 < ib) (h03 : 0 < i3)
    {μ : Store L 𝕜} (hd : ∀ i, i < ib → entry μ A (j0 + i) (j0 + i) ≠ 0) (hz : WZero uplo W w μ)
    {Q : Unit → Store L 𝕜 → Prop} {E} (hQ : ∀ ν, (WZero uplo W w ν ∧ BandOff uplo A W n kd μ ν ∧
      (∀ i c, i ≤ c → c < n → (i < j0 ∨ c < j2 ∨ j3 ≤ c) → rowsF uplo (entry ν A) i c = rowsF uplo (entry μ A) i c) ∧
      (∀ i c, i < ib → c < i3 →
        ∑ l ∈ range (i + 1), star (rowsF uplo (entry μ A) (j0 + l) (j0 + i)) *
          bd kd (rowsF uplo (entry ν A)) (j0 + l) (j2 + c) = bd kd (rowsF uplo (entry μ A)) (j0 + i) (j2 + c)) ∧
      (∀ i c, j1 ≤ i → i ≤ c → j2 ≤ c → c < j3 →
        hermF uplo (entry ν A) i c = hermF uplo (entry μ A) i c -
          ∑ l ∈ range ib, star (bd kd (rowsF uplo (entry ν A)) (j0 + l) i) * bd kd (rowsF uplo (entry ν A)) (j0 + l) c)) → Q () ν) :
    wp (pbTail uplo A (A.sub j0 j1 j0 j1) W j0 ib i2 i3 kd n) μ Q E := by
  have key := wp_pbTailOps hu hA hm hn hW hwm hwn hAW hWA h1 h2 h3 hib hi3 hibw h3n hd hz
  unfold pbTail
  rcases hu with rfl | rfl
  · rw [if_pos rfl, show ib + j0 = j1 by omega, show j0 + ib = j1 by omega, show j0 + kd = j2 by omega,
      show j2 + i3 = j3 by omega, show min (j1 + i2) n = j2 by omega, show min j3 n = j3 by omega]
    simp only [wp_bind] at key ⊢
    refine wp_slice (by omega) (by omega) (by omega) (by omega) ?_
    refine wp_slice (by omega) (by omega) (by omega) (by omega) ?_
    refine wp_conseq key fun _ ν1 h => ?_
    refine wp_conseq h fun _ ν2 h => ?_
    refine wp_slice (by omega) (by omega) (by omega) (by omega) ?_
    refine wp_slice (by omega) (by omega) (by omega) (by omega) ?_
    refine wp_conseq h fun _ ν3 h => ?_
    refine wp_slice (by omega) (by omega) (by omega) (by omega) ?_
    refine wp_conseq h fun _ ν4 h => ?_
    exact wp_conseq h fun _ ν5 h => hQ _ h
  · rw [if_neg (by decide), show ib + i2 + j0 = j2 by omega, show ib + j0 = j1 by omega, show j0 + ib = j1 by omega,
      show min (kd + i3 + j0) n = j3 by omega, show kd + j0 + i3 = j3 by omega, show kd + j0 = j2 by omega,
      show j1 + i2 = j2 by omega]
    simp only [wp_bind] at key ⊢
    refine wp_slice (by omega) (by omega) (by omega) (by omega) ?_
    refine wp_slice (by omega) (by omega) (by omega) (by omega) ?_
    refine wp_slice (by omega) (by omega) (by omega) (by omega) ?_
    refine wp_conseq key fun _ ν1 h => ?_
    refine wp_conseq h fun _ ν2 h => ?_
    refine wp_slice (by omega) (by omega) (by omega) (by omega) ?_
    refine wp_conseq h fun _ ν3 h => ?_
    refine wp_slice (by omega) (by omega) (by omega) (by omega) ?_
    refine wp_conseq h fun _ ν4 h => ?_
    exact wp_conseq h fun _ ν5 h => hQ _ h

theorem hermF_same {uplo : Uplo} (hu : uplo = .Upper ∨ uplo = .Lower) {g g' : Nat → Nat → 𝕜} {i c : Nat} (hic : i ≤ c)
    (h : rowsF uplo g i c = rowsF uplo g' i c) : hermF uplo g i c = hermF uplo g' i c := by
  rw [hermF_rows hu _ hic, hermF_rows hu _ hic]
  by_cases e : i = c
  · subst e; rw [if_pos rfl, if_pos rfl, h]
  · rw [if_neg e, if_neg e, h]

theorem wp_pbPanel {uplo : Uplo} (hu : uplo = .Upper ∨ uplo = .Lower) {A W : MatV L} {n w kd j0 j1 ib i2 i3 : Nat}
    (hA : A.Inj) (hm : A.m = n) (hn : A.n = n) (hW : W.Inj) (hwm : W.m = w) (hwn : W.n = w) (hAW : A.Disj W) (hWA : W.Disj A)
    (h1 : j1 = j0 + ib) (hj1 : j1 ≤ n) (hib : ib ≤ kd) (hib0 : 0 < ib) (hibw : ib ≤ w)
    (hi2 : i2 = if kd + j0 < n then kd - ib else n - j0 - ib) (hi3 : i3 = if j0 + kd < n then min ib (n - j0 - kd) else 0)
    {μ : Store L 𝕜} (hd : ∀ i, i < ib → entry μ A (j0 + i) (j0 + i) ≠ 0) (hz : WZero uplo W w μ)
    {Q : Unit → Store L 𝕜 → Prop} {E} (hQ : ∀ ν, PbPanel uplo A W n w kd j0 j1 μ ν → Q () ν) :
    wp (do
      (if 0 < i2 then pbMid uplo A (A.sub j0 j1 j0 j1) j0 ib i2 kd n else pure () : M L 𝕜 Unit)
      (if 0 < i3 then pbTail uplo A (A.sub j0 j1 j0 j1) W j0 ib i2 i3 kd n else pure () : M L 𝕜 Unit)) μ Q E := by
  have e10 : j1 - j0 = ib := by omega
  obtain ⟨c1, hc1⟩ : ∃ c1, c1 = j1 + i2 := ⟨_, rfl⟩
  have hmin : c1 = min (j0 + kd) n := by
    by_cases h : kd + j0 < n
    · rw [if_pos h] at hi2; omega
    · rw [if_neg h] at hi2; omega
  simp only [wp_bind]
  refine wp_pbMid (W := W) hu hA hm hn h1 hc1 hmin hd fun ν1 ⟨oA, ob, p1, p2, p3⟩ => ?_
  have hz1 : WZero uplo W w ν1 := fun l c hlc hc => by
    rw [rowsF_disj oA hWA hwm hwn (by omega) hc]; exact hz l c hlc hc
  by_cases ht : j0 + kd < n
  · rw [if_pos ht] at hi3
    rw [if_pos (by omega)]
    refine wp_pbTail hu (j2 := c1) (j3 := c1 + i3) hA hm hn hW hwm hwn hAW hWA h1 (by omega) hc1 rfl hib (by omega) hibw (by omega) hib0 (by omega)
      (fun i hi => ?_) hz1 fun ν2 ⟨q0, q, q1, q2, q3⟩ => hQ _ ⟨q0, ob.trans q, fun i c hic hc ho => ?_, fun i c hi hc => ?_, fun i c hi hic hc => ?_⟩
    · have := p1 (j0 + i) (j0 + i) (le_refl _) (by omega) (by omega)
      intro h0
      refine rowsF_ne (uplo := uplo) (hd i hi) ?_
      rw [← this]
      unfold rowsF
      rw [h0]
      simp
    · rw [q1 i c hic hc (by omega), p1 i c hic hc (by omega)]
    · by_cases hA1 : j1 + c < c1
      · rw [bd_in (by omega), ← p2 i c hi (by omega)]
        refine Finset.sum_congr rfl fun l hl => ?_
        have := Finset.mem_range.1 hl
        rw [bd_in (by omega), q1 _ _ (by omega) (by omega) (by omega)]
      · by_cases hA2 : j1 + c < c1 + i3
        · have := q2 i (j1 + c - c1) (by omega) (by omega)
          rw [show c1 + (j1 + c - c1) = j1 + c by omega] at this
          have hr : bd kd (rowsF uplo (entry μ A)) (j0 + i) (j1 + c) = bd kd (rowsF uplo (entry ν1 A)) (j0 + i) (j1 + c) := by
            unfold bd
            rw [p1 _ _ (by omega) (by omega) (by omega)]
          rw [hr, ← this]
          refine Finset.sum_congr rfl fun l hl => ?_
          have := Finset.mem_range.1 hl
          rw [p1 _ _ (by omega) (by omega) (by omega)]
        · rw [bd_out (by omega)]
          refine Finset.sum_eq_zero fun l hl => ?_
          have := Finset.mem_range.1 hl
          rw [bd_out (by omega), mul_zero]
    · rw [e10]
      by_cases hb : c ≤ i + kd
      · rw [bd_in hb, bd_in hb]
        by_cases hA1 : c < c1
        · rw [hermF_same hu hic (q1 i c hic hc (by omega)), p3 i c hi hic hA1, e10]
          congr 1
          refine Finset.sum_congr rfl fun l hl => ?_
          have := Finset.mem_range.1 hl
          rw [bd_in (by omega), bd_in (by omega), q1 _ _ (by omega) (by omega) (by omega), q1 _ _ (by omega) (by omega) (by omega)]
        · by_cases hA2 : c < c1 + i3
          · rw [q3 i c hi hic (by omega) hA2, hermF_same hu hic (p1 i c hic hc (by omega))]
          · rw [hermF_same hu hic ((q1 i c hic hc (by omega)).trans (p1 i c hic hc (by omega))), Finset.sum_eq_zero, sub_zero]
            intro l hl
            have := Finset.mem_range.1 hl
            rw [bd_out (c := c) (by omega), mul_zero]
      · rw [bd_out (by omega), bd_out (by omega), Finset.sum_eq_zero, sub_zero]
        intro l hl
        have := Finset.mem_range.1 hl
        rw [bd_out (c := c) (by omega), mul_zero]
  · rw [if_neg ht] at hi3
    rw [if_neg (by omega)]
    have hcn : c1 = n := by omega
    refine wp_pure.2 (hQ _ ⟨hz1, ob, fun i c hic hc ho => p1 i c hic hc (by omega), fun i c hi hc => ?_, fun i c hi hic hc => ?_⟩)
    · rw [bd_in (by omega), ← p2 i c hi (by omega)]
      refine Finset.sum_congr rfl fun l hl => ?_
      have := Finset.mem_range.1 hl
      rw [bd_in (by omega)]
    · rw [bd_in (by omega), bd_in (by omega), p3 i c hi hic (by omega)]
      congr 1
      refine Finset.sum_congr rfl fun l hl => ?_
      have := Finset.mem_range.1 hl
      rw [bd_in (by omega), bd_in (by omega)]

/-! ### the band matrix -/

/-- The Hermitian band matrix stored in the triangle `uplo`. -/
noncomputable def hermBandF (uplo : Uplo) (kd : Nat) (g : Nat → Nat → 𝕜) (i c : Nat) : 𝕜 :=
  if i ≤ c + kd ∧ c ≤ i + kd then hermF uplo g i c else 0

theorem hermBandF_bd {uplo : Uplo} {kd : Nat} {g : Nat → Nat → 𝕜} {i c : Nat} (h : i ≤ c) :
    hermBandF uplo kd g i c = bd kd (hermF uplo g) i c := by
  unfold hermBandF bd
  exact if_congr (by omega) rfl rfl

theorem hermBandF_star {uplo : Uplo} (hu : uplo = .Upper ∨ uplo = .Lower) (kd : Nat) (g : Nat → Nat → 𝕜) (i c : Nat) :
    star (hermBandF uplo kd g i c) = hermBandF uplo kd g c i := by
  unfold hermBandF
  by_cases h : i ≤ c + kd ∧ c ≤ i + kd
  · rw [if_pos h, if_pos (by omega), hermF_starC hu]
  · rw [if_neg h, if_neg (by omega), star_zero]

theorem cholFail_absurd {h : Nat → Nat → 𝕜} {k n : Nat} (hh : ∀ i j, star (h i j) = h j i)
    (hpd : (mat n n h).PosDef) (hk : k < n) (H : CholFail h k) : False := by
  refine (cholFail_not H hh).2 ?_
  have := Matrix.PosDef.submatrix hpd (e := Fin.castLE (by omega : k + 1 ≤ n)) (Fin.castLE_injective _)
  exact this

/-- State of pbtrf before column `j`. -/
structure PbInv (uplo : Uplo) (A W : MatV L) (n w kd : Nat) (μ : Store L 𝕜) (j : Nat) (ν : Store L 𝕜) : Prop where
  le : j ≤ n
  off : BandOff uplo A W n kd μ ν
  wz : WZero uplo W w ν
  trail : ∀ i c, i ≤ c → j + c < n → bd kd (hermF uplo (entry ν A)) (j + i) (j + c) =
    hermBandF uplo kd (entry μ A) (j + i) (j + c) - ∑ l ∈ range j, star (bd kd (rowsF uplo (entry ν A)) l (j + i)) *
      bd kd (rowsF uplo (entry ν A)) l (j + c)
  rows : CholRows (hermBandF uplo kd (entry μ A)) (bd kd (rowsF uplo (entry ν A))) j n

set_option maxHeartbeats 1000000 in
theorem wp_pbStep {dbg internal : Bool} {nbp : Nat} {variant : PotrfVariant} {uplo : Uplo} (hu : uplo = .Upper ∨ uplo = .Lower)
    {A W : MatV L} {n kd nb : Nat}
    (hA : A.Inj) (hm : A.m = n) (hn : A.n = n) (hW : W.Inj) (hwm : W.m = nb) (hwn : W.n = nb) (hAW : A.Disj W) (hWA : W.Disj A)
    (hnb : 0 < nb) (hkd : nb ≤ kd) {μ : Store L 𝕜}
    (hpd : (mat n n (hermBandF uplo kd (entry μ A))).PosDef)
    (hfac : ∀ (D : MatV L) (s : Nat) (μ : Store L 𝕜), D.Inj → D.m = s → D.n = s →
      wp (if uplo = .Upper then potrf dbg internal nbp variant .Upper D else potf2 dbg .Lower D : M L 𝕜 Nat) μ
        (fun _ ν => SameOff D uplo μ ν ∧ (CholRows (hermF uplo (entry μ D)) (rowsF uplo (entry ν D)) s s ∨
          ∃ k, k < s ∧ CholFail (hermF uplo (entry μ D)) k))
        (fun _ _ => ∃ k, k < s ∧ CholFail (hermF uplo (entry μ D)) k))
    {j : Nat} {ν : Store L 𝕜} (hj : j < n) (h : PbInv uplo A W n nb kd μ j ν) :
    wp (pbStep dbg internal nbp variant uplo A W kd n nb j) ν
      (fun r ν' => r = none ∧ PbInv uplo A W n nb kd μ (min (j + nb) n) ν') (fun _ _ => False) := by
  unfold pbStep
  obtain ⟨ib, hib⟩ : ∃ ib, ib = min nb (n - j) := ⟨_, rfl⟩
  obtain ⟨j1, hj1⟩ : ∃ j1, j1 = j + ib := ⟨_, rfl⟩
  simp only [← hib]
  rw [show min (j + nb) n = j1 by omega, ← hj1]
  simp only [wp_bind]
  refine wp_slice (by omega) (by omega) (by omega) (by omega) ?_
  have hfail : ∀ k, k < j1 - j → CholFail (hermF uplo (entry ν (A.sub j j1 j j1))) k → False := by
    intro k hk hF
    refine cholFail_absurd (hermBandF_star hu kd _) hpd (show j + k < n by omega) ?_
    refine CholFail.append (n := j + k + 1) (r := bd kd (rowsF uplo (entry ν A))) (h.rows.mono (le_refl _) (by omega)) (by omega) ?_ hF
    intro i c h1 h2
    rw [← h.trail i c h1 (by omega), bd_in (by omega), hermF_sub uplo hu]
  refine wp_mono (hfac (A.sub j j1 j j1) (j1 - j) ν (hA.sub (by omega) (by omega)) rfl rfl) ?_ ?_
  swap
  · rintro e ν1 ⟨k, hk, hF⟩
    exact hfail k hk hF
  rintro info ν1 ⟨o1, hres⟩
  have hR : CholRows (hermF uplo (entry ν (A.sub j j1 j j1))) (rowsF uplo (entry ν1 (A.sub j j1 j j1))) (j1 - j) (j1 - j) := by
    rcases hres with h | ⟨k, hk, hF⟩
    · exact h
    · exact (hfail k hk hF).elim
  have o1A : Only A ν ν1 := only_tri hm hn (by omega) o1
  have o1b : BandOff uplo A W n kd ν ν1 := bandOff_tri hu o1 (by omega) (by omega)
  have c1 : ∀ i c, i < n → c < n → (i < j ∨ c < j ∨ j1 ≤ i ∨ j1 ≤ c) →
      rowsF uplo (entry ν1 A) i c = rowsF uplo (entry ν A) i c := fun i c hi hc ho =>
    rowsF_outT hu hA hm hn o1 (by omega) hi hc (by omega)
  have hR' : CholRows (fun i c => bd kd (hermF uplo (entry ν A)) (j + i) (j + c))
      (fun i c => bd kd (rowsF uplo (entry ν1 A)) (j + i) (j + c)) (j1 - j) (j1 - j) :=
    hR.congr (le_refl _) (fun i c _ _ _ => by rw [bd_in (by omega), hermF_sub uplo hu])
      (fun i c _ _ _ => by rw [bd_in (by omega), rowsF_sub'])
  have hz1 : WZero uplo W nb ν1 := fun l c hlc hc => by
    rw [rowsF_disj o1A hWA hwm hwn (by omega) hc]; exact h.wz l c hlc hc
  have hdiag : ∀ i, i < ib → entry ν1 A (j + i) (j + i) ≠ 0 := fun i hi => by
    have := (hR.pos i (by omega)).1
    rw [rowsF_sub'] at this
    exact rowsF_diag_ne this
  -- from the panel to the invariant
  have hpanel : ∀ ν2, PbPanel uplo A W n nb kd j j1 ν1 ν2 → PbInv uplo A W n nb kd μ j1 ν2 := by
    intro ν2 hp
    have hR2 : CholRows (fun i c => bd kd (hermF uplo (entry ν A)) (j + i) (j + c))
        (fun i c => bd kd (rowsF uplo (entry ν2 A)) (j + i) (j + c)) (j1 - j) (n - j) := by
      refine panel_rows (r1 := bd kd (rowsF uplo (entry ν1 A))) (r2 := bd kd (rowsF uplo (entry ν2 A))) (by omega) (by omega) hR' (fun i c h1 h2 => ?_)
        (fun i c h1 h2 => ?_)
      · unfold bd; rw [hp.p1 i c h1 (by omega) (by omega)]
      · have := hp.p2 i c h1 h2
        rw [show j + (j1 - j + c) = j1 + c by omega]
        have hr : bd kd (hermF uplo (entry ν A)) (j + i) (j1 + c) = bd kd (rowsF uplo (entry ν1 A)) (j + i) (j1 + c) := by
          unfold bd
          rw [hermF_rows hu _ (by omega), if_neg (show ¬ j + i = j1 + c by omega), c1 _ _ (by omega) (by omega) (by omega)]
        rw [hr, ← this]
        refine Finset.sum_congr rfl fun l hl => ?_
        have := Finset.mem_range.1 hl
        rw [bd_in (c := j + i) (by omega)]
    have hb12 : ∀ l c, l < j → l ≤ c → c < n → bd kd (rowsF uplo (entry ν2 A)) l c = bd kd (rowsF uplo (entry ν A)) l c := fun l c h1 h2 h3 => by
      unfold bd
      rw [hp.p1 l c h2 h3 (by omega), c1 l c (by omega) h3 (by omega)]
    have hrows : CholRows (hermBandF uplo kd (entry μ A)) (bd kd (rowsF uplo (entry ν2 A))) j1 n := by
      have := CholRows.append (r' := bd kd (rowsF uplo (entry ν2 A))) h.rows (by omega)
        (by omega : j1 - j ≤ n - j) (fun i c _ h2 h3 => h.trail i c h2 h3) hR2
        (fun l c h1 h2 h3 => hb12 l c h1 h2 h3)
        (fun _ _ _ _ _ => rfl)
      rwa [show j + (j1 - j) = j1 by omega] at this
    refine ⟨by omega, (h.off.trans o1b).trans hp.off, hp.wz, fun i c hic hc => ?_, hrows⟩
    rw [hp.p3 (j1 + i) (j1 + c) (by omega) (by omega) (by omega)]
    have ht := h.trail (j1 - j + i) (j1 - j + c) (by omega) (by omega)
    rw [show j + (j1 - j + i) = j1 + i by omega, show j + (j1 - j + c) = j1 + c by omega] at ht
    have hbh : bd kd (hermF uplo (entry ν1 A)) (j1 + i) (j1 + c) = bd kd (hermF uplo (entry ν A)) (j1 + i) (j1 + c) := by
      unfold bd
      rw [hermF_same hu (by omega) (c1 (j1 + i) (j1 + c) (by omega) (by omega) (by omega))]
    rw [hbh, ht, sub_sub]
    congr 1
    conv_rhs => rw [show j1 = j + (j1 - j) by omega, Finset.sum_range_add]
    congr 1
    · refine Finset.sum_congr rfl (fun l hl => ?_)
      have := Finset.mem_range.1 hl
      rw [show j + (j1 - j) = j1 by omega, hb12 _ _ (by omega) (by omega) (by omega), hb12 _ _ (by omega) (by omega) (by omega)]
    · rw [show j + (j1 - j) = j1 by omega]
  by_cases hc : (if uplo = .Upper then j1 < n else j1 ≤ n : Prop)
  · rw [if_pos hc, if_neg (by omega)]
    refine wp_pbPanel hu hA hm hn hW hwm hwn hAW hWA hj1 (by omega) (by omega) (by omega) (by omega) rfl rfl hdiag hz1 fun ν2 hp => ?_
    exact wp_pure.2 ⟨rfl, hpanel ν2 hp⟩
  · rw [if_neg hc]
    have hjn : j1 = n := by
      rcases hu with rfl | rfl
      · rw [if_pos rfl] at hc; omega
      · rw [if_neg (by decide)] at hc; omega
    simp only [wp_pure]
    exact ⟨trivial, hpanel ν1 ⟨hz1, BandOff.refl, fun _ _ _ _ _ => rfl, fun i c _ _ => by omega, fun i c _ _ _ => by omega⟩⟩

end TLA
