import Verif.Props.Cholesky
import Verif.Proofs.PbtrfLoop

/-!
# C93: banded Cholesky factorization

`pbtrf_with_workspace` on a full-format matrix of which only the band of width `kd` in the triangle `uplo` is used.
-/

set_option linter.unusedTactic false
set_option linter.unreachableTactic false
set_option linter.unusedVariables false

namespace TLA
variable {L 𝕜 : Type} [DecidableEq L] [RCLike 𝕜]
open scoped ComplexOrder

/-! ### Specification -/

/-- The entries within distance `kd` of the diagonal. -/
def bandF (kd : Nat) (g : Nat → Nat → 𝕜) (i j : Nat) : 𝕜 := if i ≤ j + kd ∧ j ≤ i + kd then g i j else 0

/-- The Hermitian band matrix of order `n` given by the band of the selected triangle of `A`. -/
noncomputable def hermBand (uplo : Uplo) (kd n : Nat) (μ : Store L 𝕜) (A : MatV L) : Matrix (Fin n) (Fin n) 𝕜 :=
  mat n n (hermF uplo (bandF kd (entry μ A)))

/-- The triangular band matrix of order `n` given by the band of the selected triangle of `A`. -/
def triBand (uplo : Uplo) (kd n : Nat) (μ : Store L 𝕜) (A : MatV L) : Matrix (Fin n) (Fin n) 𝕜 :=
  mat n n (triF uplo .NonUnit (bandF kd (entry μ A)))

/-- `l` holds an entry of the band in the selected triangle. -/
def BandCell (uplo : Uplo) (kd n : Nat) (A : MatV L) (l : L) : Prop :=
  ∃ i j, i < n ∧ j < n ∧ inTri uplo i j ∧ i ≤ j + kd ∧ j ≤ i + kd ∧ A.cell i j = l

/-! ### Proofs -/

theorem hermF_bandF {uplo : Uplo} (hu : uplo = .Upper ∨ uplo = .Lower) (kd : Nat) (g : Nat → Nat → 𝕜) (i j : Nat) :
    hermF uplo (bandF kd g) i j = hermBandF uplo kd g i j := by
  have hb : ∀ a b, bandF kd g a b = if a ≤ b + kd ∧ b ≤ a + kd then g a b else 0 := fun _ _ => rfl
  by_cases h : i ≤ j + kd ∧ j ≤ i + kd
  · have e1 : bandF kd g i j = g i j := by rw [hb, if_pos h]
    have e2 : bandF kd g j i = g j i := by rw [hb, if_pos ⟨h.2, h.1⟩]
    have e3 : bandF kd g i i = g i i := by rw [hb, if_pos ⟨by omega, by omega⟩]
    unfold hermBandF hermF
    rw [if_pos h, e1, e2, e3]
  · have e1 : bandF kd g i j = 0 := by rw [hb, if_neg h]
    have e2 : bandF kd g j i = 0 := by rw [hb, if_neg fun h' => h ⟨h'.2, h'.1⟩]
    unfold hermBandF hermF
    rw [if_neg h, e1, e2, if_neg (show ¬ i = j by omega), star_zero]
    exact ite_self _

theorem rowsF_bandF {uplo : Uplo} (kd : Nat) (g : Nat → Nat → 𝕜) {i j : Nat} (h : i ≤ j) :
    rowsF uplo (bandF kd g) i j = bd kd (rowsF uplo g) i j := by
  have hb : ∀ a b, bandF kd g a b = if a ≤ b + kd ∧ b ≤ a + kd then g a b else 0 := fun _ _ => rfl
  by_cases e : j ≤ i + kd
  · have e1 : bandF kd g i j = g i j := by rw [hb, if_pos ⟨by omega, e⟩]
    have e2 : bandF kd g j i = g j i := by rw [hb, if_pos ⟨e, by omega⟩]
    unfold rowsF bd
    rw [e1, e2, if_pos e]
  · have e1 : bandF kd g i j = 0 := by rw [hb, if_neg fun h' => e h'.2]
    have e2 : bandF kd g j i = 0 := by rw [hb, if_neg fun h' => e h'.1]
    unfold rowsF bd
    rw [e1, e2, if_neg e, star_zero]
    exact ite_self _

theorem isCholFactor_band {uplo : Uplo} (hu : uplo = .Upper ∨ uplo = .Lower) {kd n : Nat} {A : MatV L} {μ ν : Store L 𝕜}
    (H : CholRows (hermBandF uplo kd (entry μ A)) (bd kd (rowsF uplo (entry ν A))) n n) :
    IsCholFactor uplo (hermBand uplo kd n μ A) (triBand uplo kd n ν A) := by
  have := isCholFactor_of_rows (L := Nat × Nat) hu (A := ⟨n, n, fun i j => (i, j)⟩) (n := n)
    (μ := fun x => bandF kd (entry μ A) x.1 x.2) (ν := fun x => bandF kd (entry ν A) x.1 x.2) (𝕜 := 𝕜)
    (H.congr (le_refl _) (fun i j _ _ _ => hermF_bandF hu kd _ i j) (fun i j _ h _ => rowsF_bandF kd _ h))
  exact this

theorem wp_pbFac {dbg internal : Bool} {nbp : Nat} (hnbp : 0 < nbp) {variant : PotrfVariant} {uplo : Uplo}
    (hu : uplo = .Upper ∨ uplo = .Lower) (D : MatV L) (s : Nat) (μ : Store L 𝕜) (hD : D.Inj) (hm : D.m = s) (hn : D.n = s) :
    wp (if uplo = .Upper then potrf dbg internal nbp variant .Upper D else potf2 dbg .Lower D : M L 𝕜 Nat) μ
        (fun _ ν => SameOff D uplo μ ν ∧ (CholRows (hermF uplo (entry μ D)) (rowsF uplo (entry ν D)) s s ∨
          ∃ k, k < s ∧ CholFail (hermF uplo (entry μ D)) k))
        (fun _ _ => dbg = true ∧ ∃ k, k < s ∧ CholFail (hermF uplo (entry μ D)) k) := by
  have key : ∀ {prog : M L 𝕜 Nat} {thr : Bool} {code}, (thr = true → dbg = true) → wp prog μ (CholRet thr uplo D s μ) (CholThrow thr code uplo D s μ) →
      wp prog μ
        (fun _ ν => SameOff D uplo μ ν ∧ (CholRows (hermF uplo (entry μ D)) (rowsF uplo (entry ν D)) s s ∨
          ∃ k, k < s ∧ CholFail (hermF uplo (entry μ D)) k))
        (fun _ _ => dbg = true ∧ ∃ k, k < s ∧ CholFail (hermF uplo (entry μ D)) k) := by
    intro prog thr code ht h
    refine wp_mono h ?_ ?_
    · rintro info ν ⟨o, ⟨_, h⟩ | ⟨_, k, hk, _, hF⟩⟩
      · exact ⟨o, Or.inl h⟩
      · exact ⟨o, Or.inr ⟨k, hk, hF⟩⟩
    · rintro e ν ⟨h0, o, k, hk, _, hF⟩
      exact ⟨ht h0, k, hk, hF⟩
  rcases hu with rfl | rfl
  · rw [if_pos rfl]
    unfold potrf
    simp only [wp_bind]
    refine wp_squareTriChecks (Or.inl rfl) (by omega) ?_
    cases variant with
    | Blocked => exact key (fun h => h) (wp_potrfBlocked (Or.inl rfl) hD hm hn hnbp μ)
    | Recursive => exact key (fun h => (Bool.and_eq_true _ _ ▸ h).1) (wp_potrf2 (Or.inl rfl) s (dbg && internal) D μ hm hn hD)
    | Level2 => exact key (fun h => h) (wp_potf2 (Or.inl rfl) hD hm hn μ)
    | RightLooking => exact key (fun h => h) (wp_potrfRl (Or.inl rfl) hD hm hn hnbp μ)
  · rw [if_neg (by decide)]
    exact key (fun h => h) (wp_potf2 (Or.inr rfl) hD hm hn μ)

/-- **C93** For every positive definite Hermitian band matrix, block size `nb ≤ kd` and workspace contents, pbtrf_with_workspace returns
normally and leaves its triangular band factor with positive diagonal; only the band of the selected triangle and the workspace
are written. -/
theorem C93_pbtrf (dbg internal : Bool) (nbp : Nat) (hnbp : 0 < nbp) (variant : PotrfVariant) (uplo : Uplo)
    (hu : uplo = .Upper ∨ uplo = .Lower) (A W : MatV L) (n kd nb : Nat) (hA : A.Inj) (hm : A.m = n) (hn : A.n = n)
    (hW : W.Inj) (hwm : W.m = nb) (hwn : W.n = nb) (hAW : A.Disj W) (hnb : 0 < nb) (hkd : nb ≤ kd) (hkn : kd < n) (μ : Store L 𝕜)
    (hpd : (hermBand uplo kd n μ A).PosDef) :
    ∃ ν, pbtrf dbg internal nbp variant uplo A kd nb W μ = (.ok (), ν) ∧
      IsCholFactor uplo (hermBand uplo kd n μ A) (triBand uplo kd n ν A) ∧
      ∀ l, ¬ W.Owns l → ¬ BandCell uplo kd n A l → ν l = μ l := by
  have hWA : W.Disj A := hAW.symm
  have hpd' : (mat n n (hermBandF uplo kd (entry μ A))).PosDef := by
    have : hermBand uplo kd n μ A = mat n n (hermBandF uplo kd (entry μ A)) := by
      unfold hermBand
      rw [mat_ext_iff]
      intro i j _ _
      exact hermF_bandF hu kd _ i j
    rwa [this] at hpd
  have key : wp (pbtrf dbg internal nbp variant uplo A kd nb W) μ (fun _ ν =>
      IsCholFactor uplo (hermBand uplo kd n μ A) (triBand uplo kd n ν A) ∧ BandOff uplo A W n kd μ ν) (fun _ _ => False) := by
    unfold pbtrf
    simp only [wp_bind, hm]
    rw [wp_check, if_pos (by rcases hu with rfl | rfl <;> decide)]
    rw [wp_check, if_pos (by simp [hn])]
    rw [wp_check, if_pos (by simpa using hkn)]
    refine wp_conseq (wp_lasetZ (A := W) hW) fun _ μ1 h1 => ?_
    have hW1 : Only W μ μ1 := fun l hl => h1.frame l hl
    have eA : ∀ i j, i < n → j < n → entry μ1 A i j = entry μ A i j := fun i j hi hj => hW1 _ (hAW _ _ (by omega) (by omega))
    have eB : ∀ i j, i < n → j < n → hermBandF uplo kd (entry μ1 A) i j = hermBandF uplo kd (entry μ A) i j := by
      intro i j hi hj
      unfold hermBandF hermF
      rw [eA i i hi hi, eA i j hi hj, eA j i hj hi]
    have hpd1 : (mat n n (hermBandF uplo kd (entry μ1 A))).PosDef := by
      have : mat n n (hermBandF uplo kd (entry μ1 A)) = mat n n (hermBandF uplo kd (entry μ A)) := by
        rw [mat_ext_iff]; exact fun i j hi hj => eB i j hi hj
      rwa [this]
    refine wp_mono (wp_forStep (Q := fun r ν => PbInv uplo A W n nb kd μ1 n ν)
      (E := fun _ _ => False) (fun j ν => PbInv uplo A W n nb kd μ1 (min j n) ν) hnb ?_ ?_ 0 μ1 ?_) ?_ (fun _ _ h => h)
    · intro j ν hj h
      rw [Nat.min_eq_left (by omega)] at h
      refine wp_mono (wp_pbStep (variant := variant) (internal := internal) (dbg := dbg) (nbp := nbp) hu hA hm hn hW hwm hwn hAW hWA hnb hkd hpd1
        (fun D s μ h1 h2 h3 => wp_mono (wp_pbFac hnbp hu D s μ h1 h2 h3) (fun _ _ h => h) (fun _ _ h => h.2)) hj h) ?_ (fun _ _ h => h)
      rintro r ν' ⟨rfl, h'⟩
      exact h'
    · intro j ν hj h
      rwa [Nat.min_eq_right hj] at h
    · rw [Nat.zero_min]
      refine ⟨Nat.zero_le _, BandOff.refl, fun l c h2 h3 => ?_, fun i c hic _ => ?_, fun _ _ h => by omega, fun _ h => by omega⟩
      · unfold rowsF
        rw [show entry μ1 W c l = 0 from h1.val c l (by omega) (by omega), show entry μ1 W l c = 0 from h1.val l c (by omega) (by omega), star_zero]
        exact ite_self _
      · rw [Finset.sum_range_zero, sub_zero, hermBandF_bd (by omega)]
    · intro _ ν h
      refine ⟨isCholFactor_band hu ?_, (bandOff_only hW1).trans h.off⟩
      exact h.rows.congr (le_refl _) (fun i j _ _ _ => (eB i j (by omega) (by omega)).symm) (fun _ _ _ _ _ => rfl)
  unfold wp at key
  rcases hx : pbtrf dbg internal nbp variant uplo A kd nb W μ with ⟨r, ν⟩
  rw [hx] at key
  cases r with
  | error e => exact key.elim
  | ok r =>
    obtain ⟨h1, h2⟩ := key
    refine ⟨ν, rfl, h1, fun l hl hb => h2 l hl fun i c hic hc hk e => hb ?_⟩
    rcases hu with rfl | rfl
    · exact ⟨i, c, by omega, hc, hic, by omega, hk, e⟩
    · exact ⟨c, i, hc, by omega, hic, hk, by omega, e⟩

/-- **C93** (deviation) With a block size larger than the bandwidth (the default is 32) `kd - ib` wraps around and the first step
accesses elements outside the matrix: always for Lower, and for Upper unless one block covers the matrix. -/
theorem C93_kd_lt_nb_violated (internal : Bool) (nbp : Nat) (hnbp : 0 < nbp) (variant : PotrfVariant) (uplo : Uplo)
    (A W : MatV L) (n kd nb : Nat) (hu : uplo = .Lower ∨ uplo = .Upper ∧ nb < n) (hA : A.Inj) (hm : A.m = n) (hn : A.n = n)
    (hW : W.Inj) (hkd : kd < nb) (hkn : kd < n) (μ : Store L 𝕜) :
    ∃ ν, pbtrf false internal nbp variant uplo A kd nb W μ = (.error .ub, ν) := by
  have hu' : uplo = .Upper ∨ uplo = .Lower := by rcases hu with rfl | ⟨rfl, _⟩ <;> simp
  have key : wp (pbtrf false internal nbp variant uplo A kd nb W) μ (fun _ _ => False) (fun e _ => e = .ub) := by
    unfold pbtrf
    simp only [wp_bind, hm]
    rw [wp_check, if_pos (by rcases hu' with rfl | rfl <;> decide)]
    rw [wp_check, if_pos (by simp [hn])]
    rw [wp_check, if_pos (by simpa using hkn)]
    refine wp_conseq (wp_lasetZ (A := W) hW) fun _ μ1 h1 => ?_
    rw [forStep, dif_pos (by omega)]
    simp only [wp_bind]
    unfold pbStep
    simp only [wp_bind]
    refine wp_slice (by omega) (by omega) (by omega) (by omega) ?_
    refine wp_mono (wp_pbFac (dbg := false) (internal := internal) (variant := variant) hnbp hu' (A.sub 0 (0 + min nb (n - 0)) 0 (0 + min nb (n - 0)))
      (0 + min nb (n - 0) - 0) μ1 (hA.sub (by omega) (by omega)) rfl rfl) ?_ (fun _ _ h => absurd h.1 (by decide))
    intro _ ν _
    have hc : (if uplo = .Upper then 0 + min nb (n - 0) < n else 0 + min nb (n - 0) ≤ n : Prop) := by
      rcases hu with rfl | ⟨rfl, _⟩
      · rw [if_neg (by decide)]; omega
      · rw [if_pos rfl]; omega
    rw [if_pos hc, if_pos (by omega)]
    exact wp_fail.2 rfl
  unfold wp at key
  rcases hx : pbtrf false internal nbp variant uplo A kd nb W μ with ⟨r, ν⟩
  rw [hx] at key
  cases r with
  | error e => exact ⟨ν, by rw [show e = .ub from key]⟩
  | ok r => exact key.elim

/-- **C93** (deviation) The result of potrf is dropped: without exceptions, and with one block covering the matrix, pbtrf returns normally
for every matrix, positive definite or not. -/
theorem C93_failure_ignored (internal : Bool) (nbp : Nat) (hnbp : 0 < nbp) (variant : PotrfVariant)
    (A W : MatV L) (n kd nb : Nat) (hA : A.Inj) (hm : A.m = n) (hn : A.n = n)
    (hW : W.Inj) (hnb : n ≤ nb) (hkn : kd < n) (μ : Store L 𝕜) :
    ∃ ν, pbtrf false internal nbp variant .Upper A kd nb W μ = (.ok (), ν) := by
  have key : wp (pbtrf false internal nbp variant .Upper A kd nb W) μ (fun _ _ => True) (fun _ _ => False) := by
    unfold pbtrf
    simp only [wp_bind, hm]
    rw [wp_check, if_pos (by decide)]
    rw [wp_check, if_pos (by simp [hn])]
    rw [wp_check, if_pos (by simpa using hkn)]
    refine wp_conseq (wp_lasetZ (A := W) hW) fun _ μ1 h1 => ?_
    refine wp_mono (wp_forStep (Q := fun _ _ => True) (E := fun _ _ => False) (fun j ν => j = 0 ∨ n ≤ j) (by omega) ?_ (fun _ _ _ _ => trivial)
      0 μ1 (Or.inl rfl)) (fun _ _ _ => by simp) (fun _ _ h => h)
    rintro j ν hj hj0
    obtain rfl : j = 0 := by omega
    unfold pbStep
    simp only [wp_bind]
    refine wp_slice (by omega) (by omega) (by omega) (by omega) ?_
    refine wp_mono (wp_pbFac (dbg := false) (internal := internal) (variant := variant) hnbp (Or.inl rfl) (A.sub 0 (0 + min nb (n - 0)) 0 (0 + min nb (n - 0)))
      (0 + min nb (n - 0) - 0) ν (hA.sub (by omega) (by omega)) rfl rfl) ?_ (fun _ _ h => absurd h.1 (by decide))
    intro _ ν1 _
    have hc : ¬ (if True then 0 + min nb (n - 0) < n else 0 + min nb (n - 0) ≤ n : Prop) := by
      rw [if_pos trivial]; omega
    rw [if_neg hc]
    simp only [wp_pure]
    omega
  unfold wp at key
  rcases hx : pbtrf false internal nbp variant .Upper A kd nb W μ with ⟨r, ν⟩
  rw [hx] at key
  cases r with
  | error e => exact key.elim
  | ok r => exact ⟨ν, rfl⟩

/-! ### Non-vacuity -/

/-- The tridiagonal matrix with diagonal `1, 2, 2, …` and off-diagonals 1, and garbage (7) outside the band. -/
noncomputable def tridStore : Store (Nat × Nat × Nat) ℝ := fun l =>
  if l.2.1 = l.2.2 then (if l.2.1 = 0 then 1 else 2)
  else if l.2.1 = l.2.2 + 1 ∨ l.2.2 = l.2.1 + 1 then 1
  else if l.2.1 = l.2.2 + 2 ∨ l.2.2 = l.2.1 + 2 then 0 else 7

theorem tridStore_pd (uplo : Uplo) (hu : uplo = .Upper ∨ uplo = .Lower) :
    (hermBand uplo 2 5 tridStore (mkM 0 5 5)).PosDef := by
  refine chol_posDef (r := fun l c => if c = l ∨ c = l + 1 then 1 else 0) ⟨fun i j hi hij hj => ?_, fun i _ => by simp⟩
    (hermF_starC hu _)
  rw [hermF_rows hu _ hij]
  rcases hu with rfl | rfl <;> interval_cases j <;> interval_cases i <;>
    norm_num [Finset.sum_range_succ, rowsF, bandF, entry, mkM, tridStore, re_def]

example (uplo : Uplo) (hu : uplo = .Upper ∨ uplo = .Lower) :
    ∃ ν, pbtrf true true 32 .Blocked uplo (mkM 0 5 5) 2 2 (mkM 1 2 2) tridStore = (.ok (), ν) ∧
    IsCholFactor uplo (hermBand uplo 2 5 tridStore (mkM 0 5 5)) (triBand uplo 2 5 ν (mkM 0 5 5)) := by
  obtain ⟨ν, h, f, _⟩ := C93_pbtrf (𝕜 := ℝ) true true 32 (by decide) .Blocked uplo hu (mkM 0 5 5) (mkM 1 2 2) 5 2 2 (by adm) rfl rfl
    (by adm) rfl rfl (by adm) (by decide) (by decide) (by decide) tridStore (tridStore_pd uplo hu)
  exact ⟨ν, h, f⟩

end TLA
