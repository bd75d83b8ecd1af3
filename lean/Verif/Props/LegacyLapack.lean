import Verif.Model.LegacyLapack
import Verif.Props.Legacy
import Verif.Props.Legacy3
import Verif.Props.Region
import Verif.Props.Scaling
import Verif.Props.Cholesky
import Verif.Props.Inverse
import Verif.Props.House
import Verif.Props.BlockRefl
import Verif.Props.Norm

/-!
# C87: the legacy LAPACK interface
-/

set_option linter.unusedSimpArgs false
set_option linter.unusedVariables false
set_option linter.unusedSectionVars false

namespace TLA

section gen
variable {T : Type} [Field T] [StarRing T] [DecidableEq T] [ReIm T]

theorem lgTau_eq (k p : Nat) : lgTau k p = stVec k p 1 := lgVec_eq (inc := 1) (by decide)

theorem of_wp {α : Type} {x : M Nat T α} {μ : Store Nat T} {Q : α → Store Nat T → Prop}
    (h : wp x μ Q) : ∃ r ν, x μ = (.ok r, ν) ∧ Q r ν := wp_iff.1 h

theorem checkSide {side : Side} (hs : side = .Left ∨ side = .Right) :
    (!(side ≠ .Left ∧ side ≠ .Right : Bool)) = true := by rcases hs with rfl | rfl <;> rfl

/-- **C87, lacpy.** Both overloads: the selected part of `A` is copied, nothing else written. -/
theorem C87_lacpy {uplo : Uplo} (hu : uplo = .Upper ∨ uplo = .Lower ∨ uplo = .General)
    {m n A lda B ldb : Nat} (la : m ≤ lda) (lb : m ≤ ldb)
    (hAB : (stMat .ColMajor m n A lda).Disj (stMat .ColMajor m n B ldb)) (μ : Store Nat T) :
    ∃ ν, lgLacpy uplo m n A lda B ldb μ = (.ok (), ν) ∧
      (∀ i j, i < m → j < n → entry ν (stMat .ColMajor m n B ldb) i j =
        if inTri uplo i j then entry μ (stMat .ColMajor m n A lda) i j
        else entry μ (stMat .ColMajor m n B ldb) i j) ∧
      ∀ l, ¬ (stMat .ColMajor m n B ldb).Owns l → ν l = μ l := by
  refine wp_ex ?_
  unfold lgLacpy
  simp only [wp_bind, wp_check, notTriGen_false hu, Bool.not_false, if_true]
  refine wp_lgCol la (wp_lgCol lb ?_)
  obtain ⟨ν, e, h1, h2⟩ := C24_lacpy uplo hu (stMat .ColMajor m n A lda) (stMat .ColMajor m n B ldb)
    (le_refl _) (le_refl _) (stCol_inj lb) hAB μ
  refine wp_of_eq e ⟨fun i j hi hj => ?_, h2⟩
  rw [h1 i j hi hj]
  exact if_congr ⟨fun h => h.2.2, fun h => ⟨hi, hj, h⟩⟩ rfl rfl

/-- The triangle a `MatrixType` selects in lacpy and laset. -/
theorem C87_lacpy_type (t : MatrixType) {m n A lda B ldb : Nat} (la : m ≤ lda) (lb : m ≤ ldb)
    (hAB : (stMat .ColMajor m n A lda).Disj (stMat .ColMajor m n B ldb)) (μ : Store Nat T) :
    ∃ ν, lgLacpyT t m n A lda B ldb μ = (.ok (), ν) ∧
      (∀ i j, i < m → j < n → entry ν (stMat .ColMajor m n B ldb) i j =
        if (t = .Upper → i ≤ j) ∧ (t = .Lower → j ≤ i) then entry μ (stMat .ColMajor m n A lda) i j
        else entry μ (stMat .ColMajor m n B ldb) i j) ∧
      ∀ l, ¬ (stMat .ColMajor m n B ldb).Owns l → ν l = μ l := by
  obtain ⟨ν, e, h1, h2⟩ := C87_lacpy (uplo := mtUplo t) (by cases t <;> simp [mtUplo]) la lb hAB μ
  refine ⟨ν, e, fun i j hi hj => ?_, h2⟩
  rw [h1 i j hi hj]
  refine if_congr ?_ rfl rfl
  cases t <;> simp [mtUplo, inTri]

/-- **C87, laset.** -/
theorem C87_laset {uplo : Uplo} (hu : uplo = .Upper ∨ uplo = .Lower ∨ uplo = .General)
    {m n A lda : Nat} (alpha beta : T) (la : m ≤ lda) (μ : Store Nat T) :
    ∃ ν, lgLaset uplo m n alpha beta A lda μ = (.ok (), ν) ∧
      (∀ i j, i < m → j < n → entry ν (stMat .ColMajor m n A lda) i j =
        lasetVal uplo alpha beta (entry μ (stMat .ColMajor m n A lda) i j) i j) ∧
      ∀ l, ¬ (stMat .ColMajor m n A lda).Owns l → ν l = μ l := by
  refine wp_ex ?_
  unfold lgLaset
  simp only [wp_bind, wp_check, notTriGen_false hu, Bool.not_false, if_true]
  rw [wp_ite]
  by_cases h0 : m = 0 ∨ n = 0
  · rw [if_pos h0, wp_pure]
    exact ⟨fun i j hi hj => by omega, fun _ _ => rfl⟩
  rw [if_neg h0, wp_bind]
  refine wp_lgCol la ?_
  obtain ⟨ν, e, h1, h2⟩ := C24_laset uplo hu alpha beta (stMat .ColMajor m n A lda) (stCol_inj la) μ
  exact wp_of_eq e ⟨h1, h2⟩

/-- **C87, laset by MatrixType.** -/
theorem C87_laset_type (t : MatrixType) {m n A lda : Nat} (alpha beta : T) (la : m ≤ lda)
    (μ : Store Nat T) :
    ∃ ν, lgLasetT t m n alpha beta A lda μ = (.ok (), ν) ∧
      (∀ i j, i < m → j < n → entry ν (stMat .ColMajor m n A lda) i j =
        if i = j then beta else if (t = .Upper → i ≤ j) ∧ (t = .Lower → j ≤ i) then alpha
        else entry μ (stMat .ColMajor m n A lda) i j) ∧
      ∀ l, ¬ (stMat .ColMajor m n A lda).Owns l → ν l = μ l := by
  obtain ⟨ν, e, h1, h2⟩ := C87_laset (uplo := mtUplo t) (by cases t <;> simp [mtUplo]) alpha beta la μ
  refine ⟨ν, e, fun i j hi hj => ?_, h2⟩
  rw [h1 i j hi hj]
  unfold lasetVal
  refine if_congr Iff.rfl rfl (if_congr ?_ rfl rfl)
  cases t <;> simp [mtUplo, inTri]

variable {R : Type} [Field R] [LinearOrder R] [IsStrictOrderedRing R]

/-- **C87, lascl** on dense types: the selected part is multiplied by `a/b`. -/
theorem C87_lascl [Archimedean R] (emb : R →+* T) (small big : R) (hs0 : 0 < small)
    (hs1 : small < 1) (hsb : small * big = 1) {t : MatrixType} (kl ku : Nat) (b a : R) (hb : b ≠ 0)
    {m n A lda : Nat} (la : m ≤ lda)
    (ht : t = .General ∨ t = .Lower ∨ t = .Upper ∨ (t = .Hessenberg ∧ (n < m ∨ m = 0)))
    (μ : Store Nat T) :
    ∃ N, ∀ fuel, N ≤ fuel → ∃ ν, lgLascl emb small big fuel t kl ku b a m n A lda μ = (.ok 0, ν) ∧
      (∀ i j, i < m → j < n → entry ν (stMat .ColMajor m n A lda) i j =
        if (t = .Upper → i ≤ j) ∧ (t = .Lower → j ≤ i) ∧ (t = .Hessenberg → i ≤ j + 1) then
          entry μ (stMat .ColMajor m n A lda) i j * emb (a / b)
        else entry μ (stMat .ColMajor m n A lda) i j) ∧
      ∀ l, ¬ (stMat .ColMajor m n A lda).Owns l → ν l = μ l := by
  obtain ⟨N, hN⟩ := C26_lascl emb small big hs0 hs1 hsb (mtUplo4 t) b a hb (stMat .ColMajor m n A lda) (stCol_inj la) (by
        intro h
        rcases ht with rfl | rfl | rfl | ⟨rfl, h'⟩
        · simp [mtUplo4] at h
        · simp [mtUplo4] at h
        · simp [mtUplo4] at h
        · exact h') μ
  refine ⟨N, fun fuel hf => ?_⟩
  obtain ⟨ν, e, h1, h2⟩ := hN fuel hf
  have key : wp (lgLascl emb small big fuel t kl ku b a m n A lda) μ (fun r ν' => r = 0 ∧ ν' = ν) := by
    unfold lgLascl
    have h3 : (!(lda < m ∧ (t = .General ∨ t = .Lower ∨ t = .Upper ∨ t = .Hessenberg) : Bool)) = true := by
      simp; omega
    rcases ht with rfl | rfl | rfl | ⟨rfl, h'⟩ <;>
    · simp only [wp_bind, wp_check]
      simp only [reduceCtorEq, or_self, or_false, false_or, decide_false, Bool.false_and, Bool.not_false, if_true,
        false_and, true_or, or_true, and_true]
      rw [if_pos (by simpa using la)]
      exact wp_lgCol la (wp_of_eq e ⟨rfl, rfl⟩)
  obtain ⟨r, ν', e', rfl, rfl⟩ := wp_iff.1 key
  refine ⟨_, e', fun i j hi hj => ?_, h2⟩
  rw [h1 i j hi hj]
  refine if_congr ?_ rfl rfl
  rcases ht with rfl | rfl | rfl | ⟨rfl, h'⟩ <;> simp [inTri, mtUplo4]

/-- **C87 fails for banded lascl.** The leading dimension is checked but then ignored: with a lower
band matrix of order 2, one subdiagonal and `lda = 3`, entry (1,1) is stored at offset 3; the
accepted call (a = 2, b = 1) leaves it unscaled and scales the unused cell at offset 2. -/
theorem C87_lascl_band_violated :
    ∃ ν, lgLascl (T := ℚ) (R := ℚ) id (1 / 1024) 1024 10 .LowerBand 1 1 1 2 2 2 0 3 (fun _ => 5) =
      (.ok 0, ν) ∧ ν 0 = 10 ∧ ν 1 = 10 ∧ ν 2 = 10 ∧ ν 3 = 5 := by
  refine ⟨_, Prod.ext (by decide +kernel) rfl, by decide +kernel, by decide +kernel,
    by decide +kernel, by decide +kernel⟩

end gen

section rc
variable {𝕜 : Type} [RCLike 𝕜] [DecidableEq 𝕜] {p : HhPar}

/-- **C87, larf.** `C := H C` or `C := C H`, `H = I - tau v vᴴ` with the leading entry of `v` taken
as one; any nonzero increment of `v`. -/
theorem C87_larf {side : Side} {m n v : Nat} {incv : Int} (tau : 𝕜) {C ldc : Nat} {work : VecV Nat}
    (hs : side = .Left ∨ side = .Right) (hi : incv ≠ 0) (lc : m ≤ ldc)
    (ok : LarfOK side (stVec (if side = .Left then m else n) v incv) (stMat .ColMajor m n C ldc) work)
    (μ : Store Nat 𝕜) :
    ∃ ν, lgLarf side m n v incv tau C ldc work μ = (.ok (), ν) ∧
      mat m n (entry ν (stMat .ColMajor m n C ldc)) = (if side = .Left then
        mat m m (reflF tau (hvec .Forward .Columnwise m
          (ventry μ (stVec (if side = .Left then m else n) v incv)))) *
          mat m n (entry μ (stMat .ColMajor m n C ldc))
        else mat m n (entry μ (stMat .ColMajor m n C ldc)) *
          mat n n (reflF tau (hvec .Forward .Columnwise n
            (ventry μ (stVec (if side = .Left then m else n) v incv))))) ∧
      ∀ l, ¬ (stMat .ColMajor m n C ldc).Owns l → ¬ work.Owns l → ν l = μ l := by
  refine wp_ex ?_
  unfold lgLarf
  simp only [wp_bind, wp_check, checkSide hs, if_true]
  rw [if_pos (by simpa using hi), if_pos (by simpa using lc)]
  refine wp_lgCol lc ?_
  rw [lgVec_eq hi]
  obtain ⟨ν, e, h1, h2⟩ := C38_larf side .Forward .Columnwise _ tau _ work ok μ
  exact wp_of_eq e ⟨h1, h2⟩

/-- **C87, lange.** -/
theorem C87_lange (hl : HhLaws 𝕜 p) (htsml : 0 ≤ p.tsml) {nt : Norm} (hnt : nt ≠ .Two)
    {m n A lda : Nat} (la : m ≤ lda) (μ : Store Nat 𝕜)
    (hd : nt = .Fro → FroOK p m n (entry μ (stMat .ColMajor m n A lda))) :
    ∃ r, lgLange (hhOps p) nt m n A lda μ = (.ok r, μ) ∧
      IsNorm nt m n (entry μ (stMat .ColMajor m n A lda)) r := by
  suffices h : wp (lgLange (hhOps p) nt m n A lda) μ (fun r ν => ν = μ ∧
      IsNorm nt m n (entry μ (stMat .ColMajor m n A lda)) r) by
    obtain ⟨r, ν, e, rfl, h⟩ := wp_iff.1 h
    exact ⟨r, e, h⟩
  unfold lgLange
  simp only [wp_bind, wp_check]
  rw [if_pos (by cases nt <;> first | rfl | exact absurd rfl hnt), wp_ite]
  by_cases h0 : m = 0 ∨ n = 0
  · rw [if_pos h0, wp_pure]
    exact ⟨rfl, isNorm_empty h0 hnt⟩
  rw [if_neg h0, wp_bind]
  refine wp_lgCol la ?_
  obtain ⟨r, e, h⟩ := C48_lange hl htsml hnt (stMat .ColMajor m n A lda) μ hd
  exact wp_of_eq e ⟨rfl, h⟩

/-- **C87, lansy.** -/
theorem C87_lansy (hl : HhLaws 𝕜 p) (htsml : 0 ≤ p.tsml) {nt : Norm} (hnt : nt ≠ .Two) {uplo : Uplo}
    (hu : uplo = .Upper ∨ uplo = .Lower) {n A lda : Nat} (la : n ≤ lda) (μ : Store Nat 𝕜)
    (hd : nt = .Fro → FroOK p n n (symF uplo (entry μ (stMat .ColMajor n n A lda)))) :
    ∃ r, lgLansy (hhOps p) nt uplo n A lda μ = (.ok r, μ) ∧
      IsNorm nt n n (symF uplo (entry μ (stMat .ColMajor n n A lda))) r := by
  suffices h : wp (lgLansy (hhOps p) nt uplo n A lda) μ (fun r ν => ν = μ ∧
      IsNorm nt n n (symF uplo (entry μ (stMat .ColMajor n n A lda))) r) by
    obtain ⟨r, ν, e, rfl, h⟩ := wp_iff.1 h
    exact ⟨r, e, h⟩
  unfold lgLansy
  simp only [wp_bind, wp_check, notTri_false hu, Bool.not_false, if_true]
  rw [if_pos (by cases nt <;> first | rfl | exact absurd rfl hnt), wp_ite]
  by_cases h0 : n = 0
  · rw [if_pos h0, wp_pure]
    exact ⟨rfl, isNorm_empty (.inl h0) hnt⟩
  rw [if_neg h0, wp_bind]
  refine wp_lgCol la ?_
  obtain ⟨r, e, h⟩ := C48_lansy hl htsml hnt hu (stMat .ColMajor n n A lda) rfl μ hd
  exact wp_of_eq e ⟨rfl, h⟩

/-- **C87, lanhe.** -/
theorem C87_lanhe (hl : HhLaws 𝕜 p) (htsml : 0 ≤ p.tsml) {nt : Norm} (hnt : nt ≠ .Two) {uplo : Uplo}
    (hu : uplo = .Upper ∨ uplo = .Lower) {n A lda : Nat} (la : n ≤ lda) (μ : Store Nat 𝕜)
    (hd : nt = .Fro → FroOK p n n (hermF uplo (entry μ (stMat .ColMajor n n A lda)))) :
    ∃ r, lgLanhe (hhOps p) nt uplo n A lda μ = (.ok r, μ) ∧
      IsNorm nt n n (hermF uplo (entry μ (stMat .ColMajor n n A lda))) r := by
  suffices h : wp (lgLanhe (hhOps p) nt uplo n A lda) μ (fun r ν => ν = μ ∧
      IsNorm nt n n (hermF uplo (entry μ (stMat .ColMajor n n A lda))) r) by
    obtain ⟨r, ν, e, rfl, h⟩ := wp_iff.1 h
    exact ⟨r, e, h⟩
  unfold lgLanhe
  simp only [wp_bind, wp_check, notTri_false hu, Bool.not_false, if_true]
  rw [if_pos (by cases nt <;> first | rfl | exact absurd rfl hnt), wp_ite]
  by_cases h0 : n = 0
  · rw [if_pos h0, wp_pure]
    exact ⟨rfl, isNorm_empty (.inl h0) hnt⟩
  rw [if_neg h0, wp_bind]
  refine wp_lgCol la ?_
  obtain ⟨r, e, h⟩ := C48_lanhe hl htsml hnt hu (stMat .ColMajor n n A lda) rfl μ hd
  exact wp_of_eq e ⟨rfl, h⟩

/-- **C87, lantr.** -/
theorem C87_lantr (hl : HhLaws 𝕜 p) (htsml : 0 ≤ p.tsml) {nt : Norm} (hnt : nt ≠ .Two) {uplo : Uplo}
    (hu : uplo = .Upper ∨ uplo = .Lower) (diag : Diag) {m n A lda : Nat} (la : m ≤ lda)
    (μ : Store Nat 𝕜)
    (hd : nt = .Fro → FroOK p m n (triF uplo diag (entry μ (stMat .ColMajor m n A lda)))) :
    ∃ r, lgLantr (hhOps p) nt uplo diag m n A lda μ = (.ok r, μ) ∧
      IsNorm nt m n (triF uplo diag (entry μ (stMat .ColMajor m n A lda))) r := by
  suffices h : wp (lgLantr (hhOps p) nt uplo diag m n A lda) μ (fun r ν => ν = μ ∧
      IsNorm nt m n (triF uplo diag (entry μ (stMat .ColMajor m n A lda))) r) by
    obtain ⟨r, ν, e, rfl, h⟩ := wp_iff.1 h
    exact ⟨r, e, h⟩
  unfold lgLantr
  simp only [wp_bind, wp_check, notTri_false hu, Bool.not_false, if_true]
  rw [if_pos (by cases nt <;> first | rfl | exact absurd rfl hnt), wp_ite]
  by_cases h0 : m = 0 ∨ n = 0
  · rw [if_pos h0, wp_pure]
    exact ⟨rfl, isNorm_empty h0 hnt⟩
  rw [if_neg h0, wp_bind]
  refine wp_lgCol la ?_
  obtain ⟨r, e, h⟩ := C48_lantr hl htsml hnt hu diag (stMat .ColMajor m n A lda) μ hd
  exact wp_of_eq e ⟨rfl, h⟩

/-- **C87, lassq**, any nonzero increment. -/
theorem C87_lassq (hl : HhLaws 𝕜 p) {n x : Nat} {incx : Int} (hi : incx ≠ 0) (s q : ℝ) (hs : 0 ≤ s)
    (hq : 0 ≤ q) (μ : Store Nat 𝕜)
    (hd : (∀ i, i < n → ‖ventry μ (stVec n x incx) i‖ ≤ p.tbig) ∧ s * Real.sqrt q ≤ p.tbig ∨
      (∀ i, i < n → ventry μ (stVec n x incx) i = 0 ∨ p.tsml ≤ ‖ventry μ (stVec n x incx) i‖) ∧
        (s * Real.sqrt q = 0 ∨ p.tsml ≤ s * Real.sqrt q)) :
    ∃ s' q', lgLassq (hhOps p) n x incx s q μ = (.ok (s', q'), μ) ∧ 0 ≤ s' ∧ 0 ≤ q' ∧
      s' ^ 2 * q' = s ^ 2 * q + ∑ i ∈ Finset.range n, ‖ventry μ (stVec n x incx) i‖ ^ 2 := by
  unfold lgLassq
  by_cases h0 : n = 0
  · rw [if_pos h0]
    exact ⟨s, q, rfl, hs, hq, by rw [h0]; simp⟩
  · rw [if_neg h0, lgVec_eq hi]
    exact C43_lassq hl (stVec n x incx) s q hs hq μ hd

/-- **C87, potrf.** The contract of the blocked Cholesky factorization on the stored matrix. -/
theorem C87_potrf (thr : Bool) (nb : Nat) (hnb : 0 < nb) {uplo : Uplo}
    (hu : uplo = .Upper ∨ uplo = .Lower) {n A lda : Nat} (la : n ≤ lda) :
    CholContract (𝕜 := 𝕜) thr (fun k => k % nb + 1) uplo (stMat .ColMajor n n A lda) n
      (lgPotrf thr nb uplo n A lda) := by
  have : lgPotrf (T := 𝕜) thr nb uplo n A lda = potrfBlocked thr nb uplo (stMat .ColMajor n n A lda) := by
    funext μ
    unfold lgPotrf lgCol
    simp only [notTri_false hu]
    simp [bind, M.bind, check, la, pure, M.pure]
    rfl
  rw [this]
  exact C30_potrf_blocked thr nb hnb uplo hu (stMat .ColMajor n n A lda) n (stCol_inj la) rfl rfl

/-- **C87, potrs.** -/
theorem C87_potrs {uplo : Uplo} (hu : uplo = .Upper ∨ uplo = .Lower) {n nrhs A lda B ldb : Nat}
    (la : n ≤ lda) (lb : n ≤ ldb)
    (hAB : (stMat .ColMajor n n A lda).Disj (stMat .ColMajor n nrhs B ldb))
    (μ : Store Nat 𝕜) (H : Matrix (Fin n) (Fin n) 𝕜)
    (hH : IsCholFactor uplo H (triMat uplo n μ (stMat .ColMajor n n A lda))) :
    ∃ ν, lgPotrs uplo n nrhs A lda B ldb μ = (.ok (), ν) ∧
      H * mat n nrhs (entry ν (stMat .ColMajor n nrhs B ldb)) =
        mat n nrhs (entry μ (stMat .ColMajor n nrhs B ldb)) ∧
      ∀ l, ¬ (stMat .ColMajor n nrhs B ldb).Owns l → ν l = μ l := by
  refine wp_ex ?_
  unfold lgPotrs
  simp only [wp_bind, wp_check, notTri_false hu, Bool.not_false, if_true]
  refine wp_lgCol la (wp_lgCol lb ?_)
  obtain ⟨ν, e, h⟩ := C36_potrs uplo hu (stMat .ColMajor n n A lda) (stMat .ColMajor n nrhs B ldb)
    n nrhs rfl rfl rfl rfl (stCol_inj lb) hAB μ H hH
  exact wp_of_eq e h

/-- **C87, geqr2.** -/
theorem C87_geqr2 (hl : HhLaws 𝕜 p) {m n A lda tau : Nat} {work : VecV Nat} (la : m ≤ lda)
    (ok : QrOK (stMat .ColMajor m n A lda) (stVec (min m n) tau 1) work)
    (hw : geqr2Worksize (stMat .ColMajor m n A lda) ≤ work.n) (μ : Store Nat 𝕜)
    (hb : ∀ c, c < n → ∑ r ∈ Finset.range m, ‖entry μ (stMat .ColMajor m n A lda) r c‖ ^ 2 ≤ p.tbig ^ 2) :
    ∃ ν, lgGeqr2 (hhOps p) m n A lda tau work μ = (.ok 0, ν) ∧
      (let Q := houseQ .Forward .Columnwise m (min m n) (entry ν (stMat .ColMajor m n A lda))
        (ventry ν (stVec (min m n) tau 1))
       mat m n (entry μ (stMat .ColMajor m n A lda)) =
         Q * mat m n (triF .Upper .NonUnit (entry ν (stMat .ColMajor m n A lda))) ∧
       (0 < n → Q.conjTranspose * Q = 1)) ∧
      ∀ l, ¬ (stMat .ColMajor m n A lda).Owns l → ¬ (stVec (min m n) tau 1).Owns l →
        ¬ work.Owns l → ν l = μ l := by
  suffices h : wp (lgGeqr2 (hhOps p) m n A lda tau work) μ (fun r ν => r = 0 ∧
      (let Q := houseQ .Forward .Columnwise m (min m n) (entry ν (stMat .ColMajor m n A lda))
        (ventry ν (stVec (min m n) tau 1))
       mat m n (entry μ (stMat .ColMajor m n A lda)) =
         Q * mat m n (triF .Upper .NonUnit (entry ν (stMat .ColMajor m n A lda))) ∧
       (0 < n → Q.conjTranspose * Q = 1)) ∧
      ∀ l, ¬ (stMat .ColMajor m n A lda).Owns l → ¬ (stVec (min m n) tau 1).Owns l →
        ¬ work.Owns l → ν l = μ l) by
    obtain ⟨r, ν, e, rfl, h⟩ := wp_iff.1 h
    exact ⟨ν, e, h⟩
  unfold lgGeqr2
  simp only [wp_bind, wp_check]
  rw [if_pos (by simpa using la), wp_ite]
  by_cases h0 : n = 0
  · rw [if_pos h0, wp_pure]
    subst h0
    exact ⟨rfl, ⟨funext fun i => funext fun j => j.elim0, fun h => absurd h (lt_irrefl _)⟩,
      fun _ _ _ _ => rfl⟩
  rw [if_neg h0, wp_bind]
  refine wp_lgCol la ?_
  rw [lgTau_eq]
  obtain ⟨ν, e, ⟨h1, h2⟩, -, h3⟩ := C39_geqr2 hl (stMat .ColMajor m n A lda) (stVec (min m n) tau 1)
    work ok (le_refl _) hw μ hb
  refine wp_of_eq e ⟨rfl, ⟨h1, fun _ => h2⟩, fun l a b c => h3 l a (fun h => b ?_) c⟩
  obtain ⟨i, hi, e⟩ := h
  refine ⟨i, ?_, ?_⟩
  · exact lt_of_lt_of_le hi (by simp [VecV.sub, stMat, stVec])
  · rw [← e]; simp [VecV.sub]

/-- **C87, ung2r**, when the number of reflectors equals the number of columns. -/
theorem C87_ung2r {m n A lda tau : Nat} {work : VecV Nat} (la : m ≤ lda)
    (ok : UngqOK .Columnwise (stMat .ColMajor m n A lda) (stVec n tau 1) work) (hmn : n ≤ m)
    (μ : Store Nat 𝕜) :
    ∃ ν, lgUng2r m n n A lda tau work μ = (.ok 0, ν) ∧
      mat m n (entry ν (stMat .ColMajor m n A lda)) =
        houseQ .Forward .Columnwise m n (entry μ (stMat .ColMajor m n A lda))
          (ventry μ (stVec n tau 1)) * mat m n (eyeF .Forward m n) ∧
      ∀ l, ¬ (stMat .ColMajor m n A lda).Owns l → ¬ work.Owns l → ν l = μ l := by
  suffices h : wp (lgUng2r m n n A lda tau work) μ (fun r ν => r = 0 ∧
      mat m n (entry ν (stMat .ColMajor m n A lda)) =
        houseQ .Forward .Columnwise m n (entry μ (stMat .ColMajor m n A lda))
          (ventry μ (stVec n tau 1)) * mat m n (eyeF .Forward m n) ∧
      ∀ l, ¬ (stMat .ColMajor m n A lda).Owns l → ¬ work.Owns l → ν l = μ l) by
    obtain ⟨r, ν, e, rfl, h⟩ := wp_iff.1 h
    exact ⟨ν, e, h⟩
  unfold lgUng2r
  simp only [wp_bind, wp_check]
  rw [if_pos (by simpa using hmn), if_pos (by simp), if_pos (by simpa using la), wp_ite]
  by_cases h0 : n = 0
  · rw [if_pos h0, wp_pure]
    subst h0
    exact ⟨rfl, funext fun i => funext fun j => j.elim0, fun _ _ _ => rfl⟩
  rw [if_neg h0, wp_bind]
  refine wp_lgCol la ?_
  rw [lgTau_eq, Nat.min_eq_right hmn]
  obtain ⟨ν, e, h1, h2⟩ := C39_ungq_columnwise (𝕜 := 𝕜) .Forward (stMat .ColMajor m n A lda)
    (stVec n tau 1) work ok μ
  exact wp_of_eq e ⟨rfl, h1, h2⟩

/-- **C87 fails for ung2r with `k < n`.** The argument `k` is only checked, never used: the call with
`k` reflectors is the call with `n` of them, so `tau[k], ..., tau[n-1]`, which the caller need not
have, and the columns `k, ..., n-1` of `A` are taken as further reflectors. -/
theorem C87_ung2r_k_ignored_violated {m n k A lda tau : Nat} {work : VecV Nat} (hk : k ≤ n) :
    lgUng2r (T := 𝕜) m n k A lda tau work = lgUng2r m n n A lda tau work := by
  have h : (!(k > n : Bool)) = (!(n > n : Bool)) := by simp; omega
  unfold lgUng2r
  rw [h]

/-- A concrete difference: with `m = n = 1`, `k = 0` the documented result is `Q = I`, but a cell at
`tau[0]` holding 1 makes the result 0. -/
theorem C87_ung2r_value_violated :
    ∃ ν, lgUng2r (T := ℚ) 1 1 0 0 1 1 ⟨0, fun i => 2 + i⟩ (fun _ => 1) = (.ok 0, ν) ∧ ν 0 = 0 :=
  ⟨_, Prod.ext (by decide +kernel) rfl, by decide +kernel⟩

/-- **C87, unmqr.** -/
theorem C87_unmqr (isReal : Bool) (nb : Nat) {side : Side} {trans : Op} {m n k A lda tau C ldc : Nat}
    {work : VecV Nat} (hs : side = .Left ∨ side = .Right)
    (la : (if side = .Left then m else n) ≤ lda) (lc : m ≤ ldc)
    (ok : UnmqBlkOK nb side .Columnwise
      (stMat .ColMajor (if side = .Left then m else n) k A lda) (stVec k tau 1)
      (stMat .ColMajor m n C ldc) work)
    (ht : trans = .NoTrans ∨ trans = .ConjTrans ∨ (trans = .Trans ∧ isReal = true))
    (hreal : isReal = true → ∀ z : 𝕜, star z = z) (μ : Store Nat 𝕜) :
    ∃ ν, lgUnmqr isReal nb side trans m n k A lda tau C ldc work μ = (.ok 0, ν) ∧
      mat m n (entry ν (stMat .ColMajor m n C ldc)) = (if side = .Left then
        opQ trans (houseQ .Forward .Columnwise m k
          (entry μ (stMat .ColMajor (if side = .Left then m else n) k A lda))
          (ventry μ (stVec k tau 1))) * mat m n (entry μ (stMat .ColMajor m n C ldc))
        else mat m n (entry μ (stMat .ColMajor m n C ldc)) *
          opQ trans (houseQ .Forward .Columnwise n k
          (entry μ (stMat .ColMajor (if side = .Left then m else n) k A lda))
          (ventry μ (stVec k tau 1)))) ∧
      ∀ l, ¬ (stMat .ColMajor m n C ldc).Owns l → ¬ work.Owns l → ν l = μ l := by
  obtain ⟨ν, e, h⟩ := C47_unmq isReal nb side trans .Forward .Columnwise _ _ _ work ok ht hreal μ
  have key : wp (lgUnmqr isReal nb side trans m n k A lda tau C ldc work) μ
      (fun r ν' => r = 0 ∧ ν' = ν) := by
    unfold lgUnmqr
    simp only [wp_bind, wp_check, checkSide hs, if_true]
    rw [lgBadOp_false (by rcases ht with rfl | rfl | ⟨rfl, -⟩ <;> simp)]
    simp only [Bool.not_false, if_true]
    rw [wp_ite]
    rcases hs with rfl | rfl
    · rw [if_pos rfl]
      refine wp_lgCol la (wp_lgCol lc ?_)
      rw [lgTau_eq]
      exact wp_of_eq e ⟨rfl, rfl⟩
    · rw [if_neg (by decide)]
      refine wp_lgCol la (wp_lgCol lc ?_)
      rw [lgTau_eq]
      exact wp_of_eq e ⟨rfl, rfl⟩
  obtain ⟨r, ν', e', rfl, rfl⟩ := wp_iff.1 key
  exact ⟨_, e', h⟩

/-- The stored `V` of larft and larfb: `q × k` by columns, `k × q` by rows. -/
def stV (store : StoreV) (q k V ldv : Nat) : MatV Nat :=
  if store = .Columnwise then stMat .ColMajor q k V ldv else stMat .ColMajor k q V ldv

theorem wp_stV {store : StoreV} {q k V ldv : Nat} (lv : (if store = .Columnwise then q else k) ≤ ldv)
    {μ : Store Nat 𝕜} {Q : MatV Nat → Store Nat 𝕜 → Prop} (hQ : Q (stV store q k V ldv) μ) :
    wp (if store = .Columnwise then lgCol V q k ldv else lgCol V k q ldv) μ Q := by
  unfold stV at hQ
  rw [wp_ite]
  by_cases h : store = .Columnwise
  · rw [if_pos h] at hQ lv ⊢; exact wp_lgCol lv hQ
  · rw [if_neg h] at hQ lv ⊢; exact wp_lgCol lv hQ

/-- **C87, larft**, at least one reflector. -/
theorem C87_larft {dir : Direction} {store : StoreV} {n k V ldv tau Tp ldt : Nat} (hk : 0 < k)
    (lv : (if store = .Columnwise then n else k) ≤ ldv) (lt : k ≤ ldt) (hkn : k ≤ n)
    (VT : (stV store n k V ldv).Disj (stMat .ColMajor k k Tp ldt))
    (tT : (stVec k tau 1).DisjM (stMat .ColMajor k k Tp ldt)) (μ : Store Nat 𝕜) :
    ∃ ν, lgLarft dir store n k V ldv tau Tp ldt μ = (.ok 0, ν) ∧
      blockRefl dir store n k (entry μ (stV store n k V ldv)) (entry ν (stMat .ColMajor k k Tp ldt)) =
        houseProd dir store n k (entry μ (stV store n k V ldv)) (ventry μ (stVec k tau 1)) ∧
      ∀ l, (∀ a b, a < k → b < k → (if dir = .Forward then a ≤ b else b ≤ a) →
        (stMat .ColMajor k k Tp ldt).cell a b ≠ l) → ν l = μ l := by
  have ok : LarftOK store (stV store n k V ldv) (stVec k tau 1) (stMat .ColMajor k k Tp ldt) :=
    ⟨stCol_inj lt, VT, tT, by cases store <;> exact le_refl _, by cases store <;> exact hkn,
      le_refl _, le_refl _⟩
  obtain ⟨ν, e, h1, h2⟩ := C45_larft dir store _ _ _ ok μ
  have key : wp (lgLarft dir store n k V ldv tau Tp ldt) μ (fun r ν' => r = 0 ∧ ν' = ν) := by
    unfold lgLarft
    simp only [wp_bind, wp_check]
    rw [if_pos (by simp; omega), if_pos (by simpa using lv), if_pos (by simpa using lt), wp_ite,
      if_neg (by omega)]
    simp only [wp_bind]
    refine wp_stV lv (wp_lgCol lt ?_)
    rw [lgTau_eq]
    exact wp_of_eq e ⟨rfl, rfl⟩
  obtain ⟨r, ν', e', rfl, rfl⟩ := wp_iff.1 key
  exact ⟨_, e', h1 n (by cases store <;> rfl), h2⟩

/-- **C87, larfb.** -/
theorem C87_larfb (isReal : Bool) {side : Side} {trans : Op} {dir : Direction} {store : StoreV}
    {m n k q V ldv Tp ldt C ldc : Nat} {work : VecV Nat} (hs : side = .Left ∨ side = .Right)
    (hq : q = if side = .Left then m else n)
    (lv : (if store = .Columnwise then q else k) ≤ ldv) (lt : k ≤ ldt) (lc : m ≤ ldc) (hkq : k ≤ q)
    (hwork : work.Inj) (VC : (stV store q k V ldv).Disj (stMat .ColMajor m n C ldc))
    (Vw : (stV store q k V ldv).DisjV work)
    (TC : (stMat .ColMajor k k Tp ldt).Disj (stMat .ColMajor m n C ldc))
    (Tw : (stMat .ColMajor k k Tp ldt).DisjV work) (Cw : (stMat .ColMajor m n C ldc).DisjV work)
    (wn : (larfbWorksize side m n k).size ≤ work.n)
    (ht : trans = .NoTrans ∨ trans = .ConjTrans ∨ (trans = .Trans ∧ isReal = true))
    (hreal : isReal = true → ∀ z : 𝕜, star z = z) (μ : Store Nat 𝕜) :
    ∃ ν, lgLarfb isReal side trans dir store m n k V ldv Tp ldt C ldc work μ = (.ok 0, ν) ∧
      mat m n (entry ν (stMat .ColMajor m n C ldc)) = (if side = .Left then
        opQ trans (blockRefl dir store m k (entry μ (stV store q k V ldv))
          (entry μ (stMat .ColMajor k k Tp ldt))) * mat m n (entry μ (stMat .ColMajor m n C ldc))
        else mat m n (entry μ (stMat .ColMajor m n C ldc)) *
          opQ trans (blockRefl dir store n k (entry μ (stV store q k V ldv))
          (entry μ (stMat .ColMajor k k Tp ldt)))) ∧
      ∀ l, ¬ (stMat .ColMajor m n C ldc).Owns l → ¬ work.Owns l → ν l = μ l := by
  subst hq
  have ok : LarfbOK side store (stV store (if side = .Left then m else n) k V ldv)
      (stMat .ColMajor k k Tp ldt) (stMat .ColMajor m n C ldc) work :=
    ⟨hs, stCol_inj lc, hwork, VC, Vw, TC, Tw, Cw, rfl, by cases store <;> rfl, by cases store <;> rfl,
      by cases store <;> exact hkq, wn⟩
  obtain ⟨ν, e, h⟩ := C45_larfb isReal side trans dir store _ _ _ work ok ht hreal μ
  suffices key : wp (lgLarfb isReal side trans dir store m n k V ldv Tp ldt C ldc work) μ
      (fun r ν' => r = 0 ∧ (mat m n (entry ν' (stMat .ColMajor m n C ldc)) = (if side = .Left then
        opQ trans (blockRefl dir store m k (entry μ (stV store (if side = .Left then m else n) k V ldv))
          (entry μ (stMat .ColMajor k k Tp ldt))) * mat m n (entry μ (stMat .ColMajor m n C ldc))
        else mat m n (entry μ (stMat .ColMajor m n C ldc)) *
          opQ trans (blockRefl dir store n k (entry μ (stV store (if side = .Left then m else n) k V ldv))
          (entry μ (stMat .ColMajor k k Tp ldt)))) ∧
      ∀ l, ¬ (stMat .ColMajor m n C ldc).Owns l → ¬ work.Owns l → ν' l = μ l)) by
    obtain ⟨r, ν', e', rfl, h⟩ := wp_iff.1 key
    exact ⟨_, e', h⟩
  unfold lgLarfb
  simp only [wp_bind, wp_check, checkSide hs, if_true]
  rw [if_pos (by rcases ht with rfl | rfl | ⟨rfl, rfl⟩ <;> simp), wp_ite]
  by_cases h0 : m = 0 ∨ n = 0
  · rw [if_pos h0, wp_pure]
    refine ⟨rfl, ?_, fun _ _ _ => rfl⟩
    rcases h0 with h0 | h0
    · subst h0; exact funext fun i => i.elim0
    · subst h0; exact funext fun i => funext fun j => j.elim0
  rw [if_neg h0]
  simp only [wp_bind]
  refine wp_stV lv (wp_lgCol lt (wp_lgCol lc ?_))
  exact wp_of_eq e ⟨rfl, h⟩

end rc
section examples

theorem exQr : QrOK (stMat .ColMajor 4 3 0 6) (stVec 3 30 1) ⟨40, fun i => 40 + i⟩ := by
  refine ⟨stCol_inj (by decide), fun i j _ _ e => ?_, fun i j _ _ e => ?_, ?_, ?_, ?_⟩
  · simpa [stVec] using e
  · simpa using e
  · rintro i j hi hj ⟨k, hk, e⟩
    simp [stMat, stVec] at *; omega
  · rintro i j hi hj ⟨k, hk, e⟩
    simp [stMat] at *; omega
  · rintro i hi ⟨k, hk, e⟩
    simp [stVec] at *; omega

/-- The hypotheses of C87_geqr2 and C87_ung2r: a 4 by 3 matrix with leading dimension 6. -/
example : geqr2Worksize (stMat .ColMajor 4 3 0 6) ≤ 40 ∧
    UngqOK .Columnwise (stMat .ColMajor 4 3 0 6) (stVec 3 30 1) ⟨40, fun i => 40 + i⟩ :=
  ⟨by decide, exQr, by decide, by decide⟩

/-- The hypotheses of C87_unmqr: C is 4 by 2 with leading dimension 5. -/
example : UnmqBlkOK 2 .Left .Columnwise (stMat .ColMajor 4 3 0 6) (stVec 3 30 1)
    (stMat .ColMajor 4 2 40 5) ⟨60, fun i => 60 + i⟩ := by
  refine ⟨.inl rfl, stCol_inj (by decide), fun i j _ _ e => by simpa using e, ?_, ?_, ?_, ?_, ?_,
    by decide, by decide, by decide, by decide⟩
  · rintro i j hi hj ⟨a, b, ha, hb, e⟩
    simp [stMat] at *; omega
  · rintro i j hi hj ⟨k, hk, e⟩
    simp [stMat] at *; omega
  · rintro i hi ⟨a, b, ha, hb, e⟩
    simp [stMat, stVec] at *; omega
  · rintro i hi ⟨k, hk, e⟩
    simp [stVec] at *; omega
  · rintro i j hi hj ⟨k, hk, e⟩
    simp [stMat] at *; omega

/-- The hypotheses of C87_larf with a negative increment. -/
example : LarfOK .Right (stVec 2 30 (-2)) (stMat .ColMajor 3 2 0 4) ⟨6, fun i => 40 + i⟩ := by
  refine ⟨.inr rfl, by decide, stCol_inj (by decide), fun i j _ _ e => by simpa using e, ?_, ?_, ?_,
    by decide⟩
  · rintro i hi ⟨a, b, ha, hb, e⟩
    simp [stMat, stVec] at *; omega
  · rintro i hi ⟨k, hk, e⟩
    simp [stVec] at *; omega
  · rintro i j hi hj ⟨k, hk, e⟩
    simp [stMat] at *; omega

/-- The hypotheses of C87_lacpy, C87_potrs and (for larft, larfb) of the disjointness of V, T, C. -/
example : (stMat .ColMajor 3 3 0 4).Disj (stMat .ColMajor 3 3 20 5) := by
  rintro i j hi hj ⟨a, b, ha, hb, e⟩
  simp [stMat] at *; omega

end examples

end TLA
