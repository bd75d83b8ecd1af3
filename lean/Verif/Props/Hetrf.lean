import Verif.Proofs.Hetrf
import Verif.Props.Examples
import Mathlib.Data.Rat.Star
set_option linter.unusedTactic false
set_option linter.unusedVariables false
set_option linter.unusedSimpArgs false
set_option linter.unreachableTactic false
set_option linter.unusedSectionVars false

/-! # C83: the Bunch-Kaufman factorization of a Hermitian or symmetric matrix (uplo = Lower)

`hetOps isReal isinf safeMin safeMax` are the scalar operations of exact arithmetic over ℝ or ℂ with `abs1` as size, `alpha` the pivot threshold of the
code, `(1 + √17)/8`, of which only `0 < alpha` and `2 alpha² ≤ 1` are used.
-/

namespace TLA
open Matrix
variable {L 𝕜 : Type} [DecidableEq L] [RCLike 𝕜] [DecidableEq 𝕜]
variable {isReal : Bool} {isinf : ℝ → Bool} {safeMin safeMax : ℝ}

/-- `hetrf` accepts the arguments: a square matrix of order n ≥ 1, a pivot array of length n whose last entry is not negative on entry, blocks of at least two
columns and a workspace of n·nb numbers apart from A. -/
structure HetrfAdm (nb n : Nat) (A : MatV L) (ipiv : ZArr) (work : VecV L) : Prop where
  n0 : 0 < n
  am : A.m = n
  an : A.n = n
  nb2 : 2 ≤ nb
  inj : A.Inj
  winj : work.Inj
  dj : A.DisjV work
  wn : n * nb ≤ work.n
  pn : ipiv.n = n
  p0 : 0 ≤ ipiv.f (n - 1)

/-- The pivot threshold of the code (lapack/hetf3.hpp:106-107) obeys the two inequalities used below. -/
theorem C83_alpha : 0 < (1 + Real.sqrt 17) / 8 ∧ 2 * ((1 + Real.sqrt 17) / 8) ^ 2 ≤ 1 := by
  have h := Real.sq_sqrt (show (0 : ℝ) ≤ 17 by norm_num)
  have h0 := Real.sqrt_nonneg 17
  refine ⟨by positivity, ?_⟩
  have : Real.sqrt 17 ≤ 4.5 := by rw [Real.sqrt_le_left (by norm_num)]; norm_num
  nlinarith

/-- hetrf with uplo = Lower returns pivots that describe a sequence of blocks of order 1 and 2 covering the matrix, and if the return value is 0, the lower triangle
then holds the factorization `A = M D M^op`, where `M = P₀ L₀ P₁ L₁ ⋯` is the product of the interchanges and unit lower triangular factors of the blocks, `D` is block
diagonal and `op` is the conjugate transpose or the transpose.  If the return value is `info > 0`, some columns, of which `info - 1` is the first and none of which
belongs to a block of order 2, were found zero, and the same holds if these columns are read as zero.  The strict upper triangle and everything that belongs neither to `A` nor to the
workspace are unchanged. -/
theorem C83_hetrf_lower (hl : LuLaws 𝕜 isReal safeMin safeMax) {alpha : ℝ} (ha0 : 0 < alpha) (ha : 2 * alpha ^ 2 ≤ 1) (herm : Bool) (nb n : Nat)
    (A : MatV L) (ipiv : ZArr) (work : VecV L) (ok : HetrfAdm nb n A ipiv work) (μ : Store L 𝕜) :
    ∃ info q ν, hetrfLow (hetOps isReal isinf safeMin safeMax) alpha (-1 / 2) herm nb A ipiv work μ = (.ok (info, q), ν) ∧ q.n = n ∧ ∃ bl, IsBlks n q.f bl n ∧
      (info = 0 → mat n n (fullF herm .Lower (entry μ A)) = ldlM .Lower n (entry ν A) bl * mat n n (ldlD herm .Lower (entry ν A) bl) * adjM herm (ldlM .Lower n (entry ν A) bl)) ∧
      (0 < info → info ≤ n ∧ ∃ Z : Nat → Prop, ∃ F : Nat → Nat → 𝕜, Z (info - 1) ∧ (∀ c, c < info - 1 → ¬ Z c) ∧
        (∀ c, Z c → ∀ b ∈ bl, b.two = true → c ≠ b.k ∧ c ≠ b.k + 1) ∧ (∀ i c, Z c → F i c = 0) ∧ (∀ i c, ¬ Z c → F i c = entry ν A i c) ∧
        mat n n (fullF herm .Lower (entry μ A)) = ldlM .Lower n F bl * mat n n (ldlD herm .Lower F bl) * adjM herm (ldlM .Lower n F bl)) ∧
      (∀ i c, i < c → c < n → entry ν A i c = entry μ A i c) ∧ ∀ l, ¬ A.Owns l → ¬ work.Owns l → ν l = μ l := by
  obtain ⟨⟨info, q⟩, ν, e, bl, Z, h⟩ := wp_iff.1 (wp_hetrfLow (isinf := isinf) (herm := herm) (μ := μ) hl ha0 ha ok.am ok.an ok.n0 ok.nb2 ok.inj ok.winj ok.dj ok.wn ok.pn ok.p0)
  refine ⟨info, q, ν, e, h.qn, bl, h.blk, fun h0 => ?_, fun h0 => ?_, h.up, h.fr⟩
  · have hz : maskC Z (entry ν A) = entry ν A := by
      rcases h.inf.2 with ⟨_, z⟩ | ⟨h1, _⟩
      · funext i c; unfold maskC; rw [z c]; simp
      · simp only at h1; omega
    have := h.fac
    rw [hz] at this
    exact this
  · rcases h.inf.2 with ⟨h1, _⟩ | ⟨h1, h2, h3⟩
    · simp only at h1; omega
    · refine ⟨?_, fun c => Z c = true, maskC Z (entry ν A), h2, fun c hc => ?_, h.inf.1, fun i c hc => ?_, fun i c hc => ?_, h.fac⟩
      · by_contra q
        have := h.zin (info - 1) (by omega)
        simp only at h2
        rw [this] at h2
        simp at h2
      · have := h3 c hc
        simp [this]
      · unfold maskC; rw [if_pos hc]
      · unfold maskC; rw [if_neg hc]

/-- A positive return value means that the matrix is singular: for a nonsingular matrix the factorization is complete. -/
theorem C83_nonsingular (hl : LuLaws 𝕜 isReal safeMin safeMax) {alpha : ℝ} (ha0 : 0 < alpha) (ha : 2 * alpha ^ 2 ≤ 1) (herm : Bool) (nb n : Nat)
    (A : MatV L) (ipiv : ZArr) (work : VecV L) (ok : HetrfAdm nb n A ipiv work) (μ : Store L 𝕜) (hdet : (mat n n (fullF herm .Lower (entry μ A))).det ≠ 0) :
    ∃ q ν, hetrfLow (hetOps isReal isinf safeMin safeMax) alpha (-1 / 2) herm nb A ipiv work μ = (.ok (0, q), ν) ∧ ∃ bl, IsBlks n q.f bl n ∧
      mat n n (fullF herm .Lower (entry μ A)) = ldlM .Lower n (entry ν A) bl * mat n n (ldlD herm .Lower (entry ν A) bl) * adjM herm (ldlM .Lower n (entry ν A) bl) := by
  obtain ⟨info, q, ν, e, -, bl, hb, h0, h1, -⟩ := C83_hetrf_lower (isinf := isinf) hl ha0 ha herm nb n A ipiv work ok μ
  rcases Nat.eq_zero_or_pos info with rfl | hp
  · exact ⟨q, ν, e, bl, hb, h0 rfl⟩
  · exfalso
    obtain ⟨hn, Z, F, z1, -, z3, z4, -, eq⟩ := h1 hp
    apply hdet
    have hD : (mat n n (ldlD herm .Lower F bl)).det = 0 := by
      refine Matrix.det_eq_zero_of_column_eq_zero ⟨info - 1, by omega⟩ fun i => ?_
      show ldlD herm .Lower F bl i (info - 1) = 0
      rw [ldlD_eq (.inl rfl)]
      split_ifs with c
      · rcases c with c | ⟨b, hb, h1, h2⟩
        · rw [c, fullF_diag, z4 _ _ z1]
          simp [re_def]
        · have := z3 _ z1 b hb h1
          omega
      · rfl
    rw [eq, Matrix.det_mul, Matrix.det_mul, hD, mul_zero, zero_mul]

/-- With blocks of one column the loop over the panels never ends. -/
theorem C83_nb1_violated (hl : LuLaws 𝕜 isReal safeMin safeMax) {alpha : ℝ} (ha0 : 0 < alpha) (ha : 2 * alpha ^ 2 ≤ 1) (herm : Bool) (n : Nat) (hn : 2 ≤ n)
    (A : MatV L) (am : A.m = n) (an : A.n = n) (hA : A.Inj) (ipiv : ZArr) (hp : ipiv.n = n) (work : VecV L) (hw : work.Inj) (hd : A.DisjV work)
    (hwn : n ≤ work.n) (μ : Store L 𝕜) :
    ∃ ν, hetrfLow (hetOps isReal isinf safeMin safeMax) alpha (-1 / 2) herm 1 A ipiv work μ = (.error .diverge, ν) := by
  have key : wp (hetrfLow (hetOps isReal isinf safeMin safeMax) alpha (-1 / 2) herm 1 A ipiv work) μ (fun _ _ => False) (fun e _ => e = .diverge) := by
    unfold hetrfLow
    simp only [wp_bind, wp_check, am, an, decide_true, if_true]
    rw [if_neg (by omega)]
    simp only [wp_bind]
    obtain ⟨f, rfl⟩ : ∃ f, n = f + 1 := ⟨n - 1, by omega⟩
    unfold hetrfLowLoop
    simp only [am]
    rw [if_pos (by omega)]
    simp only [wp_bind]
    refine wp_slice (by omega) (by omega) (by omega) (by omega) ?_
    simp only [ZArr.slice, hp]
    rw [if_pos (by omega)]
    simp only [wp_pure]
    obtain ⟨⟨infoj, q⟩, ν', e, bp, Zp, s, ok⟩ := wp_iff.1 (wp_hetf3Low (isinf := isinf) (herm := herm) (μ := μ) hl ha0 ha (n := f + 1 - 0) (nb := 1) (A := A.sub 0 (f + 1) 0 (f + 1)) rfl rfl
      (by omega) (by omega) (hA.sub (by omega) (by omega)) hw
      (fun r c hr hc => hd _ _ (by simp only [MatV.sub] at hr; omega) (by simp only [MatV.sub] at hc; omega)) (by omega) (ipiv := ⟨f + 1 - 0, fun i => ipiv.f (0 + i)⟩) rfl)
    refine wp_of_eq e ?_
    have hm : min 1 (f + 1 - 0) = 1 := by omega
    have s0 := ok.s3 (by omega)
    have la := ok.last (by omega)
    have qn : q.n = f + 1 - 0 := ok.qn
    simp only [hm] at la ⊢
    rw [if_neg (by omega)]
    simp only [ZArr.get, wp_bind]
    rw [if_pos (by omega)]
    simp only [wp_pure]
    rw [if_pos (by rw [la]; omega)]
    simp only [Nat.sub_self]
    unfold hetShift
    simp only [wp_pure, if_true]
    rfl
  unfold wp at key
  rcases hx : hetrfLow (hetOps isReal isinf safeMin safeMax) alpha (-1 / 2) herm 1 A ipiv work μ with ⟨r, ν⟩
  rw [hx] at key
  cases r with
  | ok _ => exact key.elim
  | error e => exact ⟨ν, by rw [show e = .diverge from key]⟩

/-- The pivot array is read before it has been written: for a matrix of order 1 a negative entry survives, and the result then describes no sequence of blocks. -/
theorem C83_uninit_violated {alpha : ℝ} (herm : Bool) (nb : Nat) (A : MatV L) (am : A.m = 1) (an : A.n = 1) (ipiv : ZArr) (hp : ipiv.n = 1) (h0 : ipiv.f 0 < 0)
    (work : VecV L) (μ : Store L 𝕜) :
    hetrfLow (hetOps isReal isinf safeMin safeMax) alpha (-1 / 2) herm nb A ipiv work μ = (.ok (0, ipiv), μ) ∧ ∀ bl, ¬ IsBlks 1 ipiv.f bl 1 := by
  constructor
  · obtain ⟨_, ν, e, rfl, rfl⟩ := wp_iff.1 (show wp (hetrfLow (hetOps isReal isinf safeMin safeMax) alpha (-1 / 2) herm nb A ipiv work) μ (fun r ν => r = (0, ipiv) ∧ μ = ν) by
      unfold hetrfLow
      simp only [wp_bind, wp_check, am, an, decide_true, if_true]
      rw [if_neg (by omega)]
      simp only [wp_bind]
      unfold hetrfLowLoop
      simp only [am]
      rw [if_neg (by omega)]
      simp only [wp_pure, ZArr.get, hp]
      rw [if_pos (by omega)]
      simp only [wp_pure]
      rw [if_neg (show ¬ 0 ≤ ipiv.f (1 - 1) by rw [Nat.sub_self]; omega)]
      exact ⟨rfl, rfl⟩)
    exact e
  · intro bl h
    have := h.fwd
    cases this with
    | one h1 _ => omega
    | two _ h2 h3 => have := h3.le; omega

/-- A zero last pivot is not reported: the return value is 0 for the zero matrix of order 1. -/
theorem C83_last_violated {alpha : ℝ} (herm : Bool) (nb : Nat) (A : MatV L) (am : A.m = 1) (an : A.n = 1) (ipiv : ZArr) (hp : ipiv.n = 1)
    (work : VecV L) (μ : Store L 𝕜) (h0 : entry μ A 0 0 = 0) :
    (mat 1 1 (fullF herm .Lower (entry μ A))).det = 0 ∧ ∃ q ν, hetrfLow (hetOps isReal isinf safeMin safeMax) alpha (-1 / 2) herm nb A ipiv work μ = (.ok (0, q), ν) := by
  constructor
  · refine Matrix.det_eq_zero_of_column_eq_zero 0 fun i => ?_
    show fullF herm .Lower (entry μ A) i 0 = 0
    have : (i : Nat) = 0 := by omega
    rw [this, fullF_diag, h0]
    simp [re_def]
  · obtain ⟨⟨_, q⟩, ν, e, rfl⟩ := wp_iff.1 (show wp (hetrfLow (hetOps isReal isinf safeMin safeMax) alpha (-1 / 2) herm nb A ipiv work) μ (fun r ν => r.1 = 0) by
      unfold hetrfLow
      simp only [wp_bind, wp_check, am, an, decide_true, if_true]
      rw [if_neg (by omega)]
      simp only [wp_bind]
      unfold hetrfLowLoop
      simp only [am]
      rw [if_neg (by omega)]
      simp only [wp_pure, ZArr.get, ZArr.set, hp]
      rw [if_pos (by omega)]
      simp only [wp_pure]
      split_ifs
      · exact trivial
      · omega
      · exact trivial)
    exact ⟨q, ν, e⟩

section
local instance : ReIm ℚ := ⟨id, fun _ => 0⟩

/-- The operations of exact rational arithmetic. -/
def ratOps : LuOps ℚ ℚ where
  isReal := true
  isnan _ := false
  isinf _ := false
  absf x := .fin |x|
  absQ x := .fin (|x| / 4)
  minusOne := -1
  abs1 x := |x|
  reR := id
  imR _ := 0
  emb := id
  mkc r _ := r
  isinfR _ := false
  safeMin := 1
  safeMax := 1

/-- If a column is found zero, the numbers left in `A` are not those of the factorization, although it is documented as complete: for the 3×3 matrix of ones, hetrf returns 2
(documented: D(1,1) is exactly zero) and blocks of order 1 without interchanges, but D(1,1) = 1, and `L(1,0)² D(0,0) + D(1,1)`, the entry (1,1) of `L D Lᵀ`, is 2. -/
theorem C83_singular_violated : ∃ q ν, hetrfLow ratOps (1 / 2) (-1 / 2) false 3 (mkM 0 3 3) ⟨3, fun _ => 0⟩ (mkV 1 9) (fun _ => 1) = (.ok (2, q), ν) ∧
    (q.f 0 = 0 ∧ q.f 1 = 1 ∧ q.f 2 = 2) ∧ entry ν (mkM 0 3 3) 1 1 = 1 ∧
    entry ν (mkM 0 3 3) 1 0 ^ 2 * entry ν (mkM 0 3 3) 0 0 + entry ν (mkM 0 3 3) 1 1 = 2 := by
  have h : (match hetrfLow ratOps (1 / 2) (-1 / 2) false 3 (mkM 0 3 3) ⟨3, fun _ => 0⟩ (mkV 1 9) (fun _ => 1) with
    | (.ok (i, q), ν) => decide (i = 2 ∧ (q.f 0 = 0 ∧ q.f 1 = 1 ∧ q.f 2 = 2) ∧ entry ν (mkM 0 3 3) 1 1 = 1 ∧
        entry ν (mkM 0 3 3) 1 0 ^ 2 * entry ν (mkM 0 3 3) 0 0 + entry ν (mkM 0 3 3) 1 1 = 2)
    | _ => false) = true := by decide +kernel
  rcases e : hetrfLow ratOps (1 / 2) (-1 / 2) false 3 (mkM 0 3 3) ⟨3, fun _ => 0⟩ (mkV 1 9) (fun _ => 1) with ⟨_ | ⟨i, q⟩, ν⟩
  · rw [e] at h; simp at h
  · rw [e] at h
    obtain ⟨rfl, h2, h3⟩ := of_decide_eq_true h
    exact ⟨q, ν, rfl, h2, h3⟩

end

/-- The hypotheses are met over ℝ and ℂ by a matrix of order 5 and blocks of two columns; a matrix of order 2 needs a block of order 2. -/
example : HetrfAdm 2 5 (mkM 0 5 5) ⟨5, fun _ => 0⟩ (mkV 1 10) ∧ LuLaws ℝ true 1 1 ∧ LuLaws ℂ false (1 / 4) 4 ∧
    IsBlks 2 (fun _ => -2) [⟨0, true, 1⟩] 2 ∧ (mat 2 2 (fullF true .Lower fun i j => if i = j then (0 : ℂ) else 1)).det ≠ 0 := by
  refine ⟨⟨by decide, rfl, rfl, by decide, mkM_inj _ _ _, mkV_inj _ _, mkM_disjV (by decide), by decide, rfl, by decide⟩,
    ⟨fun _ z => by simp, by norm_num⟩, ⟨fun h => absurd h (by decide), by norm_num⟩, ?_, ?_⟩
  · have := IsBlks.two (n := 2) (ipiv := fun _ => -2) (k := 0) (p := 1) .nil (by decide) (by decide) (by decide) (by decide)
    exact this
  · rw [Matrix.det_fin_two]
    simp [mat, fullF, hermF, inTri, re_def]

end TLA
