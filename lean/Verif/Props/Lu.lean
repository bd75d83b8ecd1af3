import Verif.Proofs.LuRec
import Verif.Props.Examples
import Mathlib.LinearAlgebra.LinearIndependent.Defs
import Mathlib.LinearAlgebra.Matrix.NonsingularInverse
import Mathlib.LinearAlgebra.Matrix.ToLinearEquiv

/-!
# C31, C32: LU factorization with partial pivoting (getrf_level0, getrf_recursive, getrf)

Arithmetic is exact (`RCLike 𝕜`: the real or the complex numbers).
-/

set_option linter.unusedTactic false
set_option linter.unreachableTactic false
set_option linter.unusedSectionVars false

namespace TLA
open Finset
variable {L 𝕜 : Type} [DecidableEq L] [RCLike 𝕜] [DecidableEq 𝕜]

/-! ### Specification -/

/-- `G` after the row exchanges `0 ↔ p 0`, then `1 ↔ p 1`, ..., then `k-1 ↔ p (k-1)`. -/
def exchRows (p : Nat → Nat) : Nat → (Nat → Nat → 𝕜) → Nat → Nat → 𝕜
  | 0, G => G
  | k + 1, G => fun i c =>
      if i = k then exchRows p k G (p k) c
      else if i = p k then exchRows p k G k c
      else exchRows p k G i c

/-- The first `j` columns of the `m`-row matrix `G` are linearly independent. -/
def ColsLI (m j : Nat) (G : Nat → Nat → 𝕜) : Prop :=
  LinearIndependent 𝕜 (fun c : Fin j => fun i : Fin m => G i c)

/-- Column `j` of `G` is in the span of the columns before it. -/
def ColInSpan (m j : Nat) (G : Nat → Nat → 𝕜) : Prop :=
  (fun i : Fin m => G i j) ∈ Submodule.span 𝕜 (Set.range (fun c : Fin j => fun i : Fin m => G i c))

/-- The contract of getrf on an `m × n` matrix with contents `G` before the call: the routine has
returned `info` and left `F` in the matrix and `piv` in the pivot array. -/
structure LuSpec (m n : Nat) (bd : 𝕜 → Prop) (G F : Nat → Nat → 𝕜) (piv : Nat → Nat) (info : Nat) : Prop where
  /-- on success the exchanges are recorded as indices between `j` and `m - 1` -/
  range : info = 0 → ∀ j, j < min m n → j ≤ piv j ∧ piv j < m
  /-- and the exchanged matrix is `L * U` -/
  lu : info = 0 → mat m n (exchRows piv (min m n) G) =
    mat m (min m n) (triF .Lower .Unit F) * mat (min m n) n (triF .Upper .NonUnit F)
  /-- the diagonal of `U` has no zero -/
  diag : info = 0 → ∀ j, j < min m n → F j j ≠ 0
  /-- the multipliers are bounded -/
  bnd : info = 0 → ∀ i j, i < m → j < min m n → j < i → bd (F i j)
  /-- success means independent columns -/
  ok_iff : info = 0 ↔ ColsLI m (min m n) G
  /-- `info = j + 1` means that column `j` is the first one dependent on the previous ones -/
  fail_iff : ∀ j, info = j + 1 ↔ j < min m n ∧ ColsLI m j G ∧ ColInSpan m j G

/-! ### Bridging lemmas -/

theorem exchRows_eq (p : Nat → Nat) (k : Nat) (G : Nat → Nat → 𝕜) (i c : Nat) :
    exchRows p k G i c = G (pivPerm p k i) c := by
  induction k generalizing i with
  | zero => rfl
  | succ k ih =>
    rw [pivPerm_succ, Equiv.swap_apply_def]
    simp only [exchRows, ih]
    split_ifs <;> rfl

theorem colsLI_iff {m j : Nat} {G : Nat → Nat → 𝕜} : ColsLI m j G ↔ ColsIndep m j G := by
  unfold ColsLI ColsIndep
  rw [Fintype.linearIndependent_iff]
  constructor
  · intro h x hx c hc
    refine h (fun c => x c) ?_ ⟨c, hc⟩
    funext i
    simp only [Finset.sum_apply, Pi.smul_apply, smul_eq_mul, Pi.zero_apply]
    refine Eq.trans ?_ (hx i i.2)
    rw [← finsum_range _ (fun c => G i c * x c)]
    exact Finset.sum_congr rfl (fun c _ => mul_comm _ _)
  · intro h g hg c
    have := h (fun c => if hc : c < j then g ⟨c, hc⟩ else 0) (fun i hi => ?_) c c.2
    · simpa using this
    · have h2 := congrFun hg ⟨i, hi⟩
      simp only [Finset.sum_apply, Pi.smul_apply, smul_eq_mul, Pi.zero_apply] at h2
      refine Eq.trans ?_ h2
      rw [← finsum_range _ (fun c => G i c * (if hc : c < j then g ⟨c, hc⟩ else 0))]
      refine Finset.sum_congr rfl (fun c _ => ?_)
      rw [dif_pos c.2, mul_comm]

theorem colInSpan_iff {m j : Nat} {G : Nat → Nat → 𝕜} : ColInSpan m j G ↔ ColDep m j G := by
  unfold ColInSpan ColDep
  rw [Submodule.mem_span_range_iff_exists_fun]
  constructor
  · rintro ⟨g, hg⟩
    refine ⟨fun c => if hc : c < j then g ⟨c, hc⟩ else 0, fun i hi => ?_⟩
    have h2 := congrFun hg ⟨i, hi⟩
    simp only [Finset.sum_apply, Pi.smul_apply, smul_eq_mul] at h2
    rw [← h2, ← finsum_range _ (fun c => G i c * (if hc : c < j then g ⟨c, hc⟩ else 0))]
    refine Finset.sum_congr rfl (fun c _ => ?_)
    rw [dif_pos c.2, mul_comm]
  · rintro ⟨y, hy⟩
    refine ⟨fun c => y c, ?_⟩
    funext i
    simp only [Finset.sum_apply, Pi.smul_apply, smul_eq_mul]
    rw [hy i i.2, ← finsum_range _ (fun c => G i c * y c)]
    exact Finset.sum_congr rfl (fun c _ => mul_comm _ _)

theorem ColsIndep.mono {m j j' : Nat} {G : Nat → Nat → 𝕜} (h : ColsIndep m j G) (hj : j' ≤ j) :
    ColsIndep m j' G := by
  intro x hx c hc
  have := h (fun c => if c < j' then x c else 0) (fun i hi => ?_) c (by omega)
  · simpa [hc] using this
  · refine Eq.trans ?_ (hx i hi)
    symm
    rw [← Finset.sum_subset (Finset.range_mono hj)]
    · refine Finset.sum_congr rfl (fun c hc => ?_)
      rw [if_pos (Finset.mem_range.1 hc)]
    · intro c _ hc
      rw [if_neg (by simpa using hc), mul_zero]

theorem ColsIndep.not_dep {m j j' : Nat} {G : Nat → Nat → 𝕜} (h : ColsIndep m j G) (hj : j' < j) :
    ¬ ColDep m j' G := by
  rintro ⟨y, hy⟩
  have := h.mono (show j' + 1 ≤ j from hj) (fun c => if c < j' then y c else -1) (fun i hi => ?_) j' (by omega)
  · simp at this
  · rw [Finset.sum_range_succ]
    beta_reduce
    rw [if_neg (by omega), hy i hi, mul_neg, mul_one, add_neg_eq_zero]
    refine Finset.sum_congr rfl (fun c hc => ?_)
    rw [if_pos (Finset.mem_range.1 hc)]

/-- What the proofs establish gives the contract. -/
theorem LuPost.spec {A : MatV L} {bd : 𝕜 → Prop} {piv : IArr} {μ ν : Store L 𝕜} {r : Nat × IArr}
    (h : LuPost A bd piv μ r ν) : LuSpec A.m A.n bd (entry μ A) (entry ν A) r.2.f r.1 := by
  obtain ⟨_, _, _, ok, fail⟩ := h
  have hok : r.1 = 0 → ColsIndep A.m (min A.m A.n) (entry μ A) := fun h0 => by
    obtain ⟨hr, hp, hd, _⟩ := ok h0
    exact hp.indep_all (fun i hi => pivPerm_lt (min_le_left _ _) (fun j hj => (hr j hj).2) hi)
      (min_le_left _ _) (min_le_right _ _) hd
  have hno : ∀ j, r.1 = j + 1 → ¬ ColsIndep A.m (min A.m A.n) (entry μ A) := fun j hj hi =>
    hi.not_dep (fail j hj).1 (fail j hj).2.2
  refine ⟨fun h0 => (ok h0).1, fun h0 => ?_, fun h0 => (ok h0).2.2.1, fun h0 => (ok h0).2.2.2, ?_, fun j => ?_⟩
  · rw [mat_mul, mat_ext_iff]
    intro i c hi hc
    rw [exchRows_eq, (ok h0).2.1 i c hi hc, if_neg (by omega), add_zero]
  · rw [colsLI_iff]
    refine ⟨hok, fun hi => ?_⟩
    cases hr : r.1 with
    | zero => rfl
    | succ j => exact absurd hi (hno j hr)
  · rw [colsLI_iff, colInSpan_iff]
    refine ⟨fail j, fun ⟨h1, h2, h3⟩ => ?_⟩
    cases hr : r.1 with
    | zero => exact absurd h3 ((hok hr).not_dep h1)
    | succ t =>
      obtain ⟨f1, f2, f3⟩ := fail t hr
      rcases Nat.lt_trichotomy t j with h | h | h
      · exact absurd f3 (h2.not_dep h)
      · rw [h]
      · exact absurd h3 (f2.not_dep h)

/-- For a square matrix independence of the columns is invertibility. -/
theorem colsLI_square {n : Nat} {G : Nat → Nat → 𝕜} : ColsLI n n G ↔ IsUnit (mat n n G) := by
  rw [colsLI_iff, ← Matrix.mulVec_injective_iff_isUnit]
  constructor
  · intro h x y hxy
    have hz : (mat n n G).mulVec (x - y) = 0 := by rw [Matrix.mulVec_sub, hxy, sub_self]
    funext c
    have := h (fun c => if hc : c < n then (x - y) ⟨c, hc⟩ else 0) (fun i hi => ?_) c c.2
    · rw [dif_pos c.2] at this
      exact sub_eq_zero.1 this
    · have h2 := congrFun hz ⟨i, hi⟩
      refine Eq.trans ?_ h2
      rw [← finsum_range _ (fun c => G i c * (if hc : c < n then (x - y) ⟨c, hc⟩ else 0))]
      refine Finset.sum_congr rfl (fun c _ => ?_)
      rw [dif_pos c.2]; rfl
  · intro h x hx c hc
    have : (fun c : Fin n => x c) = 0 := by
      refine h ?_
      beta_reduce
      rw [Matrix.mulVec_zero]
      funext i
      refine Eq.trans ?_ (hx i i.2)
      rw [← finsum_range _ (fun c => G i c * x c)]; rfl
    exact congrFun this ⟨c, hc⟩

/-! ### C31: getrf_level0 -/

theorem norm_le_abs1 (a : 𝕜) : ‖a‖ ≤ |RCLike.re a| + |RCLike.im a| := by
  have h1 : ‖a‖ ^ 2 = |RCLike.re a| ^ 2 + |RCLike.im a| ^ 2 := by
    rw [sq_abs, sq_abs, RCLike.norm_sq_eq_def]; ring
  refine abs_le_of_sq_le_sq' ?_ (by positivity) |>.2
  rw [h1]
  nlinarith [abs_nonneg (RCLike.re a), abs_nonneg (RCLike.im a)]

theorem abs1_le_norm (a : 𝕜) : |RCLike.re a| + |RCLike.im a| ≤ Real.sqrt 2 * ‖a‖ := by
  have h1 : ‖a‖ ^ 2 = |RCLike.re a| ^ 2 + |RCLike.im a| ^ 2 := by
    rw [sq_abs, sq_abs, RCLike.norm_sq_eq_def]; ring
  rw [← Real.sqrt_sq (norm_nonneg a), ← Real.sqrt_mul (by norm_num), h1]
  refine Real.le_sqrt_of_sq_le ?_
  nlinarith [sq_nonneg (|RCLike.re a| - |RCLike.im a|)]

theorem abs1_real (hreal : ∀ z : 𝕜, RCLike.im z = 0) (a : 𝕜) : |RCLike.re a| + |RCLike.im a| = ‖a‖ := by
  rw [hreal a, abs_zero, add_zero, ← RCLike.norm_ofReal (K := 𝕜)]
  congr 1
  conv_rhs => rw [← RCLike.re_add_im a, hreal a]
  simp


/-- **C31** getrf_level0, for every shape and contents: it returns normally, writes only `A` and
the first `min(m,n)` pivots, and meets the contract; the multipliers are at most 1 in absolute
value for real scalars and at most `√2` for complex ones (the pivot maximizes `|re| + |im|`). -/
theorem C31_getrf_level0 (A : MatV L) (hA : A.Inj) (piv : IArr) (hp : min A.m A.n ≤ piv.n)
    (μ : Store L 𝕜) :
    ∃ info piv' ν, getrfLevel0 (fun a : 𝕜 => |RCLike.re a| + |RCLike.im a|) A piv μ =
        (.ok (info, piv'), ν) ∧
      LuSpec A.m A.n (fun l => ‖l‖ ≤ Real.sqrt 2 ∧ ((∀ z : 𝕜, RCLike.im z = 0) → ‖l‖ ≤ 1))
        (entry μ A) (entry ν A) piv'.f info ∧
      (∀ l, ¬ A.Owns l → ν l = μ l) ∧
      piv'.n = piv.n ∧ ∀ j, min A.m A.n ≤ j → piv'.f j = piv.f j := by
  have h0 : ∀ a : 𝕜, |RCLike.re a| + |RCLike.im a| ≤ |RCLike.re (0 : 𝕜)| + |RCLike.im (0 : 𝕜)| → a = 0 := by
    intro a ha
    have := (norm_le_abs1 a).trans ha
    simpa using this
  have hbd : ∀ a b : 𝕜, |RCLike.re a| + |RCLike.im a| ≤ |RCLike.re b| + |RCLike.im b| → b ≠ 0 →
      ‖a / b‖ ≤ Real.sqrt 2 ∧ ((∀ z : 𝕜, RCLike.im z = 0) → ‖a / b‖ ≤ 1) := by
    intro a b hab hb
    have hb' : 0 < ‖b‖ := norm_pos_iff.2 hb
    rw [norm_div]
    refine ⟨?_, fun hr => ?_⟩
    · rw [div_le_iff₀ hb']
      exact (norm_le_abs1 a).trans (hab.trans (abs1_le_norm b))
    · rw [abs1_real hr, abs1_real hr] at hab
      exact div_le_one_of_le₀ hab hb'.le
  obtain ⟨⟨info, piv'⟩, ν, e, h⟩ := wp_iff.1 (wp_getrfLevel0 (bd := fun l =>
    ‖l‖ ≤ Real.sqrt 2 ∧ ((∀ z : 𝕜, RCLike.im z = 0) → ‖l‖ ≤ 1)) hA hp h0 hbd (μ := μ))
  exact ⟨info, piv', ν, e, h.spec, h.only, h.pn, h.keep⟩

/-- **C31** On a square matrix getrf_level0 succeeds exactly when the matrix is invertible. -/
theorem C31_getrf_level0_square (A : MatV L) (hA : A.Inj) (n : Nat) (hm : A.m = n) (hn : A.n = n)
    (piv : IArr) (hp : n ≤ piv.n) (μ : Store L 𝕜) :
    ∃ info piv' ν, getrfLevel0 (fun a : 𝕜 => |RCLike.re a| + |RCLike.im a|) A piv μ =
        (.ok (info, piv'), ν) ∧ (info = 0 ↔ IsUnit (mat n n (entry μ A))) := by
  obtain ⟨info, piv', ν, e, h, _⟩ := C31_getrf_level0 A hA piv (by omega) μ
  refine ⟨info, piv', ν, e, ?_⟩
  rw [← colsLI_square]
  have := h.ok_iff
  rwa [hm, hn, min_self] at this

/-- **C31** For complex scalars the bound 1 does not hold: on the column `(1 + i, 2)`
getrf_level0 keeps `1 + i` as pivot (both have `|re| + |im| = 2`) and the multiplier is `1 - i`. -/
theorem C31_complex_multiplier_above_one :
    ∃ (piv' : IArr) (ν : Store (Nat × Nat × Nat) ℂ),
      getrfLevel0 (fun a : ℂ => |RCLike.re a| + |RCLike.im a|) (mkM 0 2 1) ⟨1, fun _ => 0⟩
        (fun l => if l.2.1 = 0 then (1 + Complex.I : ℂ) else 2) = (.ok (0, piv'), ν) ∧
      1 < ‖entry ν (mkM 0 2 1) 1 0‖ := by
  have hne : (1 + Complex.I : ℂ) ≠ 0 := fun h => by simpa using congrArg Complex.re h
  have hn : (1 : ℝ) < ‖(2 : ℂ) / (1 + Complex.I)‖ := by
    rw [norm_div, one_lt_div (norm_pos_iff.2 hne)]
    refine (sq_lt_sq₀ (norm_nonneg _) (norm_nonneg _)).1 ?_
    rw [← Complex.normSq_eq_norm_sq, ← Complex.normSq_eq_norm_sq]
    norm_num [Complex.normSq_apply]
  have h : wp (getrfLevel0 (fun a : ℂ => |RCLike.re a| + |RCLike.im a|) (mkM 0 2 1) ⟨1, fun _ => 0⟩)
      (fun l => if l.2.1 = 0 then (1 + Complex.I : ℂ) else 2)
      (fun r ν => r.1 = 0 ∧ 1 < ‖entry ν (mkM 0 2 1) 1 0‖) := by
    unfold getrfLevel0 
    simp only [wp_bind, wp_check]
    have h11 : (2 : ℝ) ≤ 1 + 1 := by norm_num
    have h12 : ¬ (1 + 1 : ℝ) < 2 := by norm_num
    simpa [mkM, forRet, forRetN, pivSearch, forUp, forUpN, wp_bind, wp_pure, wp_get, IArr.set, swapRowsLoop, luElim, forUp_, wp_modify, upd, entry, h11, h12, hne] using hn
  obtain ⟨⟨r, p⟩, ν, e, h1, h2⟩ := wp_iff.1 h
  simp only at h1
  exact ⟨p, ν, by rw [e, h1], h2⟩

/-! ### C32: getrf_recursive -/

/-- **C32** getrf_recursive, for every shape and contents: it returns normally, writes only `A` and
the first `min(m,n)` pivots, and meets the same contract with multipliers at most 1 in absolute
value.  `safeMin`, `safeMax` are the (reciprocal) constants of rscl and `isinf` its overflow test. -/
theorem C32_getrf_recursive (isReal : Bool) (isinf : ℝ → Bool) (safeMin safeMax : ℝ)
    (hl : LuLaws 𝕜 isReal safeMin safeMax) (A : MatV L) (hA : A.Inj) (piv : IArr)
    (hp : min A.m A.n ≤ piv.n) (μ : Store L 𝕜) :
    ∃ info piv' ν, getrfRec (luOps isReal isinf safeMin safeMax) A piv μ = (.ok (info, piv'), ν) ∧
      LuSpec A.m A.n (fun l => ‖l‖ ≤ 1) (entry μ A) (entry ν A) piv'.f info ∧
      (∀ l, ¬ A.Owns l → ν l = μ l) ∧
      piv'.n = piv.n ∧ ∀ j, min A.m A.n ≤ j → piv'.f j = piv.f j := by
  obtain ⟨⟨info, piv'⟩, ν, e, h⟩ := wp_iff.1 (wp_getrfRec (isinf := isinf) hl _ (le_refl _) hA hp (μ := μ))
  exact ⟨info, piv', ν, e, h.spec, h.only, h.pn, h.keep⟩

/-- **C32** Whatever the variant, getrf reports the same `info`: 0 when the first `min(m,n)`
columns are independent, `j + 1` when column `j` is the first dependent one. -/
theorem C32_getrf_info (isReal : Bool) (isinf : ℝ → Bool) (safeMin safeMax : ℝ)
    (hl : LuLaws 𝕜 isReal safeMin safeMax) (v : GetrfVariant) (A : MatV L) (hA : A.Inj) (piv : IArr)
    (hp : min A.m A.n ≤ piv.n) (μ : Store L 𝕜) :
    ∃ info piv' ν, getrf (luOps isReal isinf safeMin safeMax) v A piv μ = (.ok (info, piv'), ν) ∧
      (info = 0 ↔ ColsLI A.m (min A.m A.n) (entry μ A)) ∧
      ∀ j, info = j + 1 ↔ j < min A.m A.n ∧ ColsLI A.m j (entry μ A) ∧ ColInSpan A.m j (entry μ A) := by
  cases v with
  | Level0 =>
    obtain ⟨info, piv', ν, e, h, _⟩ := C31_getrf_level0 A hA piv hp μ
    exact ⟨info, piv', ν, e, h.ok_iff, h.fail_iff⟩
  | Recursive =>
    obtain ⟨info, piv', ν, e, h, _⟩ := C32_getrf_recursive isReal isinf safeMin safeMax hl A hA piv hp μ
    exact ⟨info, piv', ν, e, h.ok_iff, h.fail_iff⟩

/-- A 3×2 matrix, two pivots: the hypotheses hold, over the reals with `is_real` and over the
complex numbers without it. -/
example : (mkM 0 3 2).Inj ∧ min (mkM 0 3 2).m (mkM 0 3 2).n ≤ (⟨2, fun _ => 0⟩ : IArr).n ∧
    LuLaws ℝ true 1 1 ∧ LuLaws ℂ false (1 / 4) 4 :=
  ⟨mkM_inj _ _ _, by decide, ⟨fun _ _ => rfl, by norm_num⟩, ⟨by simp, by norm_num⟩⟩

end TLA
