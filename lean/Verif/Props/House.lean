import Verif.Props.Examples
import Verif.Proofs.HouseFinal

/-!
# C37, C38, C39, C43: Householder reflectors, QR/LQ/QL/RQ factorizations, Euclidean norms

Arithmetic is exact, over the real or the complex numbers (`hhOps`); the machine constants that
steer the scaling branches are parameters `p`, constrained by `HhLaws` only.
-/

set_option linter.unusedTactic false
set_option linter.unreachableTactic false
set_option linter.unusedSectionVars false

namespace TLA
open Finset
variable {L T 𝕜 : Type} [DecidableEq L] [RCLike 𝕜] [DecidableEq 𝕜] {p : HhPar}

/-- The constants of IEEE double precision (base/constants.hpp). -/
noncomputable def doublePar (isReal : Bool) : HhPar where
  isReal := isReal
  isinf _ := false
  safeMin := 1 / 2 ^ 1022
  safeMax := 2 ^ 1022
  tsml := 1 / 2 ^ 511
  tbig := 2 ^ 486
  ssml := 2 ^ 537
  sbig := 1 / 2 ^ 538
  hmin := 1 / 2 ^ 969

theorem doublePar_laws (isReal : Bool) (h : isReal = true → ∀ z : 𝕜, RCLike.im z = 0) :
    HhLaws 𝕜 (doublePar isReal) where
  real := h
  safe := by unfold doublePar; simp
  ssml_pos := by unfold doublePar; positivity
  sbig_pos := by unfold doublePar; positivity
  tbig_one := by unfold doublePar; exact one_le_pow₀ (by norm_num)
  hmin_pos := by unfold doublePar; positivity
  hmin_one := by
    unfold doublePar
    rw [div_le_one (by positivity)]
    exact one_le_pow₀ (by norm_num)

/-! ### C43: norms -/

/-- **C43** nrm2 returns the Euclidean norm, and writes nothing, if no entry exceeds `blue_max` or no
nonzero entry is below `blue_min`. -/
theorem C43_nrm2 (hl : HhLaws 𝕜 p) (x : VecV L) (μ : Store L 𝕜)
    (hd : (∀ i, i < x.n → ‖ventry μ x i‖ ≤ p.tbig) ∨
      (∀ i, i < x.n → ventry μ x i = 0 ∨ p.tsml ≤ ‖ventry μ x i‖)) :
    nrm2 (hhOps p) x μ = (.ok (Real.sqrt (∑ i ∈ range x.n, ‖ventry μ x i‖ ^ 2)), μ) := by
  obtain ⟨_, ν, e, rfl, rfl⟩ := wp_iff.1 (wp_nrm2 hl x μ hd)
  exact e

/-- **C43** In general nrm2 leaves out the entries below `blue_min` as soon as one entry exceeds
`blue_max`, whatever the number of such entries. -/
theorem C43_nrm2_big (hl : HhLaws 𝕜 p) (x : VecV L) (μ : Store L 𝕜) (hlt : p.tsml ≤ p.tbig)
    (hb : ∃ i, i < x.n ∧ p.tbig < ‖ventry μ x i‖) :
    nrm2 (hhOps p) x μ = (.ok (Real.sqrt (∑ i ∈ range x.n,
      if ‖ventry μ x i‖ < p.tsml then 0 else ‖ventry μ x i‖ ^ 2)), μ) := by
  obtain ⟨_, ν, e, rfl, rfl⟩ := wp_iff.1 (wp_nrm2_blue hl x μ)
  rw [e]
  unfold blueSum
  rw [if_pos hb]
  congr 3
  refine Finset.sum_congr rfl fun i _ => ?_
  simp only []
  by_cases h : ‖ventry ν x i‖ < p.tsml
  · rw [if_pos ⟨h, by linarith⟩, if_pos h]
  · rw [if_neg (fun hc => h hc.1), if_neg h]

/-- **C43** lassq updates a scaled sum of squares: `scale'^2 sumsq' = scale^2 sumsq + sum |x_i|^2`,
provided neither the entries nor `scale sqrt(sumsq)` exceed `blue_max` (or none of them is nonzero
and below `blue_min`). -/
theorem C43_lassq (hl : HhLaws 𝕜 p) (x : VecV L) (s q : ℝ) (hs : 0 ≤ s) (hq : 0 ≤ q) (μ : Store L 𝕜)
    (hd : (∀ i, i < x.n → ‖ventry μ x i‖ ≤ p.tbig) ∧ s * Real.sqrt q ≤ p.tbig ∨
      (∀ i, i < x.n → ventry μ x i = 0 ∨ p.tsml ≤ ‖ventry μ x i‖) ∧
        (s * Real.sqrt q = 0 ∨ p.tsml ≤ s * Real.sqrt q)) :
    ∃ s' q', lassq (hhOps p) x s q μ = (.ok (s', q'), μ) ∧ 0 ≤ s' ∧ 0 ≤ q' ∧
      s' ^ 2 * q' = s ^ 2 * q + ∑ i ∈ range x.n, ‖ventry μ x i‖ ^ 2 := by
  by_cases hx : x.n = 0
  · refine ⟨if (if q = 0 then 1 else s) = 0 then 1 else (if q = 0 then 1 else s),
      if (if q = 0 then 1 else s) = 0 then 0 else q, ?_, ?_, ?_, ?_⟩
    · unfold lassq lassqF
      simp only [hhOps, Bool.or_self, Bool.false_eq_true, if_false]
      rw [if_pos hx]
      rfl
    · split_ifs <;> first | exact zero_le_one | exact hs
    · split_ifs <;> first | exact le_refl _ | exact hq
    · rw [hx, Finset.sum_range_zero, add_zero]
      split_ifs with h1 h2 h2 <;> simp_all
  · obtain ⟨⟨s', q'⟩, ν, e, rfl, h1, h2, h3⟩ := wp_iff.1 (wp_lassq hl x s q hs hq μ (by omega))
    refine ⟨s', q', e, h1, h2, ?_⟩
    rw [h3, blueSum_exact, Finset.sum_range_succ, add_comm]
    · congr 1
      · unfold withPrior
        rw [if_neg (by omega), mul_pow, Real.sq_sqrt hq]
      · refine Finset.sum_congr rfl fun i hi => ?_
        unfold withPrior
        rw [if_pos (mem_range.1 hi)]
    · unfold withPrior
      refine hd.imp (fun h i hi => ?_) (fun h i hi => ?_)
      · split
        · exact h.1 i ‹_›
        · exact h.2
      · split
        · simpa using h.1 i ‹_›
        · exact h.2

/-- **C43** lapy2 and lapy3 return `sqrt(x^2 + y^2)` and `sqrt(x^2 + y^2 + z^2)`. -/
theorem C43_lapy (x y z : ℝ) : lapy2 Real.sqrt x y = Real.sqrt (x ^ 2 + y ^ 2) ∧
    lapy3 Real.sqrt x y z = Real.sqrt (x ^ 2 + y ^ 2 + z ^ 2) := ⟨lapy2_eq x y, lapy3_eq x y z⟩

/-- A vector of three entries, double precision constants. -/
example : HhLaws ℂ (doublePar false) ∧ HhLaws ℝ (doublePar true) ∧
    (∀ i, i < (mkV 0 3).n → ‖ventry (fun _ => (1 : ℝ)) (mkV 0 3) i‖ ≤ (doublePar true).tbig) ∧
    (doublePar true).tsml ≤ (doublePar true).tbig := by
  refine ⟨doublePar_laws _ (by simp), doublePar_laws _ (fun _ _ => rfl), fun i _ => ?_, ?_⟩
  · unfold ventry doublePar
    simp only [norm_one]
    exact one_le_pow₀ (by norm_num)
  · unfold doublePar
    have h1 : (1 : ℝ) / 2 ^ 511 ≤ 1 := by
      rw [div_le_one (by positivity)]
      exact one_le_pow₀ (by norm_num)
    exact h1.trans (one_le_pow₀ (by norm_num))

/-! ### C37: generation of a reflector -/

/-- What larfg promises, besides annihilation: the new pivot entry `beta` is real of modulus
`‖a‖₂`, `tau` vanishes exactly if there is nothing to do, otherwise `1 ≤ re tau ≤ 2` and
`|tau - 1| ≤ 1`. -/
structure LarfgSpec (dir : Direction) (n : Nat) (a : Nat → 𝕜) (beta tau : 𝕜) : Prop where
  real : RCLike.im beta = 0
  norm : ‖beta‖ ^ 2 = ∑ i ∈ range n, ‖a i‖ ^ 2
  triv : tau = 0 ↔ (∀ i, i < n → i ≠ pidx dir n → a i = 0) ∧ RCLike.im (a (pidx dir n)) = 0
  same : tau = 0 → beta = a (pidx dir n)
  tau : tau = 0 ∨ 1 ≤ RCLike.re tau ∧ RCLike.re tau ≤ 2 ∧ ‖tau - 1‖ ≤ 1

theorem larfgSpec_of {dir : Direction} {store : StoreV} {n : Nat} (hn : 0 < n) {a b : Nat → 𝕜} {tau : 𝕜}
    (h : LarfgRes store (a (pidx dir n)) (n - 1) (fun i => a (skip dir i)) (b (pidx dir n), tau)
      (fun i => b (skip dir i))) : LarfgSpec dir n a (b (pidx dir n)) tau := by
  obtain ⟨al, ha⟩ : ∃ al, al = a (pidx dir n) := ⟨_, rfl⟩
  obtain ⟨be, hb⟩ : ∃ be, be = b (pidx dir n) := ⟨_, rfl⟩
  obtain ⟨N, hN⟩ : ∃ N : ℝ, N = ∑ i ∈ range (n - 1), ‖a (skip dir i)‖ ^ 2 := ⟨_, rfl⟩
  have hN0 : 0 ≤ N := by rw [hN]; exact Finset.sum_nonneg fun i _ => by positivity
  have hsum : ∑ i ∈ range n, ‖a i‖ ^ 2 = ‖al‖ ^ 2 + N := by
    rw [sum_pivot dir hn, hN, ha]
  have hall : (∀ i, i < n - 1 → a (skip dir i) = 0) ↔ (∀ i, i < n → i ≠ pidx dir n → a i = 0) := by
    constructor
    · intro h i hi hne
      rcases pidx_cases (dir := dir) hi with e | ⟨k, hk, rfl⟩
      · exact absurd e hne
      · exact h k hk
    · intro h i hi
      exact h _ (skip_lt hi) (skip_ne hi)
  have hbeta := h.beta
  simp only [← ha, ← hb, ← hN] at hbeta
  rw [← ha, ← hb] at h
  rw [← hb]
  by_cases ht : (∀ i, i < n - 1 → a (skip dir i) = 0) ∧ RCLike.im al = 0
  · rw [if_pos ht] at hbeta
    have htau := (h.triv ht.1 ht.2).1
    simp only at htau
    have hab : be = al := by
      rw [hbeta]
      apply RCLike.ext
      · simp
      · simp [ht.2]
    have hN1 : N = 0 := by
      rw [hN]; exact Finset.sum_eq_zero fun i hi => by rw [ht.1 i (mem_range.1 hi)]; simp
    refine ⟨by rw [hab]; exact ht.2, by rw [hab, hsum, hN1, add_zero], ?_, fun _ => ?_, Or.inl htau⟩
    · rw [← ha]; exact ⟨fun _ => ⟨hall.1 ht.1, ht.2⟩, fun _ => htau⟩
    · rw [← ha]; exact hab
  · rw [if_neg ht] at hbeta
    obtain ⟨hne, hsub, htau, -⟩ := h.gen ht
    simp only at hne hsub htau
    have hbr : betaOf al N ≠ 0 := by
      intro h0; rw [h0] at hbeta; exact hne (by rw [hbeta]; simp)
    have hsq := betaOf_sq al hN0
    have hsg := betaOf_sign al N
    have hnorm : ‖be‖ ^ 2 = ‖al‖ ^ 2 + N := by
      rw [hbeta, RCLike.norm_ofReal, sq_abs, hsq]
    have hle : ‖al‖ ≤ ‖be‖ := by
      refine le_of_sq_le_sq ?_ (norm_nonneg _)
      rw [hnorm]; linarith
    have hbpos : 0 < ‖be‖ := norm_pos_iff.2 hne
    have hq : (be - al) / be = 1 - al / be := by field_simp
    have hq1 : ‖al / be‖ ≤ 1 := by rw [norm_div]; exact (div_le_one hbpos).2 hle
    have hre : RCLike.re (al / be) ≤ 0 := by
      rw [hbeta, RCLike.div_re_ofReal, div_nonpos_iff]
      rcases lt_or_gt_of_ne hbr with hc | hc
      · left; exact ⟨by nlinarith, hc.le⟩
      · right; exact ⟨by nlinarith, hc.le⟩
    have habs : |RCLike.re (al / be)| ≤ 1 := (RCLike.abs_re_le_norm _).trans hq1
    have hlow : -1 ≤ RCLike.re (al / be) := (abs_le.1 habs).1
    have key : 1 ≤ RCLike.re tau ∧ RCLike.re tau ≤ 2 ∧ ‖tau - 1‖ ≤ 1 := by
      rw [htau, hq]
      split
      · refine ⟨?_, ?_, ?_⟩
        · rw [RCLike.star_def, RCLike.conj_re, map_sub, RCLike.one_re]; linarith
        · rw [RCLike.star_def, RCLike.conj_re, map_sub, RCLike.one_re]; linarith
        · rw [star_sub, star_one, sub_sub_cancel_left, norm_neg, norm_star]; exact hq1
      · refine ⟨?_, ?_, ?_⟩
        · rw [map_sub, RCLike.one_re]; linarith
        · rw [map_sub, RCLike.one_re]; linarith
        · rw [sub_sub_cancel_left, norm_neg]; exact hq1
    have hne0 : tau ≠ 0 := by
      intro h0
      rw [h0] at key
      have := key.1
      simp at this
      linarith
    refine ⟨by rw [hbeta]; simp, by rw [hsum, hnorm], ⟨fun h0 => absurd h0 hne0, fun hc => ?_⟩,
      fun h0 => absurd h0 hne0, Or.inr key⟩
    rw [← ha, ← hall] at hc
    exact absurd hc ht

/-- **C37** larfg on a column vector `a` (stored in `v`, pivot entry first or last): with the
returned `tau` and the reflector vector `u` left in `v` (pivot entry taken as 1), `H = I - tau u u^H`
is unitary and `H^H a = beta e`, `beta` being the entry left at the pivot; only `v` is written. -/
theorem C37_larfg_columnwise (hl : HhLaws 𝕜 p) (dir : Direction) (v : VecV L) (hv : v.Inj) (hn : 0 < v.n)
    (μ : Store L 𝕜)
    (hd : (∀ i, i < v.n → ‖ventry μ v i‖ ≤ p.tbig) ∨
      (∀ i, i < v.n → ventry μ v i = 0 ∨ p.tsml ≤ ‖ventry μ v i‖)) :
    ∃ tau ν, larfgV (hhOps p) dir .Columnwise v μ = (.ok tau, ν) ∧
      LarfgSpec dir v.n (ventry μ v) (ventry ν v (pidx dir v.n)) tau ∧
      (let H := mat v.n v.n (reflF tau (hvec dir .Columnwise v.n (ventry ν v)))
       H.conjTranspose * H = 1 ∧ H * H.conjTranspose = 1 ∧
       H.conjTranspose.mulVec (vec v.n (ventry μ v)) =
         vec v.n (fun i => if i = pidx dir v.n then ventry ν v (pidx dir v.n) else 0)) ∧
      ∀ l, ¬ v.Owns l → ν l = μ l := by
  obtain ⟨tau, ν, e, o, h⟩ := wp_iff.1 (wp_larfgV (store := .Columnwise) hl hv hn (dir := dir) (μ := μ)
    (hd.imp (fun h i hi => h _ (skip_lt hi)) (fun h i hi => h _ (skip_lt hi))))
  have hr := reflRes_of hn h
  refine ⟨tau, ν, e, larfgSpec_of hn h, ⟨refl_unitary hr.unit, refl_unitary' hr.unit, ?_⟩, o⟩
  rw [refl_conjTranspose, mat_mulVec, vec_ext_iff]
  intro i hi
  rw [← hr.ann i hi]
  unfold reflF adjTau
  simp only [sub_mul, Finset.sum_sub_distrib, ite_mul, one_mul, zero_mul, if_true]
  rw [Finset.sum_ite_eq, if_pos (mem_range.2 hi), Finset.mul_sum]
  congr 1
  exact Finset.sum_congr rfl fun s _ => by ring

/-- **C37** larfg on a row vector `a`: the reflector vector `u` is the conjugate of the row left in
`v`, `H = I - tau u u^H` is unitary and `a H = beta e`. -/
theorem C37_larfg_rowwise (hl : HhLaws 𝕜 p) (dir : Direction) (v : VecV L) (hv : v.Inj) (hn : 0 < v.n)
    (μ : Store L 𝕜)
    (hd : (∀ i, i < v.n → ‖ventry μ v i‖ ≤ p.tbig) ∨
      (∀ i, i < v.n → ventry μ v i = 0 ∨ p.tsml ≤ ‖ventry μ v i‖)) :
    ∃ tau ν, larfgV (hhOps p) dir .Rowwise v μ = (.ok tau, ν) ∧
      LarfgSpec dir v.n (ventry μ v) (ventry ν v (pidx dir v.n)) tau ∧
      (let H := mat v.n v.n (reflF tau (hvec dir .Rowwise v.n (ventry ν v)))
       H.conjTranspose * H = 1 ∧ H * H.conjTranspose = 1 ∧
       Matrix.vecMul (vec v.n (ventry μ v)) H =
         vec v.n (fun i => if i = pidx dir v.n then ventry ν v (pidx dir v.n) else 0)) ∧
      ∀ l, ¬ v.Owns l → ν l = μ l := by
  obtain ⟨tau, ν, e, o, h⟩ := wp_iff.1 (wp_larfgV (store := .Rowwise) hl hv hn (dir := dir) (μ := μ)
    (hd.imp (fun h i hi => h _ (skip_lt hi)) (fun h i hi => h _ (skip_lt hi))))
  have hr := reflRes_of hn h
  have hc : ∀ i, hvec dir .Rowwise v.n (ventry ν v) i = star (hvec dir .Columnwise v.n (ventry ν v) i) := by
    intro i
    unfold hvec
    split
    · exact (star_one _).symm
    · rfl
  have hu : tau * star tau * (∑ i ∈ range v.n, hvec dir .Rowwise v.n (ventry ν v) i *
      star (hvec dir .Rowwise v.n (ventry ν v) i)) = tau + star tau := by
    rw [← hr.unit]
    congr 1
    refine Finset.sum_congr rfl fun i _ => ?_
    rw [hc, star_star, mul_comm]
  refine ⟨tau, ν, e, larfgSpec_of hn h, ⟨refl_unitary hu, refl_unitary' hu, ?_⟩, o⟩
  rw [← Matrix.mulVec_transpose, mat_transpose, mat_mulVec, vec_ext_iff]
  intro i hi
  rw [← hr.ann i hi]
  unfold reflF adjTau
  simp only [sub_mul, Finset.sum_sub_distrib, ite_mul, one_mul, zero_mul, reduceCtorEq, if_false, hc, star_star]
  rw [Finset.sum_ite_eq', if_pos (mem_range.2 hi), Finset.mul_sum]
  congr 1
  exact Finset.sum_congr rfl fun s _ => by ring

/-- A column of three entries. -/
example : (mkV 0 3).Inj ∧ 0 < (mkV 0 3).n ∧ HhLaws ℝ (doublePar true) ∧
    (∀ i, i < (mkV 0 3).n → ‖ventry (fun _ => (1 : ℝ)) (mkV 0 3) i‖ ≤ (doublePar true).tbig) := by
  refine ⟨mkV_inj _ _, by decide, doublePar_laws _ (fun _ _ => rfl), fun i _ => ?_⟩
  unfold ventry doublePar
  simp only [norm_one]
  exact one_le_pow₀ (by norm_num)

/-! ### C38: application of a reflector -/

section apply
variable [Field T] [StarRing T] [ReIm T] [DecidableEq T] [RealOps T] [ExactScalar T]

/-- **C38** larf overwrites `C` by `H C` or `C H`, `H = I - tau u u^H` with the reflector vector `u`
held in `v` (its pivot entry is not read and counts as 1; conjugated for Rowwise storage), for both
directions and storages; only `C` and the workspace are written. -/
theorem C38_larf (side : Side) (dir : Direction) (store : StoreV) (v : VecV L) (tau : T) (C : MatV L)
    (work : VecV L) (h : LarfOK side v C work) (μ : Store L T) :
    ∃ ν, larf side dir store v tau C work μ = (.ok (), ν) ∧
      mat C.m C.n (entry ν C) = (if side = .Left then
        mat C.m C.m (reflF tau (hvec dir store C.m (ventry μ v))) * mat C.m C.n (entry μ C)
        else mat C.m C.n (entry μ C) * mat C.n C.n (reflF tau (hvec dir store C.n (ventry μ v)))) ∧
      ∀ l, ¬ C.Owns l → ¬ work.Owns l → ν l = μ l := by
  rcases h.hside with rfl | rfl
  · obtain ⟨_, ν, e, h⟩ := wp_iff.1 (wp_larf_left (dir := dir) (store := store) (tau := tau) (μ := μ) h)
    refine ⟨ν, e, ?_, h.frame⟩
    rw [if_pos rfl, ← mat_applyL, mat_ext_iff]
    exact h.val
  · obtain ⟨_, ν, e, h⟩ := wp_iff.1 (wp_larf_right (dir := dir) (store := store) (tau := tau) (μ := μ) h)
    refine ⟨ν, e, ?_, h.frame⟩
    rw [if_neg (by simp), ← mat_applyR, mat_ext_iff]
    exact h.val

/-- `[c; C]`: the row `c` on top of `C`. -/
def stackRow (c : Nat → T) (C : Nat → Nat → T) : Nat → Nat → T := fun i j => if i = 0 then c j else C (i - 1) j

/-- `[c C]`: the column `c` in front of `C`. -/
def stackCol (c : Nat → T) (C : Nat → Nat → T) : Nat → Nat → T := fun i j => if j = 0 then c i else C i (j - 1)

/-- The reflector vector `[1; x]`, `x` as stored or (Rowwise) conjugated. -/
def consOne (store : StoreV) (x : Nat → T) : Nat → T := fun i =>
  if i = 0 then 1 else match store with
    | .Columnwise => x (i - 1)
    | .Rowwise => star (x (i - 1))

/-- **C38** larf on `C` split into its first row `C0` and its other rows `C1`: `[C0; C1]` is
overwritten by `H [C0; C1]`, for at least one column. -/
theorem C38_larf_parts_left (store : StoreV) (x C0 work : VecV L) (C1 : MatV L) (tau : T)
    (h : LarfSep x C0 work C1) (h0 : C0.n = C1.n) (hx : x.n = C1.m) (hn : 0 < C1.n)
    (hw : 0 < C1.m → C1.n ≤ work.n) (μ : Store L T) :
    ∃ ν, larfC .Left store x tau C0 C1 work μ = (.ok (), ν) ∧
      mat (C1.m + 1) C1.n (stackRow (ventry ν C0) (entry ν C1)) =
        mat (C1.m + 1) (C1.m + 1) (reflF tau (consOne store (ventry μ x))) *
          mat (C1.m + 1) C1.n (stackRow (ventry μ C0) (entry μ C1)) ∧
      ∀ l, ¬ C0.Owns l → ¬ C1.Owns l → ¬ work.Owns l → ν l = μ l := by
  obtain ⟨_, ν, e, r⟩ := wp_iff.1 (wp_larfCL (store := store) (tau := tau) (μ := μ) h h0 hx hn hw)
  refine ⟨ν, e, ?_, r.frame⟩
  rw [← mat_applyL, mat_ext_iff]
  intro i j hi hj
  unfold applyL
  have hs : ∑ s ∈ range (C1.m + 1), star (consOne store (ventry μ x) s) * stackRow (ventry μ C0) (entry μ C1) s j =
      ventry μ C0 j + ∑ s ∈ range C1.m, star (uOf store (ventry μ x) s) * entry μ C1 s j := by
    rw [Finset.sum_range_succ', add_comm]
    cases store <;> simp [consOne, stackRow, uOf]
  rw [hs]
  cases i with
  | zero =>
    have := r.v0 j (by omega)
    simpa [stackRow, consOne] using this
  | succ i =>
    have := r.v1 i j (by omega) hj
    simp only [stackRow, consOne, Nat.add_eq_zero_iff, one_ne_zero, and_false, if_false, Nat.add_sub_cancel]
    rw [this]
    rfl

/-- **C38** larf on `C` split into its first column `C0` and its other columns `C1`: `[C0 C1]` is
overwritten by `[C0 C1] H`, for at least one row. -/
theorem C38_larf_parts_right (store : StoreV) (x C0 work : VecV L) (C1 : MatV L) (tau : T)
    (h : LarfSep x C0 work C1) (h0 : C0.n = C1.m) (hx : x.n = C1.n) (hm : 0 < C1.m)
    (hw : 0 < C1.n → C1.m ≤ work.n) (μ : Store L T) :
    ∃ ν, larfC .Right store x tau C0 C1 work μ = (.ok (), ν) ∧
      mat C1.m (C1.n + 1) (stackCol (ventry ν C0) (entry ν C1)) =
        mat C1.m (C1.n + 1) (stackCol (ventry μ C0) (entry μ C1)) *
          mat (C1.n + 1) (C1.n + 1) (reflF tau (consOne store (ventry μ x))) ∧
      ∀ l, ¬ C0.Owns l → ¬ C1.Owns l → ¬ work.Owns l → ν l = μ l := by
  obtain ⟨_, ν, e, r⟩ := wp_iff.1 (wp_larfCR (store := store) (tau := tau) (μ := μ) h h0 hx hm hw)
  refine ⟨ν, e, ?_, r.frame⟩
  rw [← mat_applyR, mat_ext_iff]
  intro i j hi hj
  unfold applyR
  have hs : ∑ s ∈ range (C1.n + 1), stackCol (ventry μ C0) (entry μ C1) i s * consOne store (ventry μ x) s =
      ventry μ C0 i + ∑ s ∈ range C1.n, entry μ C1 i s * uOf store (ventry μ x) s := by
    rw [Finset.sum_range_succ', add_comm]
    cases store <;> simp [consOne, stackCol, uOf]
  rw [hs]
  cases j with
  | zero =>
    have := r.v0 i (by omega)
    simpa [stackCol, consOne] using this
  | succ j =>
    have := r.v1 i j hi (by omega)
    simp only [stackCol, consOne, Nat.add_eq_zero_iff, one_ne_zero, and_false, if_false, Nat.add_sub_cancel]
    rw [this]
    rfl

/-- **C38** (deviation) The size check of this form is mis-parsed
(`size(x) == (side == Left) ? m : n`): a legitimate call without columns is rejected unless `x` has
exactly one entry ... -/
theorem C38_larf_parts_empty_violated (store : StoreV) (x C0 work : VecV L) (C1 : MatV L) (tau : T)
    (hx : x.n = C1.m) (hn : C1.n = 0) (h1 : C1.m ≠ 1) (μ : Store L T) :
    larfC .Left store x tau C0 C1 work μ = (.error .check, μ) := by
  unfold larfC larfSizeCheck
  simp only [if_true]
  rw [if_neg (by omega : ¬ x.n = 1), hn]
  rfl

/-- **C38** (deviation) ... and vectors of the wrong size are accepted when `C1` has no rows. -/
theorem C38_larf_parts_size_violated (store : StoreV) (x C0 work : VecV L) (C1 : MatV L) (tau : T)
    (h : C0.Inj) (hm : C1.m = 0) (hn : 0 < C1.n) (h1 : 2 ≤ x.n) (μ : Store L T) :
    x.n ≠ C1.m ∧ ∃ ν, larfC .Left store x tau C0 C1 work μ = (.ok (), ν) := by
  refine ⟨by omega, ?_⟩
  have : wp (larfC .Left store x tau C0 C1 work) μ (fun _ _ => True) := by
    unfold larfC larfSizeCheck
    simp only [wp_bind, wp_check, if_true]
    rw [if_pos (by simp), if_pos (by rw [if_neg (by omega : ¬ x.n = 1)]; simp; omega), if_pos (Or.inl hm)]
    exact wp_conseq (wp_larfEmpty h) fun _ _ _ => trivial
  obtain ⟨_, ν, e, -⟩ := wp_iff.1 this
  exact ⟨ν, e⟩

/-- A 3×2 matrix, from both sides; and its split form. -/
example : LarfOK .Left (mkV 0 3) (mkM 1 3 2) (mkV 2 2) ∧ LarfOK .Right (mkV 0 2) (mkM 1 3 2) (mkV 2 3) ∧
    LarfSep (mkV 0 2) (mkV 1 3) (mkV 2 3) (mkM 3 2 3) := by
  refine ⟨⟨?_, ?_, ?_, ?_, ?_, ?_, ?_, ?_⟩, ⟨?_, ?_, ?_, ?_, ?_, ?_, ?_, ?_⟩, ⟨?_, ?_, ?_, ?_, ?_, ?_, ?_, ?_, ?_⟩⟩ <;> adm

end apply

/-- **C38** unmq_level2 (unm2r, unm2l, unml2, unmr2) overwrites `C` by `op(Q) C` or `C op(Q)`, `Q` the
product of the `k` reflectors stored in `V` and `tau`; only `C` and the workspace are written. `op`
may be NoTrans, ConjTrans, or Trans for real types. -/
theorem C38_unmq (isReal : Bool) (side : Side) (trans : Op) (dir : Direction) (store : StoreV) (V : MatV L)
    (tau : VecV L) (C : MatV L) (work : VecV L) (ok : UnmqOK side store V tau C work)
    (ht : trans = .NoTrans ∨ trans = .ConjTrans ∨ (trans = .Trans ∧ isReal = true))
    (hreal : isReal = true → ∀ z : 𝕜, star z = z) (μ : Store L 𝕜) :
    ∃ ν, unmq isReal side trans dir store V tau C work μ = (.ok 0, ν) ∧
      mat C.m C.n (entry ν C) = (if side = .Left then
        opQ trans (houseQ dir store C.m tau.n (entry μ V) (ventry μ tau)) * mat C.m C.n (entry μ C)
        else mat C.m C.n (entry μ C) * opQ trans (houseQ dir store C.n tau.n (entry μ V) (ventry μ tau))) ∧
      ∀ l, ¬ C.Owns l → ¬ work.Owns l → ν l = μ l := by
  obtain ⟨_, ν, e, rfl, h⟩ := wp_iff.1 (wp_unmq (dir := dir) ok ht hreal (μ := μ))
  exact ⟨ν, e, h⟩

/-- Two reflectors of length three applied to a 3×2 and from the right to a 2×3 matrix. -/
example : UnmqOK .Left .Columnwise (mkM 0 3 2) (mkV 1 2) (mkM 2 3 2) (mkV 3 2) ∧
    UnmqOK .Right .Rowwise (mkM 0 2 3) (mkV 1 2) (mkM 2 2 3) (mkV 3 2) := by
  refine ⟨⟨?_, ?_, ?_, ?_, ?_, ?_, ?_, ?_, ?_, ?_, ?_⟩, ⟨?_, ?_, ?_, ?_, ?_, ?_, ?_, ?_, ?_, ?_, ?_⟩⟩ <;> adm

/-! ### C39: factorizations and generation of Q -/

/-- **C39** geqr2: `A = Q R`, `Q` the unitary product of the reflectors stored below the diagonal,
`R` upper trapezoidal with real diagonal; only `A`, the first `min(m,n)` entries of `tau` and the
workspace are written. -/
theorem C39_geqr2 (hl : HhLaws 𝕜 p) (A : MatV L) (tau work : VecV L) (ok : QrOK A tau work)
    (ht : min A.m A.n ≤ tau.n) (hw : geqr2Worksize A ≤ work.n) (μ : Store L 𝕜)
    (hb : ∀ c, c < A.n → ∑ r ∈ range A.m, ‖entry μ A r c‖ ^ 2 ≤ p.tbig ^ 2) :
    ∃ ν, geqr2 (hhOps p) A tau work μ = (.ok 0, ν) ∧
      (let Q := houseQ .Forward .Columnwise A.m (min A.m A.n) (entry ν A) (ventry ν tau)
       mat A.m A.n (entry μ A) = Q * mat A.m A.n (triF .Upper .NonUnit (entry ν A)) ∧
       Q.conjTranspose * Q = 1) ∧
      (∀ i, i < min A.m A.n → RCLike.im (entry ν A i i) = 0) ∧
      ∀ l, ¬ A.Owns l → ¬ (tau.sub 0 (min A.m A.n)).Owns l → ¬ work.Owns l → ν l = μ l := by
  obtain ⟨_, ν, e, rfl, h⟩ := wp_iff.1 (wp_geqr2 hl ok ht hw (μ := μ) hb)
  refine ⟨ν, e, ⟨?_, h.inv.houseQ.2⟩, fun i hi => ?_, h.frame⟩
  · rw [show mat A.m A.n (triF .Upper .NonUnit (entry ν A)) =
      mat A.m A.n (qR .Forward A.m A.n (min A.m A.n) (entry ν A)) from ?_]
    · exact h.inv.houseQ.1
    · rw [mat_ext_iff]
      intro r c hr hc
      unfold triF
      by_cases hz : qz .Forward A.m A.n (min A.m A.n) r c
      · rw [qR_of hz]
        rw [qz_fwd] at hz
        rw [if_neg (by omega), if_neg (by simp only [inTri]; omega)]
      · rw [qR_not hz]
        rw [qz_fwd] at hz
        by_cases e : r = c
        · subst e; rw [if_pos rfl]
        · rw [if_neg e, if_pos (by simp only [inTri]; omega)]
  · exact RCLike.conj_eq_iff_im.1 (h.inv.diag hi)

/-- **C39** geql2: `A = Q L`, `L` lower trapezoidal, aligned at the bottom right corner; the
reflectors are stored in the last `min(m,n)` columns. -/
theorem C39_geql2 (hl : HhLaws 𝕜 p) (A : MatV L) (tau work : VecV L) (ok : QrOK A tau work)
    (ht : min A.m A.n ≤ tau.n) (hw : geql2Worksize A ≤ work.n) (μ : Store L 𝕜)
    (hb : ∀ c, c < A.n → ∑ r ∈ range A.m, ‖entry μ A r c‖ ^ 2 ≤ p.tbig ^ 2) :
    ∃ ν, geql2 (hhOps p) A tau work μ = (.ok 0, ν) ∧
      (let k := min A.m A.n
       let Q := houseQ .Backward .Columnwise A.m k (fun r i => entry ν A r (A.n - k + i)) (ventry ν tau)
       mat A.m A.n (entry μ A) =
         Q * mat A.m A.n (fun r c => if r + A.n < c + A.m then 0 else entry ν A r c) ∧
       Q.conjTranspose * Q = 1 ∧ ∀ i, i < k → RCLike.im (entry ν A (A.m - k + i) (A.n - k + i)) = 0) ∧
      ∀ l, ¬ A.Owns l → ¬ (tau.sub 0 (min A.m A.n)).Owns l → ¬ work.Owns l → ν l = μ l := by
  obtain ⟨_, ν, e, rfl, h⟩ := wp_iff.1 (wp_geql2 hl ok ht hw (μ := μ) hb)
  refine ⟨ν, e, ⟨?_, h.inv.houseQ.2, fun i hi => ?_⟩, h.frame⟩
  · rw [show mat A.m A.n (fun r c => if r + A.n < c + A.m then 0 else entry ν A r c) =
      mat A.m A.n (qR .Backward A.m A.n (min A.m A.n) (entry ν A)) from ?_]
    · exact h.inv.houseQ.1
    · rw [mat_ext_iff]
      intro r c hr hc
      by_cases hz : qz .Backward A.m A.n (min A.m A.n) r c
      · rw [qR_of hz]
        rw [qz_bwd] at hz
        rw [if_pos (by omega)]
      · rw [qR_not hz]
        rw [qz_bwd] at hz
        rw [if_neg (by omega)]
  · exact RCLike.conj_eq_iff_im.1 (h.inv.diag hi)

theorem lq_of_qr {m n k : Nat} {dir : Direction} {A0 G : Nat → Nat → 𝕜} {g : Nat → 𝕜}
    (h : QRInv dir n m k (fun r c => star (A0 c r)) k (fun r c => star (G c r)) g) :
    mat m n A0 = mat m n (fun r c => if qz dir n m k c r then 0 else G r c) *
      houseQ dir .Rowwise n k (fun i r => G (qcol dir m k i) r) g ∧
    houseQ dir .Rowwise n k (fun i r => G (qcol dir m k i) r) g *
      (houseQ dir .Rowwise n k (fun i r => G (qcol dir m k i) r) g).conjTranspose = 1 ∧
    ∀ i, i < k → RCLike.im (G (qcol dir m k i) (hpiv dir n k i)) = 0 := by
  obtain ⟨h1, h2⟩ := h.houseQ
  refine ⟨?_, ?_, fun i hi => ?_⟩
  · have := congrArg Matrix.conjTranspose h1
    rw [Matrix.conjTranspose_mul, mat_conjTranspose, mat_conjTranspose] at this
    simp only [star_star] at this
    rw [this, houseQ_rows]
    congr 1
    rw [mat_ext_iff]
    intro r c hr hc
    by_cases hz : qz dir n m k c r
    · rw [qR_of hz, if_pos hz, star_zero]
    · rw [qR_not hz, if_neg hz, star_star]
  · rw [houseQ_rows, Matrix.conjTranspose_conjTranspose]
    exact h2
  · have := h.diag hi
    rw [star_star] at this
    exact RCLike.conj_eq_iff_im.1 this.symm

/-- **C39** gelq2: `A = L Q`, `L` lower trapezoidal with real diagonal; the reflectors are stored in
the rows above the diagonal. -/
theorem C39_gelq2 (hl : HhLaws 𝕜 p) (A : MatV L) (tau work : VecV L) (ok : QrOK A tau work)
    (ht : min A.m A.n ≤ tau.n) (hw : gelq2Worksize A ≤ work.n) (μ : Store L 𝕜)
    (hb : ∀ r, r < A.m → ∑ c ∈ range A.n, ‖entry μ A r c‖ ^ 2 ≤ p.tbig ^ 2) :
    ∃ ν, gelq2 (hhOps p) A tau work μ = (.ok 0, ν) ∧
      (let Q := houseQ .Forward .Rowwise A.n (min A.m A.n) (entry ν A) (ventry ν tau)
       mat A.m A.n (entry μ A) = mat A.m A.n (triF .Lower .NonUnit (entry ν A)) * Q ∧
       Q * Q.conjTranspose = 1) ∧
      (∀ i, i < min A.m A.n → RCLike.im (entry ν A i i) = 0) ∧
      ∀ l, ¬ A.Owns l → ¬ (tau.sub 0 (min A.m A.n)).Owns l → ¬ work.Owns l → ν l = μ l := by
  obtain ⟨_, ν, e, rfl, h⟩ := wp_iff.1 (wp_gelq2 hl ok ht hw (μ := μ)
    (fun c hc => by simpa [LG, cj, MatV.tr, entry] using hb c hc))
  obtain ⟨h1, h2, h3⟩ := lq_of_qr (m := A.m) (n := A.n) (A0 := entry μ A) (G := entry ν A) h.inv
  refine ⟨ν, e, ⟨?_, h2⟩, h3, fun l hl => h.frame l (fun ho => hl (MatV.tr_owns.1 ho))⟩
  refine h1.trans ?_
  refine congrArg₂ _ ?_ rfl
  rw [mat_ext_iff]
  intro r c hr hc
  unfold triF
  by_cases hz : qz .Forward A.n A.m (min A.m A.n) c r
  · rw [if_pos hz]
    rw [qz_fwd] at hz
    rw [if_neg (by omega), if_neg (by simp only [inTri]; omega)]
  · rw [if_neg hz]
    rw [qz_fwd] at hz
    by_cases e : r = c
    · subst e; rw [if_pos rfl]
    · rw [if_neg e, if_pos (by simp only [inTri]; omega)]

/-- **C39** gerq2: `A = R Q`, `R` upper trapezoidal, aligned at the bottom right corner; the
reflectors are stored in the last `min(m,n)` rows. -/
theorem C39_gerq2 (hl : HhLaws 𝕜 p) (A : MatV L) (tau work : VecV L) (ok : QrOK A tau work)
    (ht : min A.m A.n ≤ tau.n) (hw : gerq2Worksize A ≤ work.n) (μ : Store L 𝕜)
    (hb : ∀ r, r < A.m → ∑ c ∈ range A.n, ‖entry μ A r c‖ ^ 2 ≤ p.tbig ^ 2) :
    ∃ ν, gerq2 (hhOps p) A tau work μ = (.ok 0, ν) ∧
      (let k := min A.m A.n
       let Q := houseQ .Backward .Rowwise A.n k (fun i c => entry ν A (A.m - k + i) c) (ventry ν tau)
       mat A.m A.n (entry μ A) =
         mat A.m A.n (fun r c => if c + A.m < r + A.n then 0 else entry ν A r c) * Q ∧
       Q * Q.conjTranspose = 1 ∧ ∀ i, i < k → RCLike.im (entry ν A (A.m - k + i) (A.n - k + i)) = 0) ∧
      ∀ l, ¬ A.Owns l → ¬ (tau.sub 0 (min A.m A.n)).Owns l → ¬ work.Owns l → ν l = μ l := by
  obtain ⟨_, ν, e, rfl, h⟩ := wp_iff.1 (wp_gerq2 hl ok ht hw (μ := μ)
    (fun c hc => by simpa [LG, cj, MatV.tr, entry] using hb c hc))
  obtain ⟨h1, h2, h3⟩ := lq_of_qr (m := A.m) (n := A.n) (A0 := entry μ A) (G := entry ν A) h.inv
  refine ⟨ν, e, ⟨?_, h2, h3⟩, fun l hl => h.frame l (fun ho => hl (MatV.tr_owns.1 ho))⟩
  refine h1.trans ?_
  refine congrArg₂ _ ?_ rfl
  rw [mat_ext_iff]
  intro r c hr hc
  by_cases hz : qz .Backward A.n A.m (min A.m A.n) c r
  · rw [if_pos hz]
    rw [qz_bwd] at hz
    rw [if_pos (by omega)]
  · rw [if_neg hz]
    rw [qz_bwd] at hz
    rw [if_neg (by omega)]

/-- A 3×2 matrix of ones with double precision constants. -/
example : QrOK (mkM 0 3 2) (mkV 1 2) (mkV 2 2) ∧ min (mkM 0 3 2).m (mkM 0 3 2).n ≤ (mkV 1 2).n ∧
    geqr2Worksize (mkM 0 3 2) ≤ (mkV 2 2).n ∧ gerq2Worksize (mkM 0 3 2) ≤ (mkV 2 2).n ∧
    HhLaws ℂ (doublePar false) ∧ (∀ c, c < (mkM 0 3 2).n → ∑ r ∈ range (mkM 0 3 2).m,
      ‖entry (fun _ => (1 : ℂ)) (mkM 0 3 2) r c‖ ^ 2 ≤ (doublePar false).tbig ^ 2) := by
  refine ⟨⟨?_, ?_, ?_, ?_, ?_, ?_⟩, ?_, ?_, ?_, doublePar_laws _ (by simp), fun c _ => ?_⟩ <;> try adm
  simp only [entry, norm_one, mkM, doublePar]
  simp only [one_pow, Finset.sum_const, Finset.card_range, nsmul_eq_mul, mul_one]
  rw [← pow_mul]
  refine le_trans ?_ (pow_le_pow_right₀ (by norm_num : (1 : ℝ) ≤ 2) (by norm_num : 2 ≤ 486 * 2))
  norm_num

/-- **C39** ungq_level2 by columns (ung2r, ung2l): `A`, holding `k` reflectors in its first (Forward)
or last (Backward) `k` columns, is overwritten by the first resp. last `n` columns of their product
`Q`; only `A` and the workspace are written. -/
theorem C39_ungq_columnwise (dir : Direction) (A : MatV L) (tau work : VecV L)
    (ok : UngqOK .Columnwise A tau work) (μ : Store L 𝕜) :
    ∃ ν, ungq dir .Columnwise A tau work μ = (.ok 0, ν) ∧
      mat A.m A.n (entry ν A) = houseQ dir .Columnwise A.m tau.n
        (fun r i => entry μ A r (if dir = .Forward then i else A.n - tau.n + i)) (ventry μ tau) *
          mat A.m A.n (eyeF dir A.m A.n) ∧
      ∀ l, ¬ A.Owns l → ¬ work.Owns l → ν l = μ l := by
  have hsh := ok.shape
  simp only [if_true] at hsh
  have emp : A.m = 0 ∨ A.n = 0 → ∀ M : Matrix (Fin A.m) (Fin A.n) 𝕜, ∀ N, M = N := by
    intro h M N
    ext i j
    have := i.2; have := j.2
    omega
  have fin : ∀ r ν, (r = 0 ∧ (A.m ≠ 0 ∧ A.n ≠ 0 →
      UState dir .Columnwise A tau work μ (if dir = .Forward then 0 else tau.n) ν) ∧ (A.m = 0 ∨ A.n = 0 → ν = μ)) →
      r = 0 ∧ mat A.m A.n (entry ν A) = houseQ dir .Columnwise A.m tau.n
        (fun r i => entry μ A r (if dir = .Forward then i else A.n - tau.n + i)) (ventry μ tau) *
          mat A.m A.n (eyeF dir A.m A.n) ∧ ∀ l, ¬ A.Owns l → ¬ work.Owns l → ν l = μ l := by
    rintro r ν ⟨rfl, h1, h2⟩
    by_cases h0 : A.m = 0 ∨ A.n = 0
    · refine ⟨rfl, emp h0 _ _, ?_⟩
      rw [h2 h0]
      exact fun _ _ _ => rfl
    · have := h1 (by omega)
      exact ⟨rfl, this.inv.houseQ hsh.2 rfl, this.frame⟩
  cases dir with
  | Forward =>
    obtain ⟨r, ν, e, h⟩ := wp_iff.1 (wp_ungq_cf ok (μ := μ))
    obtain ⟨rfl, h'⟩ := fin r ν h
    exact ⟨ν, e, h'⟩
  | Backward =>
    obtain ⟨r, ν, e, h⟩ := wp_iff.1 (wp_ungq_cb ok (μ := μ))
    obtain ⟨rfl, h'⟩ := fin r ν h
    exact ⟨ν, e, h'⟩

/-- **C39** ungq_level2 by rows (ungl2, ungr2): `A`, holding `k` reflectors in its first (Forward) or
last (Backward) `k` rows, is overwritten by the first resp. last `m` rows of `Q`. -/
theorem C39_ungq_rowwise (dir : Direction) (A : MatV L) (tau work : VecV L)
    (ok : UngqOK .Rowwise A tau work) (μ : Store L 𝕜) :
    ∃ ν, ungq dir .Rowwise A tau work μ = (.ok 0, ν) ∧
      mat A.m A.n (entry ν A) = (mat A.n A.m (eyeF dir A.n A.m)).transpose *
        houseQ dir .Rowwise A.n tau.n
          (fun i c => entry μ A (if dir = .Forward then i else A.m - tau.n + i) c) (ventry μ tau) ∧
      ∀ l, ¬ A.Owns l → ¬ work.Owns l → ν l = μ l := by
  have hsh := ok.shape
  simp only [reduceCtorEq, if_false] at hsh
  have emp : A.m = 0 ∨ A.n = 0 → ∀ M : Matrix (Fin A.m) (Fin A.n) 𝕜, ∀ N, M = N := by
    intro h M N
    ext i j
    have := i.2; have := j.2
    omega
  have fin : ∀ r ν, (r = 0 ∧ (A.m ≠ 0 ∧ A.n ≠ 0 →
      UState dir .Rowwise A.tr tau work μ (if dir = .Forward then 0 else tau.n) ν) ∧ (A.m = 0 ∨ A.n = 0 → ν = μ)) →
      r = 0 ∧ mat A.m A.n (entry ν A) = (mat A.n A.m (eyeF dir A.n A.m)).transpose *
        houseQ dir .Rowwise A.n tau.n
          (fun i c => entry μ A (if dir = .Forward then i else A.m - tau.n + i) c) (ventry μ tau) ∧
        ∀ l, ¬ A.Owns l → ¬ work.Owns l → ν l = μ l := by
    rintro r ν ⟨rfl, h1, h2⟩
    by_cases h0 : A.m = 0 ∨ A.n = 0
    · refine ⟨rfl, emp h0 _ _, ?_⟩
      rw [h2 h0]
      exact fun _ _ _ => rfl
    · have := h1 (by omega)
      refine ⟨rfl, ?_, fun l hl => this.frame l (fun ho => hl (MatV.tr_owns.1 ho))⟩
      have hLG : ∀ ν : Store L 𝕜, LG .Rowwise ν A.tr = fun r c => star (entry ν A c r) := fun ν => by
        funext r c
        unfold LG cj
        rw [if_neg (by simp)]
        rfl
      have h3 : mat A.n A.m (fun r c => star (entry ν A c r)) = houseQ dir .Columnwise A.n tau.n
          (fun r i => star (entry μ A (if dir = .Forward then i else A.m - tau.n + i) r)) (ventry μ tau) *
            mat A.n A.m (eyeF dir A.n A.m) := by
        have inv := this.inv.houseQ hsh.2 rfl
        rw [hLG μ, hLG ν] at inv
        simp only [qcol] at inv
        exact inv
      have h4 := congrArg Matrix.conjTranspose h3
      rw [Matrix.conjTranspose_mul, mat_conjTranspose] at h4
      simp only [star_star] at h4
      rw [houseQ_rows, h4]
      refine congrArg₂ _ ?_ rfl
      rw [mat_conjTranspose, mat_transpose, mat_ext_iff]
      intro r c _ _
      unfold eyeF
      simp only [apply_ite star, star_one, star_zero]
  cases dir with
  | Forward =>
    obtain ⟨r, ν, e, h⟩ := wp_iff.1 (wp_ungq_rf ok (μ := μ))
    obtain ⟨rfl, h'⟩ := fin r ν h
    exact ⟨ν, e, h'⟩
  | Backward =>
    obtain ⟨r, ν, e, h⟩ := wp_iff.1 (wp_ungq_rb ok (μ := μ))
    obtain ⟨rfl, h'⟩ := fin r ν h
    exact ⟨ν, e, h'⟩

/-- Two reflectors, three columns of a 4×3 matrix; three rows of a 3×4 one. -/
example : UngqOK .Columnwise (mkM 0 4 3) (mkV 1 2) (mkV 2 2) ∧ UngqOK .Rowwise (mkM 0 3 4) (mkV 1 2) (mkV 2 2) := by
  refine ⟨⟨⟨?_, ?_, ?_, ?_, ?_, ?_⟩, ?_, ?_⟩, ⟨⟨?_, ?_, ?_, ?_, ?_, ?_⟩, ?_, ?_⟩⟩ <;> adm

end TLA
