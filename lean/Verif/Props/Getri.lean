import Verif.Props.Lu
import Verif.Proofs.Getri

/-!
# C34, C35: products of packed triangular factors, inversion from an LU factorization
-/

set_option linter.unusedTactic false
set_option linter.unreachableTactic false
set_option linter.unusedSectionVars false

namespace TLA
open Finset
variable {L T 𝕜 : Type} [DecidableEq L] [RCLike 𝕜] [DecidableEq 𝕜]

section products
variable [Field T] [StarRing T] [ReIm T] [DecidableEq T]

/-- **C34** ul_mult overwrites a matrix holding a unit lower triangular `L` and an upper triangular
`U` by the product `U * L`, for every size `n ≥ 1`; nothing else is written. -/
theorem C34_ul_mult (n : Nat) (h0 : 0 < n) (A : MatV L) (hm : A.m = n) (hn : A.n = n) (hA : A.Inj)
    (μ : Store L T) :
    ∃ ν, ulMult A μ = (.ok (), ν) ∧ mat n n (entry ν A) =
        mat n n (triF .Upper .NonUnit (entry μ A)) * mat n n (triF .Lower .Unit (entry μ A)) ∧
      ∀ l, ¬ A.Owns l → ν l = μ l := by
  obtain ⟨_, ν, e, o, h⟩ := wp_iff.1 (wp_ulMult n h0 hm hn hA (μ := μ))
  exact ⟨ν, e, h, o⟩

/-- **C34** On an empty matrix ul_mult recurses forever. -/
theorem C34_ul_mult_empty (A : MatV L) (hm : A.m = 0) (hn : A.n = 0) (μ : Store L T) :
    ulMult A μ = (.error .diverge, μ) := by
  rw [ulMult]
  simp only [hm, hn]
  rfl

/-- **C34** lu_mult overwrites the same data by `L * U`, for every size and every threshold
`nx ≥ 1`; nothing else is written. -/
theorem C34_lu_mult (nx n : Nat) (hnx : 1 ≤ nx) (A : MatV L) (hm : A.m = n) (hn : A.n = n) (hA : A.Inj)
    (μ : Store L T) :
    ∃ ν, luMult nx A μ = (.ok (), ν) ∧ mat n n (entry ν A) =
        mat n n (triF .Lower .Unit (entry μ A)) * mat n n (triF .Upper .NonUnit (entry μ A)) ∧
      ∀ l, ¬ A.Owns l → ν l = μ l := by
  obtain ⟨_, ν, e, o, h⟩ := wp_iff.1 (wp_luMult hnx n hm hn hA (μ := μ))
  exact ⟨ν, e, h, o⟩

example : 0 < 3 ∧ (mkM 0 3 3).m = 3 ∧ (mkM 0 3 3).n = 3 ∧ (mkM 0 3 3).Inj := ⟨by decide, rfl, rfl, mkM_inj _ _ _⟩

end products

/-! ### C35 -/

/-- Column exchanges turn an inverse of `P G` into an inverse of `G`. -/
theorem inv_of_exch {n : Nat} {p : Nat → Nat} (hp : ∀ j, j < n → p j < n) {X G : Nat → Nat → 𝕜}
    (h : mat n n X * mat n n (exchRows p n G) = 1) :
    mat n n (fun r c => X r ((pivPerm p n).symm c)) * mat n n G = 1 := by
  rw [← h, mat_mul, mat_mul, mat_ext_iff]
  intro i j hi hj
  have hlt : ∀ l, l < n → pivPerm p n l < n := fun l hl => pivPerm_lt (le_refl _) hp hl
  have hlt' : ∀ l, l < n → (pivPerm p n).symm l < n := fun l hl => pivPerm_symm_lt (le_refl _) hp hl
  refine Finset.sum_nbij' (fun l => (pivPerm p n).symm l) (fun l => pivPerm p n l) ?_ ?_ ?_ ?_ ?_
  · intro l hl; exact Finset.mem_range.2 (hlt' l (Finset.mem_range.1 hl))
  · intro l hl; exact Finset.mem_range.2 (hlt l (Finset.mem_range.1 hl))
  · intro l _; simp
  · intro l _; simp
  · intro l _
    rw [exchRows_eq, Equiv.apply_symm_apply]

/-- **C35** getri, variant UILI: if `A` and `piv` hold a factorization of `G` as left by getrf
(`G` with its rows exchanged is `L * U`, the diagonal of `U` has no zero, the pivots are in range),
then getri returns 0 and `A` holds the inverse of `G`; nothing else is written. -/
theorem C35_getri_uili (dbg : Bool) (n : Nat) (h0 : 0 < n) (A : MatV L) (hm : A.m = n) (hn : A.n = n)
    (hA : A.Inj) (piv : IArr) (hpn : n ≤ piv.n) (μ : Store L 𝕜) (G : Nat → Nat → 𝕜)
    (hp : ∀ j, j < n → piv.f j < n)
    (hlu : mat n n (exchRows piv.f n G) =
      mat n n (triF .Lower .Unit (entry μ A)) * mat n n (triF .Upper .NonUnit (entry μ A)))
    (hd : ∀ j, j < n → entry μ A j j ≠ 0) :
    ∃ ν, getriUILI dbg A piv μ = (.ok 0, ν) ∧ mat n n (entry ν A) * mat n n G = 1 ∧
      mat n n G * mat n n (entry ν A) = 1 ∧ ∀ l, ¬ A.Owns l → ν l = μ l := by
  have main : wp (getriUILI dbg A piv) μ (fun r ν => r = 0 ∧ mat n n (entry ν A) * mat n n G = 1 ∧
      Only A μ ν) := by
    unfold getriUILI
    simp only [wp_bind]
    refine wp_conseq (wp_getriUili h0 hm hn hA hd) ?_
    rintro _ ν1 ⟨rfl, o1, e1⟩
    rw [if_neg (by simp)]
    simp only [wp_bind]
    rw [hn]
    refine wp_conseq (wp_getriSwaps hA hpn hn hp) ?_
    intro _ ν2 h2
    rw [wp_pure]
    refine ⟨rfl, ?_, o1.trans h2.frame⟩
    rw [← hlu] at e1
    rw [← inv_of_exch hp e1]
    congr 1
    rw [mat_ext_iff]
    exact fun i j hi hj => h2.val i j (by omega) (by omega)
  obtain ⟨_, ν, e, rfl, h, o⟩ := wp_iff.1 main
  exact ⟨ν, e, h, mul_eq_one_comm.1 h, o⟩

/-- **C35** getri_work, variant UXLI, with a workspace vector of at least `n - 1` entries disjoint
from `A`: same result; only `A` and the workspace are written. -/
theorem C35_getri_uxli (n : Nat) (h0 : 0 < n) (A : MatV L) (hm : A.m = n) (hn : A.n = n)
    (hA : A.Inj) (work : VecV L) (hw : n - 1 ≤ work.n) (hwi : work.Inj) (hAw : A.DisjV work)
    (piv : IArr) (hpn : n ≤ piv.n) (μ : Store L 𝕜) (G : Nat → Nat → 𝕜)
    (hp : ∀ j, j < n → piv.f j < n)
    (hlu : mat n n (exchRows piv.f n G) =
      mat n n (triF .Lower .Unit (entry μ A)) * mat n n (triF .Upper .NonUnit (entry μ A)))
    (hd : ∀ j, j < n → entry μ A j j ≠ 0) :
    ∃ ν, getriUXLI A piv work μ = (.ok 0, ν) ∧ mat n n (entry ν A) * mat n n G = 1 ∧
      mat n n G * mat n n (entry ν A) = 1 ∧ ∀ l, ¬ A.Owns l → ¬ work.Owns l → ν l = μ l := by
  have main : wp (getriUXLI A piv work) μ (fun r ν => r = 0 ∧ mat n n (entry ν A) * mat n n G = 1 ∧
      ∀ l, ¬ A.Owns l → ¬ work.Owns l → ν l = μ l) := by
    unfold getriUXLI getriUxliWork
    simp only [wp_bind, wp_check, hn]
    rw [if_pos (by simp [hm]), if_pos (by simp; omega)]
    refine wp_vslice (Nat.zero_le _) hw ?_
    have hsub : ∀ l, (work.sub 0 (n - 1)).Owns l → work.Owns l := fun l ho => ho.sub (by omega)
    refine wp_conseq (wp_getriUxliLoop hA hm hn (by simp [VecV.sub]) (hwi.sub hw)
      (fun i j hi hj ho => hAw i j hi hj (hsub _ ho)) n (le_refl _) hd (UxliInv.start _ _ _ _)) ?_
    rintro _ ν1 ⟨rfl, hI⟩
    rw [if_neg (by simp)]
    simp only [wp_bind]
    refine wp_conseq (wp_getriSwaps hA hpn hn hp) ?_
    intro _ ν2 h2
    rw [wp_pure]
    refine ⟨rfl, ?_, fun l hl hw => ?_⟩
    · have e1 := hI.inv
      simp only [Nat.sub_zero, sh_zero] at e1
      rw [← hlu] at e1
      rw [← inv_of_exch hp e1]
      congr 1
      rw [mat_ext_iff]
      exact fun i j hi hj => h2.val i j (by omega) (by omega)
    · rw [h2.frame l hl, hI.frame l hl (fun ho => hw (hsub l ho))]
  obtain ⟨_, ν, e, rfl, h, o⟩ := wp_iff.1 main
  exact ⟨ν, e, h, mul_eq_one_comm.1 h, o⟩

/-- **C35** getrf (either variant) followed by getri (variant UILI) on an invertible matrix leaves
its inverse. -/
theorem C35_getrf_getri_uili (isReal : Bool) (isinf : ℝ → Bool) (safeMin safeMax : ℝ)
    (hl : LuLaws 𝕜 isReal safeMin safeMax) (v : GetrfVariant) (dbg : Bool) (n : Nat) (h0 : 0 < n)
    (A : MatV L) (hm : A.m = n) (hn : A.n = n) (hA : A.Inj) (piv : IArr) (hpn : n ≤ piv.n)
    (μ : Store L 𝕜) (hinv : IsUnit (mat n n (entry μ A))) :
    ∃ ν, (do let r ← getrf (luOps isReal isinf safeMin safeMax) v A piv
             getriUILI dbg A r.2 : M L 𝕜 Nat) μ = (.ok 0, ν) ∧
      mat n n (entry ν A) = (mat n n (entry μ A))⁻¹ ∧ ∀ l, ¬ A.Owns l → ν l = μ l := by
  have hf : ∃ piv' ν, getrf (luOps isReal isinf safeMin safeMax) v A piv μ = (.ok (0, piv'), ν) ∧
      (∃ bd, LuSpec A.m A.n bd (entry μ A) (entry ν A) piv'.f 0) ∧
      (∀ l, ¬ A.Owns l → ν l = μ l) ∧ piv'.n = piv.n := by
    have hk : min A.m A.n = n := by omega
    cases v with
    | Level0 =>
      obtain ⟨info, piv', ν, e, h, o, pn, _⟩ := C31_getrf_level0 A hA piv (by omega) μ
      have hz : info = 0 := h.ok_iff.2 (by rw [hk, hm]; exact colsLI_square.2 hinv)
      subst hz
      exact ⟨piv', ν, e, ⟨_, h⟩, o, pn⟩
    | Recursive =>
      obtain ⟨info, piv', ν, e, h, o, pn, _⟩ :=
        C32_getrf_recursive isReal isinf safeMin safeMax hl A hA piv (by omega) μ
      have hz : info = 0 := h.ok_iff.2 (by rw [hk, hm]; exact colsLI_square.2 hinv)
      subst hz
      exact ⟨piv', ν, e, ⟨_, h⟩, o, pn⟩
  obtain ⟨piv', ν1, e1, ⟨bd, h⟩, o1, pn⟩ := hf
  have hk : min n n = n := min_self n
  have h1 := h.range rfl
  have h2 := h.lu rfl
  have h3 := h.diag rfl
  rw [hm, hn, hk] at h1 h2 h3
  obtain ⟨ν, e2, hi, _, o2⟩ := C35_getri_uili dbg n h0 A hm hn hA piv' (by omega) ν1 (entry μ A)
    (fun j hj => (h1 j hj).2) h2 h3
  refine ⟨ν, ?_, ?_, fun l hl => (o2 l hl).trans (o1 l hl)⟩
  · show M.bind _ _ _ = _
    unfold M.bind
    rw [e1]
    exact e2
  · exact (Matrix.inv_eq_left_inv hi).symm

/-- **C35** Singular factor, variant UILI: if the first zero of the diagonal of `U` is entry `k`, the
result is `k + 1` when errors are disabled; otherwise the inner trtri throws (with code 1) and
nothing is returned. -/
theorem C35_getri_uili_singular (dbg : Bool) (n k : Nat) (A : MatV L) (hm : A.m = n) (hn : A.n = n)
    (hA : A.Inj) (piv : IArr) (μ : Store L 𝕜) (hk : k < n) (h0 : entry μ A k k = 0)
    (hlt : ∀ i, i < k → entry μ A i i ≠ 0) :
    ∃ ν, getriUILI dbg A piv μ = (if dbg then .error (.runtime 1) else .ok (k + 1), ν) ∧
      ∀ l, ¬ A.Owns l → ν l = μ l := by
  have main : wp (getriUILI dbg A piv) μ (fun r ν => dbg = false ∧ r = k + 1 ∧ Only A μ ν)
      (fun e ν => dbg = true ∧ e = .runtime 1 ∧ Only A μ ν) := by
    unfold getriUILI
    simp only [wp_bind]
    refine wp_mono (wp_getriUili_fail hm hn hA hk h0 hlt) ?_ (fun _ _ h => h)
    rintro _ ν ⟨h1, rfl, o⟩
    rw [if_pos (by simp), wp_pure]
    exact ⟨h1, rfl, o⟩
  unfold wp at main
  rcases hp : getriUILI dbg A piv μ with ⟨r, ν⟩
  rw [hp] at main
  cases r with
  | ok r => obtain ⟨rfl, rfl, o⟩ := main; exact ⟨ν, rfl, o⟩
  | error e => obtain ⟨rfl, rfl, o⟩ := main; exact ⟨ν, rfl, o⟩

/-- **C35** Singular factor, variant UXLI: the result is `k + 1` for the *last* zero entry `k` of
the diagonal. -/
theorem C35_getri_uxli_singular (n k : Nat) (A : MatV L) (hm : A.m = n) (hn : A.n = n)
    (hA : A.Inj) (work : VecV L) (hw : n - 1 ≤ work.n) (hwi : work.Inj) (hAw : A.DisjV work)
    (piv : IArr) (μ : Store L 𝕜) (hk : k < n) (h0 : entry μ A k k = 0)
    (hgt : ∀ i, k < i → i < n → entry μ A i i ≠ 0) :
    ∃ ν, getriUXLI A piv work μ = (.ok (k + 1), ν) ∧
      ∀ l, ¬ A.Owns l → ¬ work.Owns l → ν l = μ l := by
  have main : wp (getriUXLI A piv work) μ (fun r ν => r = k + 1 ∧
      ∀ l, ¬ A.Owns l → ¬ work.Owns l → ν l = μ l) := by
    unfold getriUXLI getriUxliWork
    simp only [wp_bind, wp_check, hn]
    rw [if_pos (by simp [hm]), if_pos (by simp; omega)]
    refine wp_vslice (Nat.zero_le _) hw ?_
    have hsub : ∀ l, (work.sub 0 (n - 1)).Owns l → work.Owns l := fun l ho => ho.sub (by omega)
    refine wp_conseq (wp_getriUxliLoop_fail hA hm hn (by simp [VecV.sub]) (hwi.sub hw)
      (fun i j hi hj ho => hAw i j hi hj (hsub _ ho)) n (le_refl _) hk h0 hgt (UxliInv.start _ _ _ _)) ?_
    rintro _ ν1 ⟨rfl, o⟩
    rw [if_pos (by simp), wp_pure]
    exact ⟨rfl, fun l hl hw => o l hl (fun ho => hw (hsub l ho))⟩
  obtain ⟨_, ν, e, rfl, o⟩ := wp_iff.1 main
  exact ⟨ν, e, o⟩

/-- **C35** On an empty matrix neither variant works: UILI never returns, UXLI fails the check of
its workspace request. -/
theorem C35_getri_empty (dbg : Bool) (A : MatV L) (hm : A.m = 0) (hn : A.n = 0) (piv : IArr)
    (work : VecV L) (μ : Store L 𝕜) :
    (getriUILI dbg A piv μ).1 = .error .diverge ∧ (getriUXLI A piv work μ).1 = .error .check := by
  have ht : ∀ u d, (u = .Upper ∨ u = .Lower) → trtri dbg u d A μ = (.ok 0, μ) := by
    intro u d hu
    rw [trtri]
    rcases hu with rfl | rfl <;> (simp only [squareTriChecks, hm, hn]; rfl)
  have hb : ∀ {α β : Type} (x : M L 𝕜 α) (f : α → M L 𝕜 β) (a : α), x μ = (.ok a, μ) →
      (x >>= f) μ = f a μ := by
    intro α β x f a hx
    show M.bind x f μ = _
    unfold M.bind
    rw [hx]
  have he : ∀ {α β : Type} (x : M L 𝕜 α) (f : α → M L 𝕜 β) (e : Err), x μ = (.error e, μ) →
      (x >>= f) μ = (.error e, μ) := by
    intro α β x f e hx
    show M.bind x f μ = _
    unfold M.bind
    rw [hx]
  constructor
  · unfold getriUILI
    rw [he _ _ .diverge]
    unfold getriUili
    rw [hb _ _ () (by simp [check, hm, hn]; rfl), hb _ _ 0 (ht _ _ (.inl rfl)), if_neg (by simp),
      hb _ _ 0 (ht _ _ (.inr rfl)), he _ _ _ (C34_ul_mult_empty A hm hn μ)]
  · unfold getriUXLI getriUxliWork
    simp only [hm, hn]
    rfl

end TLA
