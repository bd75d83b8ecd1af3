import Verif.Model.Lu
import Verif.Proofs.LuAlg
import Verif.Proofs.Lauum
import Verif.Proofs.Loops
import Verif.Proofs.MultLlh

/-! Proofs about ul_mult and lu_mult. -/

set_option linter.unusedTactic false
set_option linter.unreachableTactic false
set_option linter.unusedSectionVars false

namespace TLA
open Finset
variable {L T : Type} [DecidableEq L] [Field T] [StarRing T] [ReIm T] [DecidableEq T]

theorem Only.blkE {A : MatV L} {μ ν : Store L T} {r0 r1 c0 c1 : Nat}
    (h : Only (A.sub r0 r1 c0 c1) μ ν) (hA : A.Inj) (hr : r1 ≤ A.m) (hc : c1 ≤ A.n) {p q r c : Nat}
    (hp : r + p ≤ A.m) (hq : c + q ≤ A.n) (ho : r + p ≤ r0 ∨ r1 ≤ r ∨ c + q ≤ c0 ∨ c1 ≤ c) :
    ∀ i j, i < p → j < q → sh r c (entry ν A) i j = sh r c (entry μ A) i j := by
  have := h.blk hA hr hc hp hq ho
  rwa [mat_ext_iff] at this

theorem mat_low_congr {n : Nat} {g h : Nat → Nat → T} (e : ∀ i j, i < n → j < n → g i j = h i j)
    (u : Uplo) (d : Diag) : mat n n (triF u d g) = mat n n (triF u d h) :=
  mat_triF_congr (fun _ i hi => e i i hi hi) (fun i j hi hj _ _ => e i j hi hj)

/-- ul_mult: `A := U L`. -/
theorem wp_ulMult : ∀ (n : Nat) {A : MatV L} {μ : Store L T}, 0 < n → A.m = n → A.n = n → A.Inj →
    wp (ulMult A) μ (fun _ ν => Only A μ ν ∧ mat n n (entry ν A) =
      mat n n (triF .Upper .NonUnit (entry μ A)) * mat n n (triF .Lower .Unit (entry μ A))) := by
  intro n
  induction n using Nat.strong_induction_on with
  | _ n ih =>
    intro A μ h0 hm hn hA
    rw [ulMult]
    simp only [wp_bind, wp_check]
    rw [if_pos (by simp [hm, hn])]
    by_cases h1 : A.n = 1
    · rw [if_pos h1, wp_pure]
      obtain rfl : n = 1 := by omega
      refine ⟨.refl, ?_⟩
      rw [mat_mul, mat_ext_iff]
      intro i j hi hj
      obtain rfl : i = 0 := by omega
      obtain rfl : j = 0 := by omega
      simp [triF]
    rw [if_neg h1, dif_neg (by omega)]
    obtain ⟨a, b, ha, hb, hab, hdiv⟩ : ∃ a b, 0 < a ∧ 0 < b ∧ n = a + b ∧ A.n / 2 = a :=
      ⟨A.n / 2, n - A.n / 2, by omega, by omega, by omega, rfl⟩
    simp only [hdiv, wp_bind]
    subst hab
    simp only [hn]
    refine wp_sliceChk (by omega) (by omega) (by omega) (by omega) ?_
    refine wp_slice (by omega) (by omega) (by omega) (by omega) ?_
    refine wp_slice (by omega) (by omega) (by omega) (by omega) ?_
    refine wp_sliceChk (by omega) (by omega) (by omega) (by omega) ?_
    refine wp_conseq (ih a (by omega) ha (by simp [MatV.sub]) (by simp [MatV.sub])
      (hA.sub (by omega) (by omega))) ?_
    rintro _ ν1 ⟨o1, e1⟩
    refine wp_conseq (wp_gemm_m (m := a) (n := a) (k := b) ⟨by decide, by decide,
      by simp [MatV.sub], by simp [MatV.sub], by simp [MatV.sub], by simp [MatV.sub], by simp [MatV.sub],
      by simp [MatV.sub], hA.sub (by omega) (by omega),
      hA.disj_sub (by omega) (by omega) (by omega) (by omega) (by omega),
      hA.disj_sub (by omega) (by omega) (by omega) (by omega) (by omega)⟩) ?_
    rintro _ ν2 ⟨o2, e2⟩
    refine wp_conseq (wp_trmmL_m (m := b) (n := a) (by simp [MatV.sub]) (by simp [MatV.sub])
      ⟨Or.inl rfl, Or.inl rfl, by decide, rfl, rfl, hA.sub (by omega) (by omega),
        hA.disj_sub (by omega) (by omega) (by omega) (by omega) (by omega)⟩) ?_
    rintro _ ν3 ⟨o3, e3⟩
    refine wp_conseq (wp_trmmR_m (m := a) (n := b) (by simp [MatV.sub]) (by simp [MatV.sub])
      ⟨Or.inr rfl, Or.inr rfl, by decide, rfl, rfl, hA.sub (by omega) (by omega),
        hA.disj_sub (by omega) (by omega) (by omega) (by omega) (by omega)⟩) ?_
    rintro _ ν4 ⟨o4, e4⟩
    refine wp_conseq (ih b (by omega) hb (by simp [MatV.sub]) (by simp [MatV.sub])
      (hA.sub (by omega) (by omega))) ?_
    rintro _ ν5 ⟨o5, e5⟩
    simp only [sh_entry, sh_zero, one_smul, Coef.toVal] at e1 e2 e3 e4 e5
    have e2' : mat a a (entry ν2 A) = mat a b (sh 0 a (entry ν1 A)) * mat b a (sh a 0 (entry ν1 A)) +
      mat a a (entry ν1 A) := e2
    have e3' : mat b a (sh a 0 (entry ν3 A)) = mat b b (triF .Upper .NonUnit (sh a a (entry ν2 A))) *
      mat b a (sh a 0 (entry ν2 A)) := e3
    have e4' : mat a b (sh 0 a (entry ν4 A)) = mat a b (sh 0 a (entry ν3 A)) *
      mat b b (triF .Lower .Unit (sh a a (entry ν3 A))) := e4
    -- blocks not written
    have b1 := o1.blk hA (by omega) (by omega) (p := a) (q := b) (r := 0) (c := a) (by omega) (by omega) (by omega)
    have b2 := o1.blk hA (by omega) (by omega) (p := b) (q := a) (r := a) (c := 0) (by omega) (by omega) (by omega)
    have b3 := o1.blkE hA (by omega) (by omega) (p := b) (q := b) (r := a) (c := a) (by omega) (by omega) (by omega)
    have d1 := o2.blk hA (by omega) (by omega) (p := a) (q := b) (r := 0) (c := a) (by omega) (by omega) (by omega)
    have d2 := o2.blk hA (by omega) (by omega) (p := b) (q := a) (r := a) (c := 0) (by omega) (by omega) (by omega)
    have d3 := o2.blkE hA (by omega) (by omega) (p := b) (q := b) (r := a) (c := a) (by omega) (by omega) (by omega)
    have f0 := o3.blk hA (by omega) (by omega) (p := a) (q := a) (r := 0) (c := 0) (by omega) (by omega) (by omega)
    have f1 := o3.blk hA (by omega) (by omega) (p := a) (q := b) (r := 0) (c := a) (by omega) (by omega) (by omega)
    have f3 := o3.blkE hA (by omega) (by omega) (p := b) (q := b) (r := a) (c := a) (by omega) (by omega) (by omega)
    have g0 := o4.blk hA (by omega) (by omega) (p := a) (q := a) (r := 0) (c := 0) (by omega) (by omega) (by omega)
    have g2 := o4.blk hA (by omega) (by omega) (p := b) (q := a) (r := a) (c := 0) (by omega) (by omega) (by omega)
    have g3 := o4.blkE hA (by omega) (by omega) (p := b) (q := b) (r := a) (c := a) (by omega) (by omega) (by omega)
    have k0 := o5.blk hA (by omega) (by omega) (p := a) (q := a) (r := 0) (c := 0) (by omega) (by omega) (by omega)
    have k1 := o5.blk hA (by omega) (by omega) (p := a) (q := b) (r := 0) (c := a) (by omega) (by omega) (by omega)
    have k2 := o5.blk hA (by omega) (by omega) (p := b) (q := a) (r := a) (c := 0) (by omega) (by omega) (by omega)
    simp only [sh_zero] at f0 g0 k0
    have z2 : ∀ i j, i < b → j < b → sh a a (entry ν2 A) i j = sh a a (entry μ A) i j :=
      fun i j hi hj => by rw [d3 i j hi hj, b3 i j hi hj]
    have z3 : ∀ i j, i < b → j < b → sh a a (entry ν3 A) i j = sh a a (entry μ A) i j :=
      fun i j hi hj => by rw [f3 i j hi hj, z2 i j hi hj]
    have z4 : ∀ i j, i < b → j < b → sh a a (entry ν4 A) i j = sh a a (entry μ A) i j :=
      fun i j hi hj => by rw [g3 i j hi hj, z3 i j hi hj]
    refine ⟨(o1.sub (by omega) (by omega)).trans ((o2.sub (by omega) (by omega)).trans
      ((o3.sub (by omega) (by omega)).trans ((o4.sub (by omega) (by omega)).trans
        (o5.sub (by omega) (by omega))))), ?_⟩
    rw [mat_mulF]
    refine mat_ext4 ?_ ?_ ?_ ?_
    · rw [← mat_mulF, mat_mul_inner, triU_01, triL_10, k0, g0, f0, e2', e1, b1, b2]
      exact add_comm _ _
    · rw [mat_mul_block, mat_mul_inner]
      simp only [sh_sh, sh_zero, Nat.zero_add, Nat.add_zero]
      rw [triL_01, Matrix.mul_zero, zero_add, triU_01, triF_sh (Or.inr rfl), k1, e4', f1, d1, b1,
        mat_low_congr z3]
    · rw [mat_mul_block, mat_mul_inner]
      simp only [sh_sh, sh_zero, Nat.zero_add, Nat.add_zero]
      rw [triU_10, Matrix.zero_mul, zero_add, triF_sh (Or.inl rfl), triL_10, k2, g2, e3', d2, b2,
        mat_low_congr z2]
    · rw [mat_mul_block, mat_mul_inner]
      simp only [sh_sh, sh_zero, Nat.zero_add, Nat.add_zero]
      rw [triU_10, Matrix.zero_mul, zero_add, triF_sh (Or.inl rfl), triF_sh (Or.inr rfl), e5,
        mat_low_congr z4, mat_low_congr z4]

/-- The entries of `L U`. -/
theorem lu_entry (F : Nat → Nat → T) (n i j : Nat) (hi : i < n) (hj : j < n) :
    ∑ l ∈ range n, lowF F i l * uppF F l j =
      ∑ l ∈ range (min i j + 1), (if i = l then F l j else F i l * F l j) := by
  rw [← Finset.sum_subset (s₁ := range (min i j + 1)) (Finset.range_mono (by omega))]
  · refine Finset.sum_congr rfl (fun l hl => ?_)
    have hl := Finset.mem_range.1 hl
    have h1 : l ≤ i := by omega
    have h2 : l ≤ j := by omega
    rw [uppF_le _ h2]
    by_cases e : i = l
    · subst e; rw [lowF_self, if_pos rfl, one_mul]
    · rw [lowF_lt _ (by omega), if_neg e]
  · intro l hl hl'
    have hl' : ¬ l < min i j + 1 := by simpa using hl'
    by_cases h1 : i < l
    · rw [lowF_gt _ h1, zero_mul]
    · rw [uppF_gt _ (by omega), mul_zero]

/-- The unblocked algorithm of lu_mult. -/
theorem wp_luMultBase {n : Nat} {A : MatV L} {μ : Store L T} (hm : A.m = n) (hn : A.n = n) (hA : A.Inj) :
    wp (luMultBase A n) μ (fun _ ν => Only A μ ν ∧ mat n n (entry ν A) =
      mat n n (triF .Lower .Unit (entry μ A)) * mat n n (triF .Upper .NonUnit (entry μ A))) := by
  unfold luMultBase
  have hmain : wp (luMultBase A n) μ (fun _ ν => MState A μ (fun i j =>
      ∑ l ∈ range n, lowF (entry μ A) i l * uppF (entry μ A) l j) ν) := by
    unfold luMultBase
    refine wp_forDown_ (fun r ν => MState A μ (fun i j => if r ≤ i then
        ∑ l ∈ range n, lowF (entry μ A) i l * uppF (entry μ A) l j else entry μ A i j) ν) (Nat.zero_le _)
      (MState.init A μ _ (fun i j hi _ => (if_neg (show ¬ n ≤ i by omega)).symm)) ?_
      (fun ν h => h.congr (fun i j _ _ => (if_pos (Nat.zero_le i)).symm))
    intro i ν _ hi hν
    refine wp_forDown_ (fun c ν => MState A μ (fun i' j => if i + 1 ≤ i' ∨ (i' = i ∧ c ≤ j) then
        ∑ l ∈ range n, lowF (entry μ A) i' l * uppF (entry μ A) l j else entry μ A i' j) ν) (Nat.zero_le _)
      (hν.congr (fun i' j _ hj => if_congr (by omega) rfl rfl)) ?_
      (fun ν h => h.congr (fun i' j _ _ => if_congr (by omega) rfl rfl))
    intro j ν _ hj hν
    simp only [wp_bind]
    refine wp_conseq (wp_sumLoop (fun l s => s + (if i = l then entry μ A l j else entry μ A i l * entry μ A l j))
      (Nat.zero_le _) (fun l s _ hl => ?_)) ?_
    · have h1 : l ≤ i := by omega
      have h2 : l ≤ j := by omega
      by_cases e : i = l
      · subst e
        rw [if_pos rfl, if_pos rfl]
        simp only [wp_bind]
        refine wp_getE ⟨by omega, by omega⟩ ?_
        rw [wp_pure, hν.at i j (by omega) (by omega) (if_neg (by omega))]
        exact ⟨rfl, rfl⟩
      · rw [if_neg e, if_neg e]
        simp only [wp_bind]
        refine wp_getE ⟨by omega, by omega⟩ ?_
        refine wp_getE ⟨by omega, by omega⟩ ?_
        rw [wp_pure, hν.at i l (by omega) (by omega) (if_neg (by omega)),
          hν.at l j (by omega) (by omega) (if_neg (by omega))]
        exact ⟨rfl, rfl⟩
    · rintro s ν' ⟨rfl, rfl⟩
      rw [wp_set]
      refine ⟨⟨by omega, by omega⟩, ?_⟩
      rw [foldUp0_sum, zero_add, ← lu_entry _ n i j hi hj]
      refine hν.upd hA (by omega) (by omega) (fun i' j' _ _ => ?_)
      by_cases e : i' = i ∧ j' = j
      · obtain ⟨rfl, rfl⟩ := e
        rw [if_pos (by omega), if_pos ⟨rfl, rfl⟩]
      · rw [if_neg e]
        exact if_congr (by omega) rfl rfl
  refine wp_conseq hmain (fun _ ν h => ⟨h.frame, ?_⟩)
  rw [mat_mul, mat_ext_iff]
  exact fun i j hi hj => h.val i j (by omega) (by omega)

/-- lu_mult: `A := L U`. -/
theorem wp_luMult {nx : Nat} (hnx : 1 ≤ nx) : ∀ (n : Nat) {A : MatV L} {μ : Store L T}, A.m = n → A.n = n →
    A.Inj → wp (luMult nx A) μ (fun _ ν => Only A μ ν ∧ mat n n (entry ν A) =
      mat n n (triF .Lower .Unit (entry μ A)) * mat n n (triF .Upper .NonUnit (entry μ A))) := by
  intro n
  induction n using Nat.strong_induction_on with
  | _ n ih =>
    intro A μ hm hn hA
    rw [luMult]
    simp only [wp_bind, wp_check]
    rw [if_pos (by simp [hm, hn]), if_pos (by simpa using hnx)]
    by_cases h0 : A.n = 0
    · rw [if_pos h0, wp_pure]
      refine ⟨.refl, ?_⟩
      rw [mat_mul, mat_ext_iff]
      exact fun i j hi => by omega
    rw [if_neg h0]
    by_cases h1 : A.m ≠ A.n ∨ A.n ≤ nx ∨ nx < 1
    · rw [dif_pos h1, hn]
      exact wp_luMultBase hm hn hA
    rw [dif_neg h1]
    obtain ⟨a, b, ha, hb, hab, hdiv⟩ : ∃ a b, 0 < a ∧ 0 < b ∧ n = a + b ∧ A.n / 2 = a :=
      ⟨A.n / 2, n - A.n / 2, by omega, by omega, by omega, rfl⟩
    simp only [hdiv, wp_bind]
    subst hab
    simp only [hn]
    refine wp_sliceChk (by omega) (by omega) (by omega) (by omega) ?_
    refine wp_slice (by omega) (by omega) (by omega) (by omega) ?_
    refine wp_slice (by omega) (by omega) (by omega) (by omega) ?_
    refine wp_sliceChk (by omega) (by omega) (by omega) (by omega) ?_
    refine wp_conseq (ih b (by omega) (by simp [MatV.sub]) (by simp [MatV.sub])
      (hA.sub (by omega) (by omega))) ?_
    rintro _ ν1 ⟨o1, e1⟩
    refine wp_conseq (wp_gemm_m (m := b) (n := b) (k := a) ⟨by decide, by decide,
      by simp [MatV.sub], by simp [MatV.sub], by simp [MatV.sub], by simp [MatV.sub], by simp [MatV.sub],
      by simp [MatV.sub], hA.sub (by omega) (by omega),
      hA.disj_sub (by omega) (by omega) (by omega) (by omega) (by omega),
      hA.disj_sub (by omega) (by omega) (by omega) (by omega) (by omega)⟩) ?_
    rintro _ ν2 ⟨o2, e2⟩
    refine wp_conseq (wp_trmmL_m (m := a) (n := b) (by simp [MatV.sub]) (by simp [MatV.sub])
      ⟨Or.inl rfl, Or.inr rfl, by decide, rfl, rfl, hA.sub (by omega) (by omega),
        hA.disj_sub (by omega) (by omega) (by omega) (by omega) (by omega)⟩) ?_
    rintro _ ν3 ⟨o3, e3⟩
    refine wp_conseq (wp_trmmR_m (m := b) (n := a) (by simp [MatV.sub]) (by simp [MatV.sub])
      ⟨Or.inr rfl, Or.inl rfl, by decide, rfl, rfl, hA.sub (by omega) (by omega),
        hA.disj_sub (by omega) (by omega) (by omega) (by omega) (by omega)⟩) ?_
    rintro _ ν4 ⟨o4, e4⟩
    refine wp_conseq (ih a (by omega) (by simp [MatV.sub]) (by simp [MatV.sub])
      (hA.sub (by omega) (by omega))) ?_
    rintro _ ν5 ⟨o5, e5⟩
    simp only [sh_entry, sh_zero, one_smul, Coef.toVal] at e1 e2 e3 e4 e5
    have e2' : mat b b (sh a a (entry ν2 A)) = mat b a (sh a 0 (entry ν1 A)) * mat a b (sh 0 a (entry ν1 A)) +
      mat b b (sh a a (entry ν1 A)) := e2
    have e3' : mat a b (sh 0 a (entry ν3 A)) = mat a a (triF .Lower .Unit (entry ν2 A)) *
      mat a b (sh 0 a (entry ν2 A)) := e3
    have e4' : mat b a (sh a 0 (entry ν4 A)) = mat b a (sh a 0 (entry ν3 A)) *
      mat a a (triF .Upper .NonUnit (entry ν3 A)) := e4
    have b1 := o1.blk hA (by omega) (by omega) (p := a) (q := b) (r := 0) (c := a) (by omega) (by omega) (by omega)
    have b2 := o1.blk hA (by omega) (by omega) (p := b) (q := a) (r := a) (c := 0) (by omega) (by omega) (by omega)
    have b0 := o1.blkE hA (by omega) (by omega) (p := a) (q := a) (r := 0) (c := 0) (by omega) (by omega) (by omega)
    have d1 := o2.blk hA (by omega) (by omega) (p := a) (q := b) (r := 0) (c := a) (by omega) (by omega) (by omega)
    have d2 := o2.blk hA (by omega) (by omega) (p := b) (q := a) (r := a) (c := 0) (by omega) (by omega) (by omega)
    have d0 := o2.blkE hA (by omega) (by omega) (p := a) (q := a) (r := 0) (c := 0) (by omega) (by omega) (by omega)
    have f0 := o3.blkE hA (by omega) (by omega) (p := a) (q := a) (r := 0) (c := 0) (by omega) (by omega) (by omega)
    have f2 := o3.blk hA (by omega) (by omega) (p := b) (q := a) (r := a) (c := 0) (by omega) (by omega) (by omega)
    have f3 := o3.blk hA (by omega) (by omega) (p := b) (q := b) (r := a) (c := a) (by omega) (by omega) (by omega)
    have g0 := o4.blkE hA (by omega) (by omega) (p := a) (q := a) (r := 0) (c := 0) (by omega) (by omega) (by omega)
    have g1 := o4.blk hA (by omega) (by omega) (p := a) (q := b) (r := 0) (c := a) (by omega) (by omega) (by omega)
    have g3 := o4.blk hA (by omega) (by omega) (p := b) (q := b) (r := a) (c := a) (by omega) (by omega) (by omega)
    have k1 := o5.blk hA (by omega) (by omega) (p := a) (q := b) (r := 0) (c := a) (by omega) (by omega) (by omega)
    have k2 := o5.blk hA (by omega) (by omega) (p := b) (q := a) (r := a) (c := 0) (by omega) (by omega) (by omega)
    have k3 := o5.blk hA (by omega) (by omega) (p := b) (q := b) (r := a) (c := a) (by omega) (by omega) (by omega)
    simp only [sh_zero] at b0 d0 f0 g0
    have z2 : ∀ i j, i < a → j < a → entry ν2 A i j = entry μ A i j :=
      fun i j hi hj => by rw [d0 i j hi hj, b0 i j hi hj]
    have z3 : ∀ i j, i < a → j < a → entry ν3 A i j = entry μ A i j :=
      fun i j hi hj => by rw [f0 i j hi hj, z2 i j hi hj]
    have z4 : ∀ i j, i < a → j < a → entry ν4 A i j = entry μ A i j :=
      fun i j hi hj => by rw [g0 i j hi hj, z3 i j hi hj]
    refine ⟨(o1.sub (by omega) (by omega)).trans ((o2.sub (by omega) (by omega)).trans
      ((o3.sub (by omega) (by omega)).trans ((o4.sub (by omega) (by omega)).trans
        (o5.sub (by omega) (by omega))))), ?_⟩
    rw [mat_mulF]
    refine mat_ext4 ?_ ?_ ?_ ?_
    · rw [← mat_mulF, mat_mul_inner, triL_01, Matrix.zero_mul, add_zero, e5, mat_low_congr z4, mat_low_congr z4]
    · rw [mat_mul_block, mat_mul_inner]
      simp only [sh_sh, sh_zero, Nat.zero_add, Nat.add_zero]
      rw [triL_01, Matrix.zero_mul, add_zero, triU_01, k1, g1, e3', d1, b1, mat_low_congr z2]
    · rw [mat_mul_block, mat_mul_inner]
      simp only [sh_sh, sh_zero, Nat.zero_add, Nat.add_zero]
      rw [triU_10, Matrix.mul_zero, add_zero, triL_10, k2, e4', f2, d2, b2, mat_low_congr z3]
    · rw [mat_mul_block, mat_mul_inner]
      simp only [sh_sh, sh_zero, Nat.zero_add, Nat.add_zero]
      rw [triL_10, triU_01, triF_sh (Or.inl rfl), triF_sh (Or.inr rfl), k3, g3, f3, e2', e1, b1, b2]

end TLA
