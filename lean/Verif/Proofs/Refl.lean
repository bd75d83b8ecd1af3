import Verif.SpecHouse
import Verif.Proofs.Larfg
import Verif.Proofs.BlockMat
import Mathlib.Algebra.BigOperators.Field

/-! Algebra of reflectors, and larfg on a vector. -/

set_option linter.unusedSectionVars false
set_option linter.unusedTactic false
set_option linter.unreachableTactic false

namespace TLA
open Finset
variable {L 𝕜 : Type} [DecidableEq L] [RCLike 𝕜] [DecidableEq 𝕜] {p : HhPar}

/-- Index of the `i`-th non-pivot entry. -/
def skip (dir : Direction) (i : Nat) : Nat := if dir = .Forward then 1 + i else i

theorem skip_ne {dir : Direction} {n i : Nat} (hi : i < n - 1) : skip dir i ≠ pidx dir n := by
  unfold skip pidx
  split <;> omega

theorem skip_lt {dir : Direction} {n i : Nat} (hi : i < n - 1) : skip dir i < n := by
  unfold skip
  split <;> omega

theorem pidx_lt {dir : Direction} {n : Nat} (hn : 0 < n) : pidx dir n < n := by
  unfold pidx
  split <;> omega

theorem pidx_cases {dir : Direction} {n r : Nat} (hr : r < n) :
    r = pidx dir n ∨ ∃ i, i < n - 1 ∧ r = skip dir i := by
  unfold pidx skip
  cases dir with
  | Forward =>
    simp only [if_true]
    by_cases h : r = 0
    · exact Or.inl h
    · exact Or.inr ⟨r - 1, by omega, by omega⟩
  | Backward =>
    simp only [reduceCtorEq, if_false]
    by_cases h : r = n - 1
    · exact Or.inl h
    · exact Or.inr ⟨r, by omega, rfl⟩

theorem skip_inj {dir : Direction} {i j : Nat} (h : skip dir i = skip dir j) : i = j := by
  unfold skip at h
  split at h <;> omega

theorem sum_pivot {T : Type} [AddCommMonoid T] (dir : Direction) {n : Nat} (hn : 0 < n) (g : Nat → T) :
    ∑ i ∈ range n, g i = g (pidx dir n) + ∑ i ∈ range (n - 1), g (skip dir i) := by
  obtain ⟨k, rfl⟩ : ∃ k, n = k + 1 := ⟨n - 1, by omega⟩
  unfold pidx skip
  cases dir with
  | Forward =>
    simp only [if_true, Nat.add_sub_cancel]
    rw [Finset.sum_range_succ', add_comm]
    simp only [add_comm]
  | Backward =>
    simp only [reduceCtorEq, if_false, Nat.add_sub_cancel]
    rw [Finset.sum_range_succ, add_comm]

theorem hvec_pidx {T : Type} [One T] [Star T] {dir : Direction} {store : StoreV} {n : Nat} {v : Nat → T} :
    hvec dir store n v (pidx dir n) = 1 := by unfold hvec; rw [if_pos rfl]

theorem hvec_skip {T : Type} [One T] [Star T] {dir : Direction} {store : StoreV} {n i : Nat} {v : Nat → T}
    (hi : i < n - 1) : hvec dir store n v (skip dir i) = (match store with
      | .Columnwise => v (skip dir i) | .Rowwise => star (v (skip dir i))) := by
  unfold hvec; rw [if_neg (skip_ne hi)]; cases store <;> rfl

/-- `star tau` for Columnwise, `tau` for Rowwise. -/
def adjTau (store : StoreV) (tau : 𝕜) : 𝕜 := if store = .Columnwise then star tau else tau

/-- What larfg achieves on the vector `a` (output `b`, `tau`), in terms of the reflector vector
`vt` (pivot entry 1): unitarity, annihilation, and a real pivot. -/
structure ReflRes (dir : Direction) (store : StoreV) (n : Nat) (a b : Nat → 𝕜) (tau : 𝕜) : Prop where
  unit : tau * star tau * (∑ i ∈ range n, hvec dir .Columnwise n b i * star (hvec dir .Columnwise n b i))
    = tau + star tau
  ann : ∀ i, i < n → a i - adjTau store tau *
      hvec dir .Columnwise n b i * (∑ j ∈ range n, star (hvec dir .Columnwise n b j) * a j)
    = if i = pidx dir n then b (pidx dir n) else 0
  real : star (b (pidx dir n)) = b (pidx dir n)

theorem reflRes_of {dir : Direction} {store : StoreV} {n : Nat} (hn : 0 < n) {a b : Nat → 𝕜} {tau : 𝕜}
    (h : LarfgRes store (a (pidx dir n)) (n - 1) (fun i => a (skip dir i)) (b (pidx dir n), tau)
      (fun i => b (skip dir i))) : ReflRes dir store n a b tau := by
  obtain ⟨alpha, ha⟩ : ∃ alpha, alpha = a (pidx dir n) := ⟨_, rfl⟩
  obtain ⟨b0, hb0⟩ : ∃ b0, b0 = b (pidx dir n) := ⟨_, rfl⟩
  have hreal : star b0 = b0 := by
    have := h.beta
    simp only [← hb0] at this
    rw [this]
    exact RCLike.conj_ofReal _
  obtain ⟨S, hS⟩ : ∃ S : 𝕜, S = ∑ i ∈ range (n - 1), a (skip dir i) * star (a (skip dir i)) := ⟨_, rfl⟩
  have hcol : ∀ i, i < n - 1 → hvec dir .Columnwise n b (skip dir i) = b (skip dir i) := fun i hi => by
    rw [hvec_skip hi]
  by_cases hc : (∀ i, i < n - 1 → a (skip dir i) = 0) ∧ RCLike.im alpha = 0
  · obtain ⟨ht, hy⟩ := h.triv hc.1 (by rw [← ha]; exact hc.2)
    simp only at ht hy
    refine ⟨by simp [ht], fun i hi => ?_, by rw [← hb0]; exact hreal⟩
    have : adjTau store tau = 0 := by
      cases store <;> simp [adjTau, ht]
    rw [this, zero_mul, zero_mul, sub_zero]
    rcases pidx_cases (dir := dir) hi with rfl | ⟨j, hj, rfl⟩
    · rw [if_pos rfl]
      have := h.beta
      rw [if_pos (by rw [← ha]; exact hc)] at this
      simp only at this
      rw [this, ← ha]
      have h2 := RCLike.re_add_im alpha
      rw [hc.2] at h2
      simpa using h2.symm
    · rw [if_neg (skip_ne hj)]
      exact hc.1 j hj
  · obtain ⟨h1, h2, h3, h4⟩ := h.gen (by rw [← ha]; exact hc)
    simp only [← ha, ← hb0] at h1 h2 h3 h4
    have hβ : b0 * b0 = alpha * star alpha + S := by
      have h5 := h.beta
      rw [← ha, if_neg hc] at h5
      simp only [← hb0] at h5
      have h6 : ∀ z : 𝕜, z * star z = ((‖z‖ ^ 2 : ℝ) : 𝕜) := fun z => by
        rw [show star z = (starRingEnd 𝕜) z from rfl, RCLike.mul_conj]; simp
      rw [h5, ← RCLike.ofReal_mul, ← pow_two, betaOf_sq _ (Finset.sum_nonneg fun _ _ => by positivity), hS]
      simp only [h6]
      push_cast
      rfl
    have hd : alpha - b0 ≠ 0 := h2
    have hd' : star alpha - b0 ≠ 0 := by
      intro h0
      apply hd
      have := congrArg star h0
      simpa [hreal] using this
    -- the inner product of the reflector vector with a
    have hs : (∑ j ∈ range n, star (hvec dir .Columnwise n b j) * a j) = alpha + S / (star alpha - b0) := by
      rw [sum_pivot dir hn, hvec_pidx, star_one, one_mul, ← ha]
      congr 1
      rw [hS, Finset.sum_div]
      refine Finset.sum_congr rfl fun i hi => ?_
      have hi := mem_range.1 hi
      rw [hcol i hi, h4 i hi, star_div₀, star_sub, hreal, div_mul_eq_mul_div, mul_comm]
    have hv : (∑ i ∈ range n, hvec dir .Columnwise n b i * star (hvec dir .Columnwise n b i)) =
        1 + S / ((alpha - b0) * (star alpha - b0)) := by
      rw [sum_pivot dir hn, hvec_pidx, star_one, one_mul]
      congr 1
      rw [hS, Finset.sum_div]
      refine Finset.sum_congr rfl fun i hi => ?_
      have hi := mem_range.1 hi
      rw [hcol i hi, h4 i hi, star_div₀, star_sub, hreal, div_mul_div_comm]
    have hSe : S = b0 * b0 - alpha * star alpha := by rw [hβ]; ring
    have htau : adjTau store tau = (b0 - star alpha) / b0 := by
      cases store
      · simp only [reduceCtorEq, if_false] at h3
        rw [adjTau, if_pos rfl, h3, star_div₀, star_sub, hreal]
      · simp only [if_true] at h3
        rw [adjTau, if_neg (by simp), h3, star_div₀, star_sub, hreal]
    have hts : tau * star tau = ((b0 - alpha) / b0) * ((b0 - star alpha) / b0) ∧
        tau + star tau = (b0 - alpha) / b0 + (b0 - star alpha) / b0 := by
      cases store
      · simp only [reduceCtorEq, if_false] at h3
        rw [h3, star_div₀, star_sub, hreal]
        exact ⟨rfl, rfl⟩
      · simp only [if_true] at h3
        rw [h3]
        simp only [star_div₀, star_sub, hreal, star_star]
        exact ⟨mul_comm _ _, add_comm _ _⟩
    have key : (b0 - star alpha) / b0 * (alpha + S / (star alpha - b0)) = alpha - b0 := by
      rw [hSe]; field_simp; ring
    refine ⟨?_, fun i hi => ?_, by rw [← hb0]; exact hreal⟩
    · rw [hts.1, hts.2, hv, hSe]
      field_simp
      ring
    · rw [htau, hs]
      rcases pidx_cases (dir := dir) hi with rfl | ⟨j, hj, rfl⟩
      · rw [if_pos rfl, hvec_pidx, mul_one, key, ← ha, ← hb0]; ring
      · rw [if_neg (skip_ne hj), hcol j hj, h4 j hj,
          show ∀ t y s : 𝕜, t * y * s = t * s * y from fun _ _ _ => by ring, key,
          mul_div_cancel₀ _ hd, sub_self]

theorem VecV.Inj.skip_sub {v : VecV L} (hv : v.Inj) {a b : Nat} (hb : b ≤ v.n) : (v.sub a b).Inj := hv.sub hb

/-- The sub-vector without the pivot. -/
def xpart (dir : Direction) (v : VecV L) : VecV L :=
  if dir = .Forward then v.sub 1 v.n else v.sub 0 (v.n - 1)

theorem xpart_n (dir : Direction) (v : VecV L) : (xpart dir v).n = v.n - 1 := by
  unfold xpart; split <;> simp [VecV.sub]

theorem xpart_cell (dir : Direction) (v : VecV L) (i : Nat) : (xpart dir v).cell i = v.cell (skip dir i) := by
  unfold xpart skip; split <;> simp [VecV.sub]

theorem xpart_inj {dir : Direction} {v : VecV L} (hv : v.Inj) : (xpart dir v).Inj := by
  unfold xpart
  split
  · exact hv.sub (le_refl _)
  · exact hv.sub (by omega)

theorem xpart_owns {dir : Direction} {v : VecV L} {l : L} (h : (xpart dir v).Owns l) : v.Owns l := by
  obtain ⟨i, hi, e⟩ := h
  rw [xpart_n] at hi
  exact ⟨skip dir i, skip_lt hi, by rw [← xpart_cell]; exact e⟩

theorem wp_sliceX {T : Type} {dir : Direction} {v : VecV L} (hn : 0 < v.n) {μ : Store L T}
    {Q : VecV L → Store L T → Prop} {E} (hQ : Q (xpart dir v) μ) : wp (sliceX dir v v.n) μ Q E := by
  unfold xpart at hQ
  unfold sliceX
  split
  · rename_i h
    rw [if_pos h] at hQ
    exact wp_vslice (by omega) (le_refl _) hQ
  · rename_i h
    rw [if_neg h] at hQ
    exact wp_vslice (by omega) (by omega) hQ

theorem wp_larfgV (hl : HhLaws 𝕜 p) {dir : Direction} {store : StoreV} {v : VecV L} (hv : v.Inj)
    (hn : 0 < v.n) {μ : Store L 𝕜}
    (hd : NoDrop p (v.n - 1) (fun i => ventry μ v (skip dir i))) :
    wp (larfgV (hhOps p) dir store v) μ (fun tau ν => OnlyV v μ ν ∧
      LarfgRes store (ventry μ v (pidx dir v.n)) (v.n - 1) (fun i => ventry μ v (skip dir i))
        (ventry ν v (pidx dir v.n), tau) (fun i => ventry ν v (skip dir i))) := by
  unfold larfgV
  simp only [wp_bind]
  refine wp_sliceX hn ?_
  have hp : (if dir = .Forward then 0 else v.n - 1) = pidx dir v.n := rfl
  rw [hp]
  refine wp_vgetE (pidx_lt hn) ?_
  have hve : ∀ (ν : Store L 𝕜) i, ventry ν (xpart dir v) i = ventry ν v (skip dir i) := fun ν i => by
    unfold ventry; rw [xpart_cell]
  refine wp_conseq (wp_larfg hl (xpart_inj hv) (by
    rw [xpart_n]
    simpa only [NoDrop, hve] using hd)) ?_
  rintro ⟨r1, r2⟩ ν ⟨ho, hr⟩
  refine wp_vsetE (pidx_lt hn) ?_
  rw [wp_pure]
  have hxo : ∀ i, i < v.n - 1 → upd ν (v.cell (pidx dir v.n)) r1 (v.cell (skip dir i)) = ν (v.cell (skip dir i)) := by
    intro i hi
    unfold upd
    rw [if_neg (fun e => skip_ne hi (hv _ _ (skip_lt hi) (pidx_lt hn) e))]
  refine ⟨fun l hl' => ?_, ?_⟩
  · unfold upd
    rw [if_neg (fun e => hl' ⟨_, pidx_lt hn, e.symm⟩)]
    exact ho l (fun h => hl' (xpart_owns h))
  · rw [xpart_n] at hr
    have e0 : ventry (upd ν (v.cell (pidx dir v.n)) r1) v (pidx dir v.n) = r1 := by
      unfold ventry upd; rw [if_pos rfl]
    have hx : ventry μ (xpart dir v) = fun i => ventry μ v (skip dir i) := funext (hve μ)
    rw [hx] at hr
    refine ⟨by rw [e0]; exact hr.beta, fun h1 h2 => ⟨(hr.triv h1 h2).1, fun i hi => ?_⟩, fun h => ?_⟩
    · show upd _ _ _ _ = _
      rw [hxo i hi]
      exact (hve ν i).symm.trans ((hr.triv h1 h2).2 i hi)
    · obtain ⟨g1, g2, g3, g4⟩ := hr.gen h
      rw [e0]
      refine ⟨g1, g2, g3, fun i hi => ?_⟩
      show upd _ _ _ _ = _
      rw [hxo i hi]
      exact (hve ν i).symm.trans (g4 i hi)

end TLA
