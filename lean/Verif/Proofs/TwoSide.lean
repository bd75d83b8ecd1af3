import Verif.Proofs.QrRoutines
import Verif.SpecReduce

/-! Two-sided reductions: applying a reflector to a block of rows or columns, invariance of norms. -/

set_option linter.unusedSectionVars false
set_option linter.unusedTactic false
set_option linter.unreachableTactic false

namespace TLA
open Finset
variable {L 𝕜 : Type} [DecidableEq L] [RCLike 𝕜] [DecidableEq 𝕜] {p : HhPar}

/-- larf from the left on rows `r0..r1`, columns `c0..c1` of `B`. -/
theorem wp_larfAtL {dir : Direction} {store : StoreV} {v : VecV L} {B : MatV L} {work : VecV L}
    {r0 r1 c0 c1 : Nat} {τ : 𝕜} {u : Nat → 𝕜} {ν : Store L 𝕜}
    (hB : B.Inj) (hw : work.Inj) (Bw : B.DisjV work) (h1 : r1 ≤ B.m) (h2 : c1 ≤ B.n)
    (vn : v.n = r1 - r0) (vC : v.DisjM (B.sub r0 r1 c0 c1)) (vw : v.Disj work)
    (ws : larfWorksize .Left (r1 - r0) (c1 - c0) ≤ work.n)
    (hin : ∀ i, i < r1 - r0 → u (r0 + i) = hvec dir store (r1 - r0) (ventry ν v) i)
    (hout : ∀ r, r < B.m → r < r0 ∨ r1 ≤ r → u r = 0) :
    wp (larf .Left dir store v τ (B.sub r0 r1 c0 c1) work) ν (fun _ ν' =>
      (∀ r c, r < B.m → c < B.n → entry ν' B r c =
        if c0 ≤ c ∧ c < c1 then applyL B.m τ u (entry ν B) r c else entry ν B r c) ∧
      ∀ l, ¬ (B.sub r0 r1 c0 c1).Owns l → ¬ work.Owns l → ν' l = ν l) := by
  refine wp_conseq (wp_larf_left ⟨Or.inl rfl, by simp [MatV.sub, vn], hB.sub h1 h2, hw, vC, vw, ?_, ws⟩) ?_
  · intro i j hi hj ho
    simp only [MatV.sub] at hi hj ho
    exact Bw _ _ (by omega) (by omega) ho
  intro _ ν' h
  refine ⟨fun r c hr hc => ?_, h.frame⟩
  have same : ¬ ((r0 ≤ r ∧ r < r1) ∧ (c0 ≤ c ∧ c < c1)) → entry ν' B r c = entry ν B r c := by
    intro hn
    refine h.frame _ ?_ (Bw r c hr hc)
    rintro ⟨i', j', hi', hj', e⟩
    simp only [MatV.sub] at hi' hj' e
    have := hB _ _ _ _ (by omega) (by omega) hr hc e
    omega
  by_cases hcc : c0 ≤ c ∧ c < c1
  · rw [if_pos hcc]
    by_cases hrr : r0 ≤ r ∧ r < r1
    · have := h.val (r - r0) (c - c0) (by simp [MatV.sub]; omega) (by simp [MatV.sub]; omega)
      have e : ∀ μ : Store L 𝕜, ∀ s, entry μ (B.sub r0 r1 c0 c1) s (c - c0) = entry μ B (r0 + s) c := by
        intro μ s
        show μ (B.cell (r0 + s) (c0 + (c - c0))) = _
        rw [show c0 + (c - c0) = c by omega]; rfl
      unfold applyL at this ⊢
      rw [e, e, MatV.sub_m, show r0 + (r - r0) = r by omega] at this
      rw [this, sum_embed h1 _ (fun s hs h' => by rw [hout s hs h', star_zero, zero_mul]),
        ← hin (r - r0) (by omega), show r0 + (r - r0) = r by omega]
      congr 2
      refine Finset.sum_congr rfl fun s hs => ?_
      rw [e, hin s (mem_range.1 hs)]
    · unfold applyL
      rw [same (by tauto), hout r hr (by omega), mul_zero, zero_mul, sub_zero]
  · rw [if_neg hcc]
    exact same (by tauto)

/-- larf from the right on rows `r0..r1`, columns `c0..c1` of `B`. -/
theorem wp_larfAtR {dir : Direction} {store : StoreV} {v : VecV L} {B : MatV L} {work : VecV L}
    {r0 r1 c0 c1 : Nat} {τ : 𝕜} {u : Nat → 𝕜} {ν : Store L 𝕜}
    (hB : B.Inj) (hw : work.Inj) (Bw : B.DisjV work) (h1 : r1 ≤ B.m) (h2 : c1 ≤ B.n)
    (vn : v.n = c1 - c0) (vC : v.DisjM (B.sub r0 r1 c0 c1)) (vw : v.Disj work)
    (ws : larfWorksize .Right (r1 - r0) (c1 - c0) ≤ work.n)
    (hin : ∀ i, i < c1 - c0 → u (c0 + i) = hvec dir store (c1 - c0) (ventry ν v) i)
    (hout : ∀ c, c < B.n → c < c0 ∨ c1 ≤ c → u c = 0) :
    wp (larf .Right dir store v τ (B.sub r0 r1 c0 c1) work) ν (fun _ ν' =>
      (∀ r c, r < B.m → c < B.n → entry ν' B r c =
        if r0 ≤ r ∧ r < r1 then applyR B.n τ u (entry ν B) r c else entry ν B r c) ∧
      ∀ l, ¬ (B.sub r0 r1 c0 c1).Owns l → ¬ work.Owns l → ν' l = ν l) := by
  refine wp_conseq (wp_larf_right ⟨Or.inr rfl, by simp [MatV.sub, vn], hB.sub h1 h2, hw, vC, vw, ?_, ws⟩) ?_
  · intro i j hi hj ho
    simp only [MatV.sub] at hi hj ho
    exact Bw _ _ (by omega) (by omega) ho
  intro _ ν' h
  refine ⟨fun r c hr hc => ?_, h.frame⟩
  have same : ¬ ((r0 ≤ r ∧ r < r1) ∧ (c0 ≤ c ∧ c < c1)) → entry ν' B r c = entry ν B r c := by
    intro hn
    refine h.frame _ ?_ (Bw r c hr hc)
    rintro ⟨i', j', hi', hj', e⟩
    simp only [MatV.sub] at hi' hj' e
    have := hB _ _ _ _ (by omega) (by omega) hr hc e
    omega
  by_cases hrr : r0 ≤ r ∧ r < r1
  · rw [if_pos hrr]
    by_cases hcc : c0 ≤ c ∧ c < c1
    · have := h.val (r - r0) (c - c0) (by simp [MatV.sub]; omega) (by simp [MatV.sub]; omega)
      have e : ∀ μ : Store L 𝕜, ∀ s, entry μ (B.sub r0 r1 c0 c1) (r - r0) s = entry μ B r (c0 + s) := by
        intro μ s
        show μ (B.cell (r0 + (r - r0)) (c0 + s)) = _
        rw [show r0 + (r - r0) = r by omega]; rfl
      unfold applyR at this ⊢
      rw [e, e, MatV.sub_n, show c0 + (c - c0) = c by omega] at this
      rw [this, sum_embed h2 _ (fun s hs h' => by rw [hout s hs h', mul_zero]),
        ← hin (c - c0) (by omega), show c0 + (c - c0) = c by omega]
      congr 3
      refine Finset.sum_congr rfl fun s hs => ?_
      rw [e, hin s (mem_range.1 hs)]
    · unfold applyR
      rw [same (by tauto), hout c hc (by omega), star_zero, mul_zero, sub_zero]
  · rw [if_neg hrr]
    exact same (by tauto)

/-- The sum of squared moduli as a trace. -/
theorem frobSq_trace (m n : Nat) (G : Nat → Nat → 𝕜) :
    ((mat m n G).conjTranspose * mat m n G).trace = ((frobSq m n G : ℝ) : 𝕜) := by
  unfold frobSq
  rw [Finset.sum_comm]
  push_cast
  unfold Matrix.trace
  rw [← Fin.sum_univ_eq_sum_range (fun c => ∑ r ∈ range m, ((‖G r c‖ : 𝕜)) ^ 2) n]
  refine Finset.sum_congr rfl fun c _ => ?_
  rw [Matrix.diag_apply, Matrix.mul_apply, ← Fin.sum_univ_eq_sum_range (fun r => ((‖G r c‖ : 𝕜)) ^ 2) m]
  refine Finset.sum_congr rfl fun r _ => ?_
  rw [Matrix.conjTranspose_apply]
  show (starRingEnd 𝕜) (G r c) * G r c = _
  rw [RCLike.conj_mul]

/-- Invariance under unitary transformations from both sides. -/
theorem frobSq_unitary {m n : Nat} {F G : Nat → Nat → 𝕜} {Q : Matrix (Fin m) (Fin m) 𝕜} {W : Matrix (Fin n) (Fin n) 𝕜}
    (hQ : Q.conjTranspose * Q = 1) (hW : W * W.conjTranspose = 1)
    (h : mat m n F = Q * mat m n G * W) : frobSq m n F = frobSq m n G := by
  have e := frobSq_trace m n F
  rw [h, Matrix.conjTranspose_mul, Matrix.conjTranspose_mul, Matrix.mul_assoc, Matrix.trace_mul_comm,
    show (mat m n G).conjTranspose * Q.conjTranspose * (Q * mat m n G * W) * W.conjTranspose =
      (mat m n G).conjTranspose * (Q.conjTranspose * Q) * mat m n G * (W * W.conjTranspose) by
      simp only [Matrix.mul_assoc], hQ, hW, Matrix.mul_one, Matrix.mul_one, frobSq_trace] at e
  exact (RCLike.ofReal_inj.1 e).symm

theorem frobSq_bound {m n : Nat} {G : Nat → Nat → 𝕜} {b : ℝ} (hb : 0 ≤ b) (h : frobSq m n G ≤ b ^ 2) {r c : Nat}
    (hr : r < m) (hc : c < n) : ‖G r c‖ ≤ b := by
  refine abs_le_of_sq_le_sq' (le_trans ?_ h) hb |>.2
  refine le_trans ?_ (Finset.single_le_sum (f := fun r => ∑ c ∈ range n, ‖G r c‖ ^ 2)
    (fun _ _ => Finset.sum_nonneg fun _ _ => by positivity) (mem_range.2 hr))
  exact Finset.single_le_sum (f := fun c => ‖G r c‖ ^ 2) (fun _ _ => by positivity) (mem_range.2 hc)

theorem reflProd_succ {T : Type} [Ring T] [StarRing T] (q lo k : Nat) (t : Nat → T) (u : Nat → Nat → T) :
    reflProd q lo (k + 1) t u = reflProd q lo k t u * mat q q (reflF (t (lo + k)) (u (lo + k))) := by
  unfold reflProd
  rw [List.range_succ, List.map_append, List.prod_append]
  simp

theorem reflProd_congr {T : Type} [Ring T] [StarRing T] {q lo k : Nat} {t t' : Nat → T} {u u' : Nat → Nat → T}
    (ht : ∀ i, lo ≤ i → i < lo + k → t' i = t i) (hu : ∀ i, lo ≤ i → i < lo + k → ∀ r, r < q → u' i r = u i r) :
    reflProd q lo k t' u' = reflProd q lo k t u := by
  unfold reflProd
  congr 1
  refine List.map_congr_left fun i hi => ?_
  rw [List.mem_range] at hi
  rw [mat_ext_iff]
  intro r c hr hc
  unfold reflF
  rw [ht _ (by omega) (by omega), hu _ (by omega) (by omega) r hr, hu _ (by omega) (by omega) c hc]

theorem reflProd_unitary {q lo k : Nat} {t : Nat → 𝕜} {u : Nat → Nat → 𝕜}
    (h : ∀ i, lo ≤ i → i < lo + k → (mat q q (reflF (t i) (u i))).conjTranspose * mat q q (reflF (t i) (u i)) = 1) :
    (reflProd q lo k t u).conjTranspose * reflProd q lo k t u = 1 := by
  unfold reflProd
  refine conj_prod_unitary _ _ fun i hi => ?_
  rw [List.mem_range] at hi
  exact h _ (by omega) (by omega)

end TLA
