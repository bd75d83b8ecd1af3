import Verif.Model.Geqrt3
import Verif.Proofs.Gelqt
set_option linter.unusedTactic false
set_option linter.unusedVariables false
set_option linter.unreachableTactic false
set_option linter.unusedSectionVars false

/-! # geqrt3 -/

namespace TLA
open Finset
variable {L 𝕜 : Type} [DecidableEq L] [RCLike 𝕜] [DecidableEq 𝕜] {p : HhPar}

/-- Joining the triangular factors of two blocks of reflectors. -/
theorem trel_join {n1 n2 : Nat} {g Tf : Nat → Nat → 𝕜} {t : Nat → 𝕜}
    (h1 : TRel .Forward n1 g t (triF .Upper .NonUnit Tf))
    (h2 : TRel .Forward n2 (fun b i => g (n1 + b) (n1 + i)) (fun i => t (n1 + i)) (triF .Upper .NonUnit (sh n1 n1 Tf)))
    (h12 : ∀ a c, a < n1 → c < n2 → Tf a (n1 + c) = -∑ b ∈ range n1, triF .Upper .NonUnit Tf a b *
      ∑ d ∈ range n2, g b (n1 + d) * triF .Upper .NonUnit (sh n1 n1 Tf) d c) :
    TRel .Forward (n1 + n2) g t (triF .Upper .NonUnit Tf) := by
  have bs : ∀ k i, bset .Forward k i = range i := fun k i => by simp [bset]
  have ts : ∀ a b, triF .Upper .NonUnit Tf (n1 + a) (n1 + b) = triF .Upper .NonUnit (sh n1 n1 Tf) a b := by
    intro a b
    unfold triF sh
    by_cases e : a = b
    · subst e; simp
    · rw [if_neg (by omega), if_neg e]
      by_cases e2 : a < b
      · rw [if_pos (by simp only [inTri]; omega), if_pos (by simp only [inTri]; omega)]
      · rw [if_neg (by simp only [inTri]; omega), if_neg (by simp only [inTri]; omega)]
  have tz : ∀ a b, b < a → triF .Upper .NonUnit Tf a b = 0 := by
    intro a b h
    unfold triF
    rw [if_neg (by omega), if_neg (by simp only [inTri]; omega)]
  have tu : ∀ a b, a < b → triF .Upper .NonUnit Tf a b = Tf a b := by
    intro a b h
    unfold triF
    rw [if_neg (by omega), if_pos (by simp only [inTri]; omega)]
  refine ⟨fun i hi => ?_, fun i b hi hb => ?_, fun i a hi ha => ?_⟩
  · by_cases h : i < n1
    · exact h1.diag i h
    · have := h2.diag (i - n1) (by omega)
      rw [← ts] at this
      simpa [show n1 + (i - n1) = i by omega] using this
  · rw [bs, mem_range] at hb
    exact tz i b hb
  · rw [bs] at ha ⊢
    rw [mem_range] at ha
    by_cases h : i < n1
    · have := h1.off i a h (by rw [bs, mem_range]; exact ha)
      rwa [bs] at this
    · obtain ⟨c, rfl⟩ : ∃ c, i = n1 + c := ⟨i - n1, by omega⟩
      rw [Finset.sum_range_add]
      by_cases h' : a < n1
      · rw [tu a _ (by omega), h12 a c h' (by omega)]
        have hc : ∀ d, d < c → triF .Upper .NonUnit (sh n1 n1 Tf) d c =
            -t (n1 + c) * ∑ b ∈ range c, triF .Upper .NonUnit (sh n1 n1 Tf) d b * g (n1 + b) (n1 + c) := by
          intro d hd
          have := h2.off c d (by omega) (by rw [bs, mem_range]; exact hd)
          rwa [bs] at this
        have hcc : triF .Upper .NonUnit (sh n1 n1 Tf) c c = t (n1 + c) := h2.diag c (by omega)
        have hcz : ∀ d, c < d → triF .Upper .NonUnit (sh n1 n1 Tf) d c = 0 := by
          intro d hd
          rw [← ts]; exact tz _ _ (by omega)
        -- the sum over d stops at c
        have s1 : ∀ b, ∑ d ∈ range n2, g b (n1 + d) * triF .Upper .NonUnit (sh n1 n1 Tf) d c =
            ∑ d ∈ range c, g b (n1 + d) * triF .Upper .NonUnit (sh n1 n1 Tf) d c + g b (n1 + c) * t (n1 + c) := by
          intro b
          rw [← hcc, ← Finset.sum_range_succ (fun d => g b (n1 + d) * triF .Upper .NonUnit (sh n1 n1 Tf) d c)]
          symm
          refine Finset.sum_subset (fun x hx => ?_) (fun x hx hn => ?_)
          · simp at hx ⊢; omega
          · simp at hx hn
            rw [hcz x (by omega), mul_zero]
        have s2 : ∀ d, d < c → triF .Upper .NonUnit Tf a (n1 + d) = -∑ b ∈ range n1, triF .Upper .NonUnit Tf a b *
            ∑ e ∈ range c, g b (n1 + e) * triF .Upper .NonUnit (sh n1 n1 Tf) e d := by
          intro d hd
          rw [tu a _ (by omega), h12 a d h' (by omega)]
          congr 1
          refine Finset.sum_congr rfl fun b _ => ?_
          congr 1
          symm
          refine Finset.sum_subset (fun x hx => ?_) (fun x hx hn => ?_)
          · simp at hx ⊢; omega
          · simp at hx hn
            rw [← ts, tz _ _ (by omega), mul_zero]
        have s3 : ∑ x ∈ range c, triF .Upper .NonUnit Tf a (n1 + x) * g (n1 + x) (n1 + c) =
            -∑ b ∈ range n1, triF .Upper .NonUnit Tf a b * ∑ e ∈ range c, g b (n1 + e) *
              ∑ x ∈ range c, triF .Upper .NonUnit (sh n1 n1 Tf) e x * g (n1 + x) (n1 + c) := by
          rw [Finset.sum_congr rfl fun x hx => by rw [s2 x (mem_range.1 hx), neg_mul]]
          rw [Finset.sum_neg_distrib]
          congr 1
          simp only [Finset.sum_mul, Finset.mul_sum]
          rw [Finset.sum_comm]
          refine Finset.sum_congr rfl fun b _ => ?_
          rw [Finset.sum_comm]
          refine Finset.sum_congr rfl fun e _ => Finset.sum_congr rfl fun x _ => ?_
          ring
        rw [s3]
        have s4 : ∀ b, ∑ d ∈ range c, g b (n1 + d) * triF .Upper .NonUnit (sh n1 n1 Tf) d c =
            -t (n1 + c) * ∑ e ∈ range c, g b (n1 + e) * ∑ x ∈ range c, triF .Upper .NonUnit (sh n1 n1 Tf) e x * g (n1 + x) (n1 + c) := by
          intro b
          rw [Finset.mul_sum]
          refine Finset.sum_congr rfl fun d hd => ?_
          rw [hc d (mem_range.1 hd)]
          ring
        simp only [s1, s4]
        rw [mul_add, neg_mul_neg, Finset.mul_sum, Finset.mul_sum, ← Finset.sum_neg_distrib, ← Finset.sum_add_distrib]
        refine Finset.sum_congr rfl fun b _ => ?_
        ring
      · obtain ⟨a, rfl⟩ : ∃ a', a = n1 + a' := ⟨a - n1, by omega⟩
        have := h2.off c a (by omega) (by rw [bs, mem_range]; omega)
        rw [bs] at this
        rw [ts, this]
        congr 1
        rw [Finset.sum_eq_zero (s := range n1) fun x hx => by rw [tz _ _ (by have := mem_range.1 hx; omega), zero_mul], zero_add]
        refine Finset.sum_congr rfl fun x _ => ?_
        rw [ts]

/-- Reflector vectors of a leading block, and of a trailing one. -/
theorem houseVec_cols {q k k' : Nat} {V : Nat → Nat → 𝕜} {i r : Nat} :
    houseVec .Forward .Columnwise q k V i r = houseVec .Forward .Columnwise q k' V i r := rfl

theorem houseVec_shift {q q' k k' n1 : Nat} {V : Nat → Nat → 𝕜} {i r : Nat} :
    houseVec .Forward .Columnwise q k V (n1 + i) (n1 + r) = houseVec .Forward .Columnwise q' k' (sh n1 n1 V) i r := by
  unfold houseVec hpiv sh
  simp only [if_true]
  by_cases h : r = i
  · subst h; simp
  · rw [if_neg (by omega), if_neg h]
    by_cases h2 : r < i
    · rw [if_pos (by omega), if_pos h2]
    · rw [if_neg (by omega), if_neg h2]

theorem gram_shift {q k k' n1 : Nat} (hq : n1 ≤ q) {V : Nat → Nat → 𝕜} (b i : Nat) :
    gramF q (houseVec .Forward .Columnwise q k V) (n1 + b) (n1 + i) =
      gramF (q - n1) (houseVec .Forward .Columnwise (q - n1) k' (sh n1 n1 V)) b i := by
  unfold gramF
  rw [show range q = range (n1 + (q - n1)) by rw [Nat.add_sub_cancel' hq], Finset.sum_range_add]
  rw [Finset.sum_eq_zero (s := range n1) fun s hs => ?_, zero_add]
  · refine Finset.sum_congr rfl fun s _ => ?_
    rw [houseVec_shift (q' := q - n1) (k' := k'), houseVec_shift (q' := q - n1) (k' := k')]
  · have hs' := mem_range.1 hs
    rw [houseVec_zero (b := n1 + i) (s := s) (by simp [hpiv]; omega), mul_zero]

/-- The inner products of the left reflectors with the right ones. -/
theorem gram_cross {m n1 n2 k : Nat} (hm : n1 + n2 ≤ m) {V : Nat → Nat → 𝕜} {b c : Nat} (hb : b < n1) :
    gramF m (houseVec .Forward .Columnwise m k V) b (n1 + c) =
      ∑ s ∈ range n2, star (V (n1 + s) b) * triF .Lower .Unit (sh n1 n1 V) s c +
        (if c < n2 then ∑ s ∈ range (m - (n1 + n2)), star (V (n1 + n2 + s) b) * V (n1 + n2 + s) (n1 + c) else
          ∑ s ∈ range (m - (n1 + n2)), star (V (n1 + n2 + s) b) * houseVec .Forward .Columnwise m k V (n1 + c) (n1 + n2 + s)) := by
  unfold gramF
  rw [show range m = range (n1 + n2 + (m - (n1 + n2))) by rw [Nat.add_sub_cancel' hm], Finset.sum_range_add, Finset.sum_range_add]
  have hin : ∀ s, n1 ≤ s → houseVec .Forward .Columnwise m k V b s = V s b := by
    intro s hs
    unfold houseVec hpiv
    simp only [if_true]
    rw [if_neg (by omega), if_neg (by omega)]
  rw [Finset.sum_eq_zero (s := range n1) fun s hs => ?_, zero_add]
  · congr 1
    · refine Finset.sum_congr rfl fun s _ => ?_
      rw [hin _ (by omega)]
      congr 1
      unfold houseVec hpiv triF sh
      simp only [if_true]
      by_cases h : s = c
      · subst h; simp
      · rw [if_neg (by omega), if_neg h]
        by_cases h2 : s < c
        · rw [if_pos (by omega), if_neg (by simp only [inTri]; omega)]
        · rw [if_neg (by omega), if_pos (by simp only [inTri]; omega)]
    · by_cases hc : c < n2
      · rw [if_pos hc]
        refine Finset.sum_congr rfl fun s _ => ?_
        rw [hin _ (by omega)]
        congr 1
        unfold houseVec hpiv
        simp only [if_true]
        rw [if_neg (by omega), if_neg (by omega)]
      · rw [if_neg hc]
        refine Finset.sum_congr rfl fun s _ => ?_
        rw [hin _ (by omega)]
  · have hs' := mem_range.1 hs
    rw [houseVec_zero (b := n1 + c) (s := s) (by simp [hpiv]; omega), mul_zero]


theorem wp_subInto {W C : MatV L} (hm : W.m = C.m) (hn : W.n = C.n) (hC : C.Inj) (hWC : W.Disj C) (μ : Store L 𝕜) :
    wp (subInto W C) μ (fun _ ν => Only C μ ν ∧ ∀ i j, i < C.m → j < C.n → entry ν C i j = entry μ C i j - entry μ W i j) := by
  unfold subInto
  have h0 : MState C μ (entry μ C) μ := MState.init C μ _ (fun _ _ _ _ => rfl)
  refine wp_conseq (wp_region (fun i j => entry μ C i j - entry μ W i j) h0 hC (by omega) ?_ ?_) ?_
  · intro j _ _ _; omega
  · intro j i ν h1 h2 h3 h4 hν
    simp only [wp_bind, wp_get, wp_modify]
    rw [hν.read hWC (by omega) (by omega)]
    refine ⟨by omega, by omega, ?_⟩
    have := hν.val i j (by omega) (by omega)
    rw [if_neg (by omega)] at this
    rw [this]; rfl
  · intro _ ν h
    refine ⟨h.frame, fun i j hi hj => ?_⟩
    rw [show entry ν C i j = _ from h.val i j hi hj]
    exact if_pos (by omega)

theorem wp_conjInto {B W : MatV L} (hm : B.m = W.n) (hn : B.n = W.m) (hW : W.Inj) (hBW : B.Disj W) (μ : Store L 𝕜) :
    wp (conjInto B W) μ (fun _ ν => Only W μ ν ∧ ∀ i j, i < W.m → j < W.n → entry ν W i j = star (entry μ B j i)) := by
  unfold conjInto
  have h0 : MState W μ (entry μ W) μ := MState.init W μ _ (fun _ _ _ _ => rfl)
  refine wp_conseq (wp_region (fun i j => star (entry μ B j i)) h0 hW (le_refl _) ?_ ?_) ?_
  · intro j _ _ _; omega
  · intro j i ν h1 h2 h3 h4 hν
    simp only [wp_bind, wp_get, wp_set]
    rw [hν.read hBW (by omega) (by omega)]
    exact ⟨by omega, by omega, rfl⟩
  · intro _ ν h
    refine ⟨h.frame, fun i j hi hj => ?_⟩
    rw [show entry ν W i j = _ from h.val i j hi hj]
    exact if_pos (by omega)

/-- Sum over the rows split into the three row blocks. -/
theorem sum_three {m n1 n2 : Nat} (h : n1 + n2 ≤ m) (f : Nat → 𝕜) :
    ∑ s ∈ range m, f s = ∑ s ∈ range n1, f s + ∑ s ∈ range n2, f (n1 + s) + ∑ s ∈ range (m - (n1 + n2)), f (n1 + n2 + s) := by
  conv_lhs => rw [show m = n1 + n2 + (m - (n1 + n2)) by omega, Finset.sum_range_add, Finset.sum_range_add]

theorem houseVec_low {q k : Nat} {V : Nat → Nat → 𝕜} {i r : Nat} (h : i < r) :
    houseVec .Forward .Columnwise q k V i r = V r i := by
  unfold houseVec hpiv
  simp only [if_true]
  rw [if_neg (by omega), if_neg (by omega)]

theorem houseVec_tri {q k : Nat} {V : Nat → Nat → 𝕜} {i r : Nat} :
    houseVec .Forward .Columnwise q k V i r = triF .Lower .Unit V r i := by
  unfold houseVec hpiv triF
  simp only [if_true]
  by_cases h : r = i
  · subst h; simp
  · rw [if_neg h, if_neg h]
    by_cases h2 : r < i
    · rw [if_pos h2, if_neg (by simp only [inTri]; omega)]
    · rw [if_neg h2, if_pos (by simp only [inTri]; omega)]

set_option maxHeartbeats 1000000 in
theorem wp_geqrt3Mid {A Tm : MatV L} {n1 n2 : Nat} (hA : A.Inj) (hT : Tm.Inj) (hAT : A.Disj Tm) (hm : n1 + n2 ≤ A.m) (hn : A.n = n1 + n2)
    (hTm : n1 + n2 ≤ Tm.m) (hTn : n1 + n2 ≤ Tm.n) (ν : Store L 𝕜) :
    wp (geqrt3Mid (A.sub 0 n1 0 n1) (A.sub 0 n1 n1 (n1 + n2)) (A.sub n1 (n1 + n2) 0 n1) (A.sub n1 (n1 + n2) n1 (n1 + n2))
      (A.sub (n1 + n2) A.m 0 n1) (A.sub (n1 + n2) A.m n1 (n1 + n2)) (Tm.sub 0 n1 0 n1) (Tm.sub 0 n1 n1 (n1 + n2))) ν
      (fun _ ν' => (∀ l, ¬ (A.sub 0 A.m n1 (n1 + n2)).Owns l → ¬ (Tm.sub 0 n1 n1 (n1 + n2)).Owns l → ν' l = ν l) ∧
        mat A.m n2 (sh 0 n1 (entry ν' A)) =
          (blkH .Forward .Columnwise A.m n1 (entry ν A) (entry ν Tm)).conjTranspose * mat A.m n2 (sh 0 n1 (entry ν A))) := by
  unfold geqrt3Mid
  simp only [wp_bind]
  have dAT : ∀ a b c d e f g h, b ≤ A.m → d ≤ A.n → f ≤ Tm.m → h ≤ Tm.n → (A.sub a b c d).Disj (Tm.sub e f g h) := by
    intro a b c d e f g h h1 h2 h3 h4
    exact (hAT.sub_left (by omega) (by omega)).sub_right (by omega) (by omega)
  have dTA : ∀ a b c d e f g h, b ≤ A.m → d ≤ A.n → f ≤ Tm.m → h ≤ Tm.n → (Tm.sub e f g h).Disj (A.sub a b c d) :=
    fun a b c d e f g h h1 h2 h3 h4 => (dAT a b c d e f g h h1 h2 h3 h4).symm
  have iT : (Tm.sub 0 n1 n1 (n1 + n2)).Inj := hT.sub (by omega) (by omega)
  have dTT : (Tm.sub 0 n1 0 n1).Disj (Tm.sub 0 n1 n1 (n1 + n2)) := hT.disj_sub (by omega) (by omega) (by omega) (by omega) (by omega)
  -- 1
  refine wp_conseq (wp_lacpyG (by simp [MatV.sub]) (by simp [MatV.sub]) iT (dAT _ _ _ _ _ _ _ _ (by omega) (by omega) (by omega) (by omega)) ν) fun _ ν1 ⟨o1, e1⟩ => ?_
  refine wp_conseq (wp_trmmL (diag := .Unit) ⟨Or.inl rfl, Or.inr rfl, by decide, by simp [MatV.sub], by simp [MatV.sub], iT,
    dAT _ _ _ _ _ _ _ _ (by omega) (by omega) (by omega) (by omega)⟩) fun _ ν2 ⟨o2, e2⟩ => ?_
  refine wp_conseq (wp_gemm_e (m := n1) (n := n2) (k := n2) ⟨by decide, by decide, by simp [MatV.sub], by simp [MatV.sub], by simp [MatV.sub], by simp [MatV.sub], by simp [MatV.sub], by simp [MatV.sub], iT,
    dAT _ _ _ _ _ _ _ _ (by omega) (by omega) (by omega) (by omega), dAT _ _ _ _ _ _ _ _ (by omega) (by omega) (by omega) (by omega)⟩) fun _ ν3 ⟨o3, e3⟩ => ?_
  refine wp_conseq (wp_gemm_e (m := n1) (n := n2) (k := A.m - (n1 + n2)) ⟨by decide, by decide, by simp [MatV.sub], by simp [MatV.sub], by simp [MatV.sub], by simp [MatV.sub], by simp [MatV.sub], by simp [MatV.sub], iT,
    dAT _ _ _ _ _ _ _ _ (by omega) (by omega) (by omega) (by omega), dAT _ _ _ _ _ _ _ _ (by omega) (by omega) (by omega) (by omega)⟩) fun _ ν4 ⟨o4, e4⟩ => ?_
  refine wp_conseq (wp_trmmL (diag := .NonUnit) ⟨Or.inl rfl, Or.inl rfl, by decide, by simp [MatV.sub], by simp [MatV.sub], iT, dTT⟩) fun _ ν5 ⟨o5, e5⟩ => ?_
  refine wp_conseq (wp_gemm_e (m := n2) (n := n2) (k := n1) ⟨by decide, by decide, by simp [MatV.sub], by simp [MatV.sub], by simp [MatV.sub], by simp [MatV.sub], by simp [MatV.sub], by simp [MatV.sub], hA.sub (by omega) (by omega),
    hA.disj_sub (by omega) (by omega) (by omega) (by omega) (by omega), dTA _ _ _ _ _ _ _ _ (by omega) (by omega) (by omega) (by omega)⟩) fun _ ν6 ⟨o6, e6⟩ => ?_
  refine wp_conseq (wp_gemm_e (m := A.m - (n1 + n2)) (n := n2) (k := n1) ⟨by decide, by decide, by simp [MatV.sub], by simp [MatV.sub], by simp [MatV.sub], by simp [MatV.sub], by simp [MatV.sub], by simp [MatV.sub], hA.sub (by omega) (by omega),
    hA.disj_sub (by omega) (by omega) (by omega) (by omega) (by omega), dTA _ _ _ _ _ _ _ _ (by omega) (by omega) (by omega) (by omega)⟩) fun _ ν7 ⟨o7, e7⟩ => ?_
  refine wp_conseq (wp_trmmL (diag := .Unit) ⟨Or.inl rfl, Or.inr rfl, by decide, by simp [MatV.sub], by simp [MatV.sub], iT,
    dAT _ _ _ _ _ _ _ _ (by omega) (by omega) (by omega) (by omega)⟩) fun _ ν8 ⟨o8, e8⟩ => ?_
  refine wp_conseq (wp_subInto (by simp [MatV.sub]) (by simp [MatV.sub]) (hA.sub (by omega) (by omega)) (dTA _ _ _ _ _ _ _ _ (by omega) (by omega) (by omega) (by omega)) ν8) fun _ ν9 ⟨o9, e9⟩ => ?_
  -- frames
  have nT : ∀ r c, r < A.m → c < A.n → ¬ (Tm.sub 0 n1 n1 (n1 + n2)).Owns (A.cell r c) := fun r c hr hc ho =>
    hAT r c hr hc (ho.sub (by omega) (by omega))
  have nB : ∀ a b c d r c', b ≤ A.m → d ≤ A.n → r < A.m → c' < A.n → ¬ (a ≤ r ∧ r < b ∧ c ≤ c' ∧ c' < d) → ¬ (A.sub a b c d).Owns (A.cell r c') := by
    rintro a b c d r c' h1 h2 h3 h4 h5 ⟨i, j, hi, hj, e⟩
    simp only [MatV.sub] at hi hj e
    have := hA _ _ _ _ (by omega) (by omega) h3 h4 e
    omega
  have nTA : ∀ a b c d r c', b ≤ A.m → d ≤ A.n → r < Tm.m → c' < Tm.n → ¬ (A.sub a b c d).Owns (Tm.cell r c') := by
    rintro a b c d r c' h1 h2 h3 h4 ⟨i, j, hi, hj, e⟩
    simp only [MatV.sub] at hi hj e
    exact hAT _ _ (by omega) (by omega) ⟨r, c', h3, h4, e.symm⟩
  have a5 : ∀ r c, r < A.m → c < A.n → entry ν5 A r c = entry ν A r c := fun r c hr hc => by
    unfold entry
    rw [o5 _ (nT r c hr hc), o4 _ (nT r c hr hc), o3 _ (nT r c hr hc), o2 _ (nT r c hr hc), o1 _ (nT r c hr hc)]
  have hm1 : ∀ k, k < n1 → k < A.m := fun k h => by omega
  have w1 : ∀ r c, r < n1 → c < n2 → entry ν1 Tm r (n1 + c) = entry ν A r (n1 + c) := by
    intro r c hr hc
    have := mat_ext_iff.1 e1 r c (by simp [MatV.sub]; omega) (by simp [MatV.sub]; omega)
    simpa [entry, MatV.sub] using this
  have a1 : ∀ r c, r < A.m → c < A.n → entry ν1 A r c = entry ν A r c := fun r c hr hc => o1 _ (nT r c hr hc)
  have a2 : ∀ r c, r < A.m → c < A.n → entry ν2 A r c = entry ν A r c := fun r c hr hc => (o2 _ (nT r c hr hc)).trans (a1 r c hr hc)
  have a3 : ∀ r c, r < A.m → c < A.n → entry ν3 A r c = entry ν A r c := fun r c hr hc => (o3 _ (nT r c hr hc)).trans (a2 r c hr hc)
  have a4 : ∀ r c, r < A.m → c < A.n → entry ν4 A r c = entry ν A r c := fun r c hr hc => (o4 _ (nT r c hr hc)).trans (a3 r c hr hc)
  have t4 : ∀ r c, r < n1 → c < n1 → entry ν4 Tm r c = entry ν Tm r c := by
    intro r c hr hc
    have : ¬ (Tm.sub 0 n1 n1 (n1 + n2)).Owns (Tm.cell r c) := by
      have := dTT r c (by simp [MatV.sub]; omega) (by simp [MatV.sub]; omega)
      simpa [MatV.sub] using this
    unfold entry
    rw [o4 _ this, o3 _ this, o2 _ this, o1 _ this]
  have triA : ∀ (ξ : Store L 𝕜), (∀ r c, r < A.m → c < A.n → entry ξ A r c = entry ν A r c) → ∀ r l, r < n1 → l < n1 →
      triF .Lower .Unit (entry ξ (A.sub 0 n1 0 n1)) r l = houseVec .Forward .Columnwise A.m n1 (entry ν A) l r := by
    intro ξ h r l hr hl
    rw [houseVec_tri]
    refine triF_congr' (n := n1) (fun i j hi hj => ?_) hr hl
    rw [← h i j (by omega) (by omega)]
    simp [entry, MatV.sub]
  have w4 : ∀ r c, r < n1 → c < n2 → entry ν4 Tm r (n1 + c) =
      ∑ s ∈ range A.m, star (houseVec .Forward .Columnwise A.m n1 (entry ν A) r s) * entry ν A s (n1 + c) := by
    intro r c hr hc
    have f2 := e2 r c (by simp [MatV.sub]; omega) (by simp [MatV.sub]; omega)
    have f3 := e3 r c (by simp [MatV.sub]; omega) (by simp [MatV.sub]; omega)
    have f4 := e4 r c (by simp [MatV.sub]; omega) (by simp [MatV.sub]; omega)
    simp only [Coef.toVal, one_mul] at f2 f3 f4
    have f4' : entry ν4 Tm r (n1 + c) = entry ν4 (Tm.sub 0 n1 n1 (n1 + n2)) r c := by simp [entry, MatV.sub]
    rw [f4', f4, f3, f2, sum_three hm]
    have g1 : (Tm.sub 0 n1 n1 (n1 + n2)).m = n1 := by simp [MatV.sub]
    rw [g1]
    have s1 : ∑ l ∈ range n1, opF .ConjTrans (triF .Lower .Unit (entry ν1 (A.sub 0 n1 0 n1))) r l * entry ν1 (Tm.sub 0 n1 n1 (n1 + n2)) l c =
        ∑ s ∈ range n1, star (houseVec .Forward .Columnwise A.m n1 (entry ν A) r s) * entry ν A s (n1 + c) := by
      refine Finset.sum_congr rfl fun l hl => ?_
      have hl := mem_range.1 hl
      simp only [opF]
      rw [triA ν1 a1 l r hl hr, ← w1 l c hl hc]
      simp [entry, MatV.sub]
    have s2 : ∑ l ∈ range n2, opF .ConjTrans (entry ν2 (A.sub n1 (n1 + n2) 0 n1)) r l * opF .NoTrans (entry ν2 (A.sub n1 (n1 + n2) n1 (n1 + n2))) l c =
        ∑ s ∈ range n2, star (houseVec .Forward .Columnwise A.m n1 (entry ν A) r (n1 + s)) * entry ν A (n1 + s) (n1 + c) := by
      refine Finset.sum_congr rfl fun l hl => ?_
      have hl := mem_range.1 hl
      simp only [opF]
      rw [houseVec_low (by omega), ← a2 (n1 + l) r (by omega) (by omega), ← a2 (n1 + l) (n1 + c) (by omega) (by omega)]
      simp [entry, MatV.sub]
    have s3 : ∑ l ∈ range (A.m - (n1 + n2)), opF .ConjTrans (entry ν3 (A.sub (n1 + n2) A.m 0 n1)) r l * opF .NoTrans (entry ν3 (A.sub (n1 + n2) A.m n1 (n1 + n2))) l c =
        ∑ s ∈ range (A.m - (n1 + n2)), star (houseVec .Forward .Columnwise A.m n1 (entry ν A) r (n1 + n2 + s)) * entry ν A (n1 + n2 + s) (n1 + c) := by
      refine Finset.sum_congr rfl fun l hl => ?_
      have hl := mem_range.1 hl
      simp only [opF]
      rw [houseVec_low (by omega), ← a3 (n1 + n2 + l) r (by omega) (by omega), ← a3 (n1 + n2 + l) (n1 + c) (by omega) (by omega)]
      simp [entry, MatV.sub]
    rw [s1, s2, s3]
    ring
  have w5 : ∀ r c, r < n1 → c < n2 → entry ν5 Tm r (n1 + c) =
      ∑ b ∈ range n1, star (triF .Upper .NonUnit (entry ν Tm) b r) *
        ∑ s ∈ range A.m, star (houseVec .Forward .Columnwise A.m n1 (entry ν A) b s) * entry ν A s (n1 + c) := by
    intro r c hr hc
    have f := e5 r c (by simp [MatV.sub]; omega) (by simp [MatV.sub]; omega)
    have g1 : (Tm.sub 0 n1 n1 (n1 + n2)).m = n1 := by simp [MatV.sub]
    rw [g1, one_mul] at f
    have f' : entry ν5 Tm r (n1 + c) = entry ν5 (Tm.sub 0 n1 n1 (n1 + n2)) r c := by simp [entry, MatV.sub]
    rw [f', f]
    refine Finset.sum_congr rfl fun l hl => ?_
    have hl := mem_range.1 hl
    simp only [opF]
    rw [← w4 l c hl hc]
    congr 1
    · congr 1
      refine triF_congr' (n := n1) (fun i j hi hj => ?_) hl hr
      rw [← t4 i j hi hj]
      simp [entry, MatV.sub]
    · simp [entry, MatV.sub]
  have t7 : ∀ r c, r < n1 → c < n2 → entry ν7 Tm r (n1 + c) = entry ν5 Tm r (n1 + c) := fun r c hr hc =>
    (o7 _ (nTA _ _ _ _ _ _ (by omega) (by omega) (by omega) (by omega))).trans (o6 _ (nTA _ _ _ _ _ _ (by omega) (by omega) (by omega) (by omega)))
  have t6 : ∀ r c, r < n1 → c < n2 → entry ν6 Tm r (n1 + c) = entry ν5 Tm r (n1 + c) := fun r c hr hc =>
    (o6 _ (nTA _ _ _ _ _ _ (by omega) (by omega) (by omega) (by omega)))
  have fin : ∀ r c, r < A.m → c < n2 → entry ν9 A r (n1 + c) = entry ν A r (n1 + c) -
      ∑ l ∈ range n1, houseVec .Forward .Columnwise A.m n1 (entry ν A) l r * entry ν5 Tm l (n1 + c) := by
    intro r c hr hc
    by_cases h1 : r < n1
    · have f9 := e9 r c (by simp [MatV.sub]; omega) (by simp [MatV.sub]; omega)
      have f8 := e8 r c (by simp [MatV.sub]; omega) (by simp [MatV.sub]; omega)
      have g1 : (Tm.sub 0 n1 n1 (n1 + n2)).m = n1 := by simp [MatV.sub]
      rw [g1, one_mul] at f8
      have f' : entry ν9 A r (n1 + c) = entry ν9 (A.sub 0 n1 n1 (n1 + n2)) r c := by simp [entry, MatV.sub]
      rw [f', f9, f8]
      congr 1
      · rw [← a5 r (n1 + c) (by omega) (by omega)]
        have : entry ν8 A r (n1 + c) = entry ν5 A r (n1 + c) := by
          unfold entry
          rw [o8 _ (nT _ _ hr (by omega)), o7 _ (nB _ _ _ _ _ _ (by omega) (by omega) hr (by omega) (by omega)),
            o6 _ (nB _ _ _ _ _ _ (by omega) (by omega) hr (by omega) (by omega))]
        rw [← this]
        simp [entry, MatV.sub]
      · refine Finset.sum_congr rfl fun l hl => ?_
        have hl := mem_range.1 hl
        rw [← t7 l c hl hc]
        congr 1
        · simp only [opF]
          rw [houseVec_tri]
          refine triF_congr' (n := n1) (fun i j hi hj => ?_) h1 hl
          have : entry ν7 A i j = entry ν5 A i j := by
            unfold entry
            rw [o7 _ (nB _ _ _ _ _ _ (by omega) (by omega) (by omega) (by omega) (by omega)),
              o6 _ (nB _ _ _ _ _ _ (by omega) (by omega) (by omega) (by omega) (by omega))]
          rw [← a5 i j (by omega) (by omega), ← this]
          simp [entry, MatV.sub]
        · simp [entry, MatV.sub]
    · by_cases h2 : r < n1 + n2
      · obtain ⟨s, rfl⟩ : ∃ s, r = n1 + s := ⟨r - n1, by omega⟩
        have f6 := e6 s c (by simp [MatV.sub]; omega) (by simp [MatV.sub]; omega)
        have : entry ν9 A (n1 + s) (n1 + c) = entry ν6 A (n1 + s) (n1 + c) := by
          unfold entry
          rw [o9 _ (nB _ _ _ _ _ _ (by omega) (by omega) hr (by omega) (by omega)), o8 _ (nT _ _ hr (by omega)),
            o7 _ (nB _ _ _ _ _ _ (by omega) (by omega) hr (by omega) (by omega))]
        rw [this, show entry ν6 A (n1 + s) (n1 + c) = entry ν6 (A.sub n1 (n1 + n2) n1 (n1 + n2)) s c from rfl, f6]
        simp only [Coef.toVal, one_mul, opF, neg_mul]
        rw [neg_add_eq_sub]
        congr 1
        · exact a5 (n1 + s) (n1 + c) (by omega) (by omega)
        · refine Finset.sum_congr rfl fun l hl => ?_
          have hl := mem_range.1 hl
          rw [houseVec_low (by omega), ← a5 (n1 + s) l (by omega) (by omega)]
          simp [entry, MatV.sub]
      · obtain ⟨s, rfl⟩ : ∃ s, r = n1 + n2 + s := ⟨r - (n1 + n2), by omega⟩
        have f7 := e7 s c (by simp [MatV.sub]; omega) (by simp [MatV.sub]; omega)
        have : entry ν9 A (n1 + n2 + s) (n1 + c) = entry ν7 A (n1 + n2 + s) (n1 + c) := by
          unfold entry
          rw [o9 _ (nB _ _ _ _ _ _ (by omega) (by omega) hr (by omega) (by omega)), o8 _ (nT _ _ hr (by omega))]
        rw [this, show entry ν7 A (n1 + n2 + s) (n1 + c) = entry ν7 (A.sub (n1 + n2) A.m n1 (n1 + n2)) s c from rfl, f7]
        simp only [Coef.toVal, one_mul, opF, neg_mul]
        have a6 : ∀ c, c < A.n → entry ν6 A (n1 + n2 + s) c = entry ν A (n1 + n2 + s) c := fun c hc => by
          rw [← a5 _ _ hr hc]
          exact o6 _ (nB _ _ _ _ _ _ (by omega) (by omega) hr hc (by omega))
        rw [neg_add_eq_sub]
        congr 1
        · exact a6 (n1 + c) (by omega)
        · refine Finset.sum_congr rfl fun l hl => ?_
          have hl := mem_range.1 hl
          rw [houseVec_low (by omega), ← a6 l (by omega), ← t6 l c hl hc]
          simp [entry, MatV.sub]
  refine ⟨fun l h1 h2 => ?_, ?_⟩
  · have q : ∀ a b, b ≤ A.m → ¬ (A.sub a b n1 (n1 + n2)).Owns l := by
      rintro a b hb ⟨i, j, hi, hj, e⟩
      simp only [MatV.sub] at hi hj e
      exact h1 ⟨a + i, j, by simp [MatV.sub]; omega, by simp [MatV.sub]; omega, by simpa [MatV.sub] using e⟩
    rw [o9 _ (q _ _ (by omega)), o8 _ h2, o7 _ (q _ _ (le_refl _)), o6 _ (q _ _ hm), o5 _ h2, o4 _ h2, o3 _ h2, o2 _ h2, o1 _ h2]
  · unfold blkH
    rw [mat_conjTranspose, mat_mul, mat_ext_iff]
    intro r c hr hc
    simp only [sh, Nat.zero_add, blkF, duplo, if_true]
    rw [fin r c hr hc]
    have e : ∀ s, star ((if s = r then (1 : 𝕜) else 0) - ∑ a ∈ range n1, ∑ b ∈ range n1,
        houseVec .Forward .Columnwise A.m n1 (entry ν A) a s * triF .Upper .NonUnit (entry ν Tm) a b *
          star (houseVec .Forward .Columnwise A.m n1 (entry ν A) b r)) * entry ν A s (n1 + c) =
        (if s = r then entry ν A s (n1 + c) else 0) - ∑ b ∈ range n1, ∑ a ∈ range n1, houseVec .Forward .Columnwise A.m n1 (entry ν A) b r *
          (star (triF .Upper .NonUnit (entry ν Tm) a b) * (star (houseVec .Forward .Columnwise A.m n1 (entry ν A) a s) * entry ν A s (n1 + c))) := by
      intro s
      rw [star_sub, sub_mul]
      congr 1
      · split <;> simp
      · simp only [star_sum, Finset.sum_mul]
        rw [Finset.sum_comm]
        refine Finset.sum_congr rfl fun a _ => Finset.sum_congr rfl fun b _ => ?_
        simp only [star_mul', star_star]
        ring
    simp only [e]
    rw [Finset.sum_sub_distrib, Finset.sum_ite_eq' , if_pos (mem_range.2 hr)]
    congr 1
    rw [Finset.sum_comm]
    refine Finset.sum_congr rfl fun l hl => ?_
    rw [w5 l c (mem_range.1 hl) hc, Finset.mul_sum, Finset.sum_comm]
    refine Finset.sum_congr rfl fun b _ => ?_
    rw [Finset.mul_sum, Finset.mul_sum]

set_option maxHeartbeats 1000000 in
theorem wp_geqrt3Last {A Tm : MatV L} {n1 n2 : Nat} (hT : Tm.Inj) (hAT : A.Disj Tm) (hm : n1 + n2 ≤ A.m) (hn : A.n = n1 + n2)
    (hTm : n1 + n2 ≤ Tm.m) (hTn : n1 + n2 ≤ Tm.n) (k : Nat) (ν : Store L 𝕜) :
    wp (geqrt3Last (A.sub n1 (n1 + n2) 0 n1) (A.sub n1 (n1 + n2) n1 (n1 + n2))
      (A.sub (n1 + n2) A.m 0 n1) (A.sub (n1 + n2) A.m n1 (n1 + n2)) (Tm.sub 0 n1 0 n1) (Tm.sub 0 n1 n1 (n1 + n2))
      (Tm.sub n1 (n1 + n2) n1 (n1 + n2))) ν
      (fun _ ν' => Only (Tm.sub 0 n1 n1 (n1 + n2)) ν ν' ∧
        ∀ a c, a < n1 → c < n2 → entry ν' Tm a (n1 + c) = -∑ b ∈ range n1, triF .Upper .NonUnit (entry ν Tm) a b *
          ∑ d ∈ range n2, gramF A.m (houseVec .Forward .Columnwise A.m k (entry ν A)) b (n1 + d) *
            triF .Upper .NonUnit (sh n1 n1 (entry ν Tm)) d c) := by
  unfold geqrt3Last
  simp only [wp_bind]
  have dAT : ∀ a b c d e f g h, b ≤ A.m → d ≤ A.n → f ≤ Tm.m → h ≤ Tm.n → (A.sub a b c d).Disj (Tm.sub e f g h) := by
    intro a b c d e f g h h1 h2 h3 h4
    exact (hAT.sub_left (by omega) (by omega)).sub_right (by omega) (by omega)
  have iT : (Tm.sub 0 n1 n1 (n1 + n2)).Inj := hT.sub (by omega) (by omega)
  have dTT : (Tm.sub 0 n1 0 n1).Disj (Tm.sub 0 n1 n1 (n1 + n2)) := hT.disj_sub (by omega) (by omega) (by omega) (by omega) (by omega)
  have dTT2 : (Tm.sub n1 (n1 + n2) n1 (n1 + n2)).Disj (Tm.sub 0 n1 n1 (n1 + n2)) := hT.disj_sub (by omega) (by omega) (by omega) (by omega) (by omega)
  refine wp_conseq (wp_conjInto (by simp [MatV.sub]) (by simp [MatV.sub]) iT (dAT _ _ _ _ _ _ _ _ (by omega) (by omega) (by omega) (by omega)) ν) fun _ ν1 ⟨o1, e1⟩ => ?_
  refine wp_conseq (wp_trmmR (diag := .Unit) ⟨Or.inr rfl, Or.inr rfl, by decide, by simp [MatV.sub], by simp [MatV.sub], iT,
    dAT _ _ _ _ _ _ _ _ (by omega) (by omega) (by omega) (by omega)⟩) fun _ ν2 ⟨o2, e2⟩ => ?_
  refine wp_conseq (wp_gemm_e (m := n1) (n := n2) (k := A.m - (n1 + n2)) ⟨by decide, by decide, by simp [MatV.sub], by simp [MatV.sub], by simp [MatV.sub], by simp [MatV.sub], by simp [MatV.sub], by simp [MatV.sub], iT,
    dAT _ _ _ _ _ _ _ _ (by omega) (by omega) (by omega) (by omega), dAT _ _ _ _ _ _ _ _ (by omega) (by omega) (by omega) (by omega)⟩) fun _ ν3 ⟨o3, e3⟩ => ?_
  refine wp_conseq (wp_trmmL (diag := .NonUnit) ⟨Or.inl rfl, Or.inl rfl, by decide, by simp [MatV.sub], by simp [MatV.sub], iT, dTT⟩) fun _ ν4 ⟨o4, e4⟩ => ?_
  refine wp_conseq (wp_trmmR (diag := .NonUnit) ⟨Or.inr rfl, Or.inl rfl, by decide, by simp [MatV.sub], by simp [MatV.sub], iT, dTT2⟩) fun _ ν5 ⟨o5, e5⟩ => ?_
  have g1 : (Tm.sub 0 n1 n1 (n1 + n2)).m = n1 := by simp [MatV.sub]
  have g2 : (Tm.sub 0 n1 n1 (n1 + n2)).n = n2 := by simp [MatV.sub]
  rw [g1, g2] at e1 e3
  rw [g1, g2] at e2 e4 e5
  have nT : ∀ r c, r < A.m → c < A.n → ¬ (Tm.sub 0 n1 n1 (n1 + n2)).Owns (A.cell r c) := fun r c hr hc ho =>
    hAT r c hr hc (ho.sub (by omega) (by omega))
  have a1 : ∀ r c, r < A.m → c < A.n → entry ν1 A r c = entry ν A r c := fun r c hr hc => o1 _ (nT r c hr hc)
  have a2 : ∀ r c, r < A.m → c < A.n → entry ν2 A r c = entry ν A r c := fun r c hr hc => (o2 _ (nT r c hr hc)).trans (a1 r c hr hc)
  have o34 : Only (Tm.sub 0 n1 n1 (n1 + n2)) ν ν3 := o1.trans (o2.trans o3)
  refine ⟨o34.trans (o4.trans o5), fun a c ha hc => ?_⟩
  have v3 : ∀ b d, b < n1 → d < n2 → entry ν3 (Tm.sub 0 n1 n1 (n1 + n2)) b d =
      gramF A.m (houseVec .Forward .Columnwise A.m k (entry ν A)) b (n1 + d) := by
    intro b d hb hd
    rw [e3 b d hb hd, e2 b d hb hd, gram_cross hm hb, if_pos hd]
    simp only [Coef.toVal, one_mul, opF]
    rw [add_comm]
    congr 1
    · refine Finset.sum_congr rfl fun l hl => ?_
      have hl := mem_range.1 hl
      rw [e1 b l hb hl]
      congr 1
      · simp [entry, MatV.sub]
      · refine triF_congr' (n := n2) (fun i j hi hj => ?_) hl hd
        exact a1 (n1 + i) (n1 + j) (by omega) (by omega)
    · refine Finset.sum_congr rfl fun l hl => ?_
      have hl := mem_range.1 hl
      rw [← a2 (n1 + n2 + l) b (by omega) (by omega), ← a2 (n1 + n2 + l) (n1 + d) (by omega) (by omega)]
      simp [entry, MatV.sub]
  have v4 : ∀ d, d < n2 → entry ν4 (Tm.sub 0 n1 n1 (n1 + n2)) a d = -∑ b ∈ range n1, triF .Upper .NonUnit (entry ν Tm) a b *
      gramF A.m (houseVec .Forward .Columnwise A.m k (entry ν A)) b (n1 + d) := by
    intro d hd
    rw [e4 a d ha hd, neg_one_mul]
    congr 1
    refine Finset.sum_congr rfl fun b hb => ?_
    have hb := mem_range.1 hb
    rw [v3 b d hb hd]
    refine congrArg (· * _) ?_
    show triF .Upper .NonUnit _ a b = _
    refine triF_congr' (n := n1) (fun i j hi hj => ?_) ha hb
    have := o34 _ (dTT i j (by simp [MatV.sub]; omega) (by simp [MatV.sub]; omega))
    simpa [entry, MatV.sub] using this
  have h5 := e5 a c ha hc
  rw [one_mul] at h5
  rw [show entry ν5 Tm a (n1 + c) = entry ν5 (Tm.sub 0 n1 n1 (n1 + n2)) a c by simp [entry, MatV.sub], h5]
  have s : ∀ d, d ∈ range n2 → entry ν4 (Tm.sub 0 n1 n1 (n1 + n2)) a d * opF .NoTrans (triF .Upper .NonUnit (entry ν4 (Tm.sub n1 (n1 + n2) n1 (n1 + n2)))) d c =
      -∑ b ∈ range n1, triF .Upper .NonUnit (entry ν Tm) a b * (gramF A.m (houseVec .Forward .Columnwise A.m k (entry ν A)) b (n1 + d) *
        triF .Upper .NonUnit (sh n1 n1 (entry ν Tm)) d c) := by
    intro d hd
    have hd := mem_range.1 hd
    rw [v4 d hd, neg_mul, Finset.sum_mul]
    congr 1
    refine Finset.sum_congr rfl fun b _ => ?_
    have : opF .NoTrans (triF .Upper .NonUnit (entry ν4 (Tm.sub n1 (n1 + n2) n1 (n1 + n2)))) d c = triF .Upper .NonUnit (sh n1 n1 (entry ν Tm)) d c := by
      simp only [opF]
      refine triF_congr' (n := n2) (fun i j hi hj => ?_) hd hc
      have q : Only (Tm.sub 0 n1 n1 (n1 + n2)) ν ν4 := o34.trans o4
      exact q _ (dTT2 i j (by simp [MatV.sub]; omega) (by simp [MatV.sub]; omega))
    rw [this]
    ring
  rw [Finset.sum_congr rfl s, Finset.sum_neg_distrib, Finset.sum_comm]
  congr 1
  refine Finset.sum_congr rfl fun b _ => ?_
  rw [Finset.mul_sum]

theorem trel_congr {k : Nat} {g g' : Nat → Nat → 𝕜} {t t' : Nat → 𝕜} {Tf Tf' : Nat → Nat → 𝕜}
    (h : TRel .Forward k g t Tf) (hg : ∀ b i, b < k → i < k → g' b i = g b i) (ht : ∀ i, i < k → t' i = t i)
    (hT : ∀ a b, a < k → b < k → Tf' a b = Tf a b) : TRel .Forward k g' t' Tf' := by
  have bs : ∀ k i, bset .Forward k i = range i := fun k i => by simp [bset]
  refine ⟨fun i hi => ?_, fun i b hi hb => ?_, fun i a hi ha => ?_⟩
  · rw [hT i i hi hi, ht i hi, h.diag i hi]
  · have := hb
    rw [bs, mem_range] at hb
    rw [hT i b hi (by omega), h.zero i b hi this]
  · have h1 := h.off i a hi ha
    rw [bs, mem_range] at ha
    rw [hT a i (by omega) hi, h1, ht i hi]
    congr 1
    refine Finset.sum_congr rfl fun b hb => ?_
    rw [bs, mem_range] at hb
    rw [hT a b (by omega) (by omega), hg b i (by omega) hi]

theorem gram_congr {q k k' : Nat} {V W : Nat → Nat → 𝕜} {b i : Nat} (hb : ∀ r, r < q → V r b = W r b) (hi : ∀ r, r < q → V r i = W r i) :
    gramF q (houseVec .Forward .Columnwise q k V) b i = gramF q (houseVec .Forward .Columnwise q k' W) b i := by
  unfold gramF houseVec hpiv
  refine Finset.sum_congr rfl fun s hs => ?_
  rw [hb s (mem_range.1 hs), hi s (mem_range.1 hs)]
  simp

theorem entry_sub00 (ν : Store L 𝕜) (A : MatV L) (b d : Nat) : entry ν (A.sub 0 b 0 d) = entry ν A := by
  funext r c; simp [entry, MatV.sub]

theorem LG_col (ν : Store L 𝕜) (A : MatV L) : LG .Columnwise ν A = entry ν A := by
  funext r c; simp [LG, cj]

/-- What a call of geqrt3 does. -/
structure Q3 (A Tm : MatV L) (work : VecV L) (isw : Bool) (μ ν : Store L 𝕜) : Prop where
  inv : QRInv .Forward A.m A.n A.n (entry μ A) A.n (entry ν A) (fun i => entry ν Tm i i)
  rel : isw = false → TRel .Forward A.n (gramF A.m (houseVec .Forward .Columnwise A.m A.n (entry ν A)))
    (fun i => entry ν Tm i i) (triF .Upper .NonUnit (entry ν Tm))
  frame : ∀ l, ¬ A.Owns l → (∀ a b, a ≤ b → b < A.n → Tm.cell a b ≠ l) → ¬ work.Owns l → ν l = μ l

theorem gqt_sub {A Tm : MatV L} {work : VecV L} (ok : GqtOK A Tm work) {a b c d e f g h : Nat} (h1 : b ≤ A.m) (h2 : d ≤ A.n)
    (h3 : f ≤ Tm.m) (h4 : h ≤ Tm.n) : GqtOK (A.sub a b c d) (Tm.sub e f g h) work :=
  ⟨ok.inj.sub (by omega) (by omega), ok.tinj.sub (by omega) (by omega), ok.winj,
    (ok.AT.sub_left (by omega) (by omega)).sub_right (by omega) (by omega), ok.Aw.rows (by omega) (by omega), ok.Tw.rows (by omega) (by omega)⟩

theorem Q3.one (hl : HhLaws 𝕜 p) {A Tm : MatV L} {work : VecV L} (ok : GqtOK A Tm work) (isw : Bool) (hn : A.n = 1) (hm : 1 ≤ A.m)
    (hTm : Tm.m = A.n) (hTn : Tm.n = A.n) {μ : Store L 𝕜} (hb : ColBound p .Columnwise μ A) :
    wp (larfgV (hhOps p) .Forward .Columnwise (A.colv 0 A.m 0)) μ (fun t ν1 => wp (Tm.set 0 0 t) ν1 (fun _ ν => Q3 A Tm work isw μ ν)) := by
  have hdn : Tm.tdiag.n = 1 := by simp [MatV.tdiag]; omega
  have qok : QrOK A Tm.tdiag work := by
    refine ⟨ok.inj, ?_, ok.winj, ?_, ok.Aw, ?_⟩
    · intro i i' hi hi' _; omega
    · rintro r c hr hc ⟨i, hi, e⟩
      exact ok.AT r c hr hc ⟨i, i, by omega, by omega, e⟩
    · intro i hi ho
      exact ok.Tw i i (by omega) (by omega) ho
  have par : QrPar .Forward A.m A.n 0 0 0 A.m 0 (0 + 1) A.n := ⟨rfl, rfl, rfl, rfl, rfl, rfl⟩
  have st : QrState .Forward .Columnwise A Tm.tdiag work 1 μ 0 μ := QrState.start
  have := wp_qrGen (dir := .Forward) (store := .Columnwise) hl qok (r0 := 0) (r1 := A.m) (c := 0) (P := 0) (i := 0) (by omega) (le_refl _) (by omega) (by simp [pidx]) (by omega)
    (st.tbig hl (by omega) (by omega) (by omega) par hb) (Q := fun ν => Q3 A Tm work isw μ ν) ?_
  · refine wp_conseq this fun t ν1 h => ?_
    rw [wp_vset] at h
    rw [wp_set]
    exact ⟨⟨by omega, by omega⟩, h.2⟩
  · intro t ν2 mid
    have nx := st.next qok (by omega) (by omega) (by omega) (by omega) par mid
        (mid.cs.extend (c0 := 0 + 1) (c1 := A.n) (le_refl _) (by omega) (le_refl _) (by omega) (by omega) (fun _ _ _ _ _ => rfl)
          (fun i j hi hj => by omega)) (fun _ _ _ => rfl)
    have inv := nx.inv
    rw [LG_col, LG_col] at inv
    refine ⟨?_, fun _ => ?_, fun l h1 h2 h3 => nx.frame l h1 ?_ h3⟩
    · rw [hn] at inv ⊢
      exact inv
    · rw [hn]
      refine ⟨fun i hi => by simp [triF], fun i b hi hb => ?_, fun i a hi ha => ?_⟩
      · simp [bset] at hb; omega
      · simp [bset] at ha; omega
    · rintro ⟨i, hi, e⟩
      simp only [VecV.sub, MatV.tdiag] at hi e
      exact h2 _ _ (le_refl _) (by omega) e

theorem Q3.leaf (hl : HhLaws 𝕜 p) (hreal : (hhOps (𝕜 := 𝕜) p).isReal = true → ∀ z : 𝕜, star z = z) {A Tm : MatV L} {work : VecV L}
    (ok : GqtOK A Tm work) (isw : Bool) {nb : Nat} (hnb : 0 < nb) (hmn : A.n ≤ A.m)
    (hTm : Tm.m = A.n) (hTn : Tm.n = A.n) (hw : (geqrfWorksize A nb).size ≤ work.n) {μ : Store L 𝕜} (hb : ColBound p .Columnwise μ A) :
    wp (geqrf (hhOps p) nb A Tm.tdiag work) μ (fun _ ν1 => wp (larft .Forward .Columnwise A Tm.tdiag Tm) ν1 (fun _ ν => Q3 A Tm work isw μ ν)) := by
  have hdn : Tm.tdiag.n = A.n := by simp [MatV.tdiag]; omega
  have qok : QrOK A Tm.tdiag work := by
    refine ⟨ok.inj, ?_, ok.winj, ?_, ok.Aw, ?_⟩
    · intro i i' hi hi' e
      exact (ok.tinj _ _ _ _ (by omega) (by omega) (by omega) (by omega) e).1
    · rintro r c hr hc ⟨i, hi, e⟩
      exact ok.AT r c hr hc ⟨i, i, by omega, by omega, e⟩
    · intro i hi ho
      exact ok.Tw i i (by omega) (by omega) ho
  refine wp_conseq (wp_geqrf hl hreal qok hnb (by omega) hw hb) fun _ ν1 ⟨_, h1⟩ => ?_
  rw [show min A.m A.n = A.n by omega] at h1
  have lw : LarftW .Columnwise A Tm.tdiag Tm := by
    refine ⟨ok.tinj, ok.AT, ?_, ?_, ?_, ?_, ?_⟩
    · intro i a b hi ha hb e
      exact ok.tinj _ _ _ _ ha hb (by omega) (by omega) e
    · simp [vcnt]; omega
    · simp [vlen]; omega
    · omega
    · omega
  have h2 := wp_larftW (dir := .Forward) lw ν1
  refine wp_conseq h2 fun _ ν2 ⟨_, h2⟩ => ?_
  rw [hdn, show vlen .Columnwise A = A.m by simp [vlen]] at h2
  have inv := h1.inv
  rw [LG_col, LG_col] at inv
  have eA : ∀ r c, r < A.m → c < A.n → entry ν2 A r c = entry ν1 A r c := fun r c hr hc =>
    h2.frame _ fun a b ha hb _ e => ok.AT r c hr hc ⟨a, b, by omega, by omega, e⟩
  refine ⟨inv.congr (le_refl _) hmn (le_refl _) eA fun i hi => h2.diag i (by omega) hi, fun _ => ?_, fun l g1 g2 g3 => ?_⟩
  · refine trel_congr h2.trel (fun b i hb hi => ?_) (fun i hi => h2.diag i (by omega) hi) (fun a b ha hb => ?_)
    · exact gram_congr (fun r hr => eA r b hr hb) (fun r hr => eA r i hr hi)
    · simp [duplo]
  · rw [h2.frame l fun a b ha hb ht => g2 a b (by simpa [inTri, duplo] using ht) (by omega)]
    refine h1.frame l g1 ?_ g3
    rintro ⟨i, hi, e⟩
    simp only [VecV.sub, MatV.tdiag] at hi e
    exact g2 _ _ (le_refl _) (by omega) e

set_option maxHeartbeats 2000000 in
/-- Left half and update. -/
theorem Q3.half {A Tm : MatV L} {work : VecV L} (ok : GqtOK A Tm work) {n1 n2 : Nat} (hm : n1 + n2 ≤ A.m) (hn : A.n = n1 + n2)
    (hTm : Tm.m = A.n) (hTn : Tm.n = A.n) {μ ν1 ν2 : Store L 𝕜}
    (h1 : Q3 (A.sub 0 A.m 0 n1) (Tm.sub 0 n1 0 n1) work false μ ν1)
    (o2 : ∀ l, ¬ (A.sub 0 A.m n1 (n1 + n2)).Owns l → ¬ (Tm.sub 0 n1 n1 (n1 + n2)).Owns l → ν2 l = ν1 l)
    (e2 : mat A.m n2 (sh 0 n1 (entry ν2 A)) =
          (blkH .Forward .Columnwise A.m n1 (entry ν1 A) (entry ν1 Tm)).conjTranspose * mat A.m n2 (sh 0 n1 (entry ν1 A)))
    : QRInv .Forward A.m A.n A.n (entry μ A) n1 (entry ν2 A) (fun i => entry ν2 Tm i i) := by
  have s1m : (A.sub 0 A.m 0 n1).m = A.m := by simp [MatV.sub]
  have s1n : (A.sub 0 A.m 0 n1).n = n1 := by simp [MatV.sub]
  have s2m : (A.sub n1 A.m n1 (n1 + n2)).m = A.m - n1 := by simp [MatV.sub]
  have s2n : (A.sub n1 A.m n1 (n1 + n2)).n = n2 := by simp [MatV.sub]
  -- cells
  have nB : ∀ a b c d r c', b ≤ A.m → d ≤ A.n → r < A.m → c' < A.n → ¬ (a ≤ r ∧ r < b ∧ c ≤ c' ∧ c' < d) → ¬ (A.sub a b c d).Owns (A.cell r c') := by
    rintro a b c d r c' g1 g2 g3 g4 g5 ⟨i, j, hi, hj, e⟩
    simp only [MatV.sub] at hi hj e
    have := ok.inj _ _ _ _ (by omega) (by omega) g3 g4 e
    omega
  have nT : ∀ a b c d r c', b ≤ Tm.m → d ≤ Tm.n → r < Tm.m → c' < Tm.n → ¬ (a ≤ r ∧ r < b ∧ c ≤ c' ∧ c' < d) → ¬ (Tm.sub a b c d).Owns (Tm.cell r c') := by
    rintro a b c d r c' g1 g2 g3 g4 g5 ⟨i, j, hi, hj, e⟩
    simp only [MatV.sub] at hi hj e
    have := ok.tinj _ _ _ _ (by omega) (by omega) g3 g4 e
    omega
  have nTA : ∀ a b c d r c', b ≤ A.m → d ≤ A.n → r < Tm.m → c' < Tm.n → ¬ (A.sub a b c d).Owns (Tm.cell r c') := by
    rintro a b c d r c' g1 g2 g3 g4 ⟨i, j, hi, hj, e⟩
    simp only [MatV.sub] at hi hj e
    exact ok.AT _ _ (by omega) (by omega) ⟨r, c', g3, g4, e.symm⟩
  have nAT : ∀ a b c d r c', b ≤ Tm.m → d ≤ Tm.n → r < A.m → c' < A.n → ¬ (Tm.sub a b c d).Owns (A.cell r c') := by
    rintro a b c d r c' g1 g2 g3 g4 ⟨i, j, hi, hj, e⟩
    simp only [MatV.sub] at hi hj e
    exact ok.AT _ _ g3 g4 ⟨_, _, by omega, by omega, e⟩
  have cAT : ∀ a b r c, a < Tm.m → b < Tm.n → r < A.m → c < A.n → Tm.cell a b ≠ A.cell r c := fun a b r c g1 g2 g3 g4 e =>
    ok.AT r c g3 g4 ⟨a, b, g1, g2, e⟩
  -- what each phase leaves alone
  have a1 : ∀ r c, r < A.m → n1 ≤ c → c < A.n → entry ν1 A r c = entry μ A r c := by
    intro r c hr hc hc2
    refine h1.frame _ (nB _ _ _ _ _ _ (by omega) (by omega) hr hc2 (by omega)) (fun a b hab hb => ?_) (ok.Aw r c hr hc2)
    rw [s1n] at hb
    simp only [MatV.sub]
    exact cAT _ _ _ _ (by omega) (by omega) hr hc2
  have a2 : ∀ r c, r < A.m → c < n1 → entry ν2 A r c = entry ν1 A r c := fun r c hr hc =>
    o2 _ (nB _ _ _ _ _ _ (by omega) (by omega) hr (by omega) (by omega)) (nAT _ _ _ _ _ _ (by omega) (by omega) hr (by omega))
  have t2 : ∀ r c, r < Tm.m → c < Tm.n → (r < n1 → c < n1) → entry ν2 Tm r c = entry ν1 Tm r c := fun r c hr hc h =>
    o2 _ (nTA _ _ _ _ _ _ (by omega) (by omega) hr hc) (nT _ _ _ _ _ _ (by omega) (by omega) hr hc (by omega))
  have i1 := h1.inv
  have r1 := h1.rel rfl
  rw [s1m, s1n, entry_sub00, entry_sub00, entry_sub00] at i1
  rw [s1m, s1n, entry_sub00, entry_sub00] at r1
  have hP := mat_rel_q (dir := .Forward) (store := .Columnwise) (Tf := entry ν1 Tm) r1
  -- left half
  have inv1 : QRInv .Forward A.m A.n A.n (entry μ A) (0 + n1) (entry ν2 A) (fun i => entry ν2 Tm i i) := by
    refine (QRInv.start .Forward A.m A.n A.n (entry μ A) (fun i => entry ν2 Tm i i)).block (r0 := 0) (q := A.m) (c0 := 0) (t0 := 0) (d0 := n1) (nr := n2)
      (by omega) (by omega) (by omega) (by omega) (by omega) rfl rfl rfl (by simp) ?_ ?_ ?_ ?_
    · rw [sh_zero, sh_zero]
      refine i1.congr (le_refl _) (by omega) (le_refl _) a2 fun i hi => ?_
      simp only [Nat.zero_add]
      exact t2 i i (by omega) (by omega) (by omega)
    · rw [e2, hP]
      congr 1
      · congr 1
        unfold houseP
        congr 1
        refine List.map_congr_left fun i hi => ?_
        have hi := List.mem_range.1 hi
        unfold houseH
        rw [mat_ext_iff]
        intro r c hr hc
        have hq : qidx .Forward n1 i = i := by simp [qidx]
        have hv : ∀ s, s < A.m → houseVec .Forward .Columnwise A.m n1 (entry ν1 A) i s = houseVec .Forward .Columnwise A.m n1 (sh 0 0 (entry ν2 A)) i s := by
          intro s hs
          unfold houseVec
          rw [sh_zero, a2 s i hs hi]
        rw [hq]
        unfold reflF
        rw [hv r hr, hv c hc]
        beta_reduce
        rw [Nat.zero_add, t2 i i (by omega) (by omega) (by omega)]
      · rw [mat_ext_iff]
        intro r c hr hc
        simp only [sh, Nat.zero_add]
        exact a1 r (n1 + c) hr (by omega) (by omega)
    · intro r c hr hc h
      omega
    · intro i hi h; rfl
  simpa using inv1

set_option maxHeartbeats 2000000 in
/-- Left half, update, right half: the QR invariant and the two triangular factors. -/
theorem Q3.join {A Tm : MatV L} {work : VecV L} (ok : GqtOK A Tm work) {n1 n2 : Nat} (hm : n1 + n2 ≤ A.m) (hn : A.n = n1 + n2)
    (hTm : Tm.m = A.n) (hTn : Tm.n = A.n) {μ ν1 ν2 ν3 : Store L 𝕜} {isw : Bool}
    (h1 : Q3 (A.sub 0 A.m 0 n1) (Tm.sub 0 n1 0 n1) work false μ ν1)
    (o2 : ∀ l, ¬ (A.sub 0 A.m n1 (n1 + n2)).Owns l → ¬ (Tm.sub 0 n1 n1 (n1 + n2)).Owns l → ν2 l = ν1 l)
    (e2 : mat A.m n2 (sh 0 n1 (entry ν2 A)) =
          (blkH .Forward .Columnwise A.m n1 (entry ν1 A) (entry ν1 Tm)).conjTranspose * mat A.m n2 (sh 0 n1 (entry ν1 A)))
    (h3 : Q3 (A.sub n1 A.m n1 (n1 + n2)) (Tm.sub n1 (n1 + n2) n1 (n1 + n2)) work isw ν2 ν3) :
    QRInv .Forward A.m A.n A.n (entry μ A) A.n (entry ν3 A) (fun i => entry ν3 Tm i i) ∧
    TRel .Forward n1 (gramF A.m (houseVec .Forward .Columnwise A.m A.n (entry ν3 A))) (fun i => entry ν3 Tm i i) (triF .Upper .NonUnit (entry ν3 Tm)) ∧
    (isw = false → TRel .Forward n2 (fun b i => gramF A.m (houseVec .Forward .Columnwise A.m A.n (entry ν3 A)) (n1 + b) (n1 + i))
      (fun i => entry ν3 Tm (n1 + i) (n1 + i)) (triF .Upper .NonUnit (sh n1 n1 (entry ν3 Tm)))) ∧
    (∀ l, ¬ A.Owns l → (∀ a b, a ≤ b → b < A.n → Tm.cell a b ≠ l) → ¬ work.Owns l → ν3 l = μ l) := by
  have s1m : (A.sub 0 A.m 0 n1).m = A.m := by simp [MatV.sub]
  have s1n : (A.sub 0 A.m 0 n1).n = n1 := by simp [MatV.sub]
  have s2m : (A.sub n1 A.m n1 (n1 + n2)).m = A.m - n1 := by simp [MatV.sub]
  have s2n : (A.sub n1 A.m n1 (n1 + n2)).n = n2 := by simp [MatV.sub]
  -- cells
  have nB : ∀ a b c d r c', b ≤ A.m → d ≤ A.n → r < A.m → c' < A.n → ¬ (a ≤ r ∧ r < b ∧ c ≤ c' ∧ c' < d) → ¬ (A.sub a b c d).Owns (A.cell r c') := by
    rintro a b c d r c' g1 g2 g3 g4 g5 ⟨i, j, hi, hj, e⟩
    simp only [MatV.sub] at hi hj e
    have := ok.inj _ _ _ _ (by omega) (by omega) g3 g4 e
    omega
  have nT : ∀ a b c d r c', b ≤ Tm.m → d ≤ Tm.n → r < Tm.m → c' < Tm.n → ¬ (a ≤ r ∧ r < b ∧ c ≤ c' ∧ c' < d) → ¬ (Tm.sub a b c d).Owns (Tm.cell r c') := by
    rintro a b c d r c' g1 g2 g3 g4 g5 ⟨i, j, hi, hj, e⟩
    simp only [MatV.sub] at hi hj e
    have := ok.tinj _ _ _ _ (by omega) (by omega) g3 g4 e
    omega
  have nTA : ∀ a b c d r c', b ≤ A.m → d ≤ A.n → r < Tm.m → c' < Tm.n → ¬ (A.sub a b c d).Owns (Tm.cell r c') := by
    rintro a b c d r c' g1 g2 g3 g4 ⟨i, j, hi, hj, e⟩
    simp only [MatV.sub] at hi hj e
    exact ok.AT _ _ (by omega) (by omega) ⟨r, c', g3, g4, e.symm⟩
  have nAT : ∀ a b c d r c', b ≤ Tm.m → d ≤ Tm.n → r < A.m → c' < A.n → ¬ (Tm.sub a b c d).Owns (A.cell r c') := by
    rintro a b c d r c' g1 g2 g3 g4 ⟨i, j, hi, hj, e⟩
    simp only [MatV.sub] at hi hj e
    exact ok.AT _ _ g3 g4 ⟨_, _, by omega, by omega, e⟩
  have cAT : ∀ a b r c, a < Tm.m → b < Tm.n → r < A.m → c < A.n → Tm.cell a b ≠ A.cell r c := fun a b r c g1 g2 g3 g4 e =>
    ok.AT r c g3 g4 ⟨a, b, g1, g2, e⟩
  -- what each phase leaves alone
  have a1 : ∀ r c, r < A.m → n1 ≤ c → c < A.n → entry ν1 A r c = entry μ A r c := by
    intro r c hr hc hc2
    refine h1.frame _ (nB _ _ _ _ _ _ (by omega) (by omega) hr hc2 (by omega)) (fun a b hab hb => ?_) (ok.Aw r c hr hc2)
    rw [s1n] at hb
    simp only [MatV.sub]
    exact cAT _ _ _ _ (by omega) (by omega) hr hc2
  have a2 : ∀ r c, r < A.m → c < n1 → entry ν2 A r c = entry ν1 A r c := fun r c hr hc =>
    o2 _ (nB _ _ _ _ _ _ (by omega) (by omega) hr (by omega) (by omega)) (nAT _ _ _ _ _ _ (by omega) (by omega) hr (by omega))
  have a3 : ∀ r c, r < A.m → c < A.n → r < n1 ∨ c < n1 → entry ν3 A r c = entry ν2 A r c := by
    intro r c hr hc h
    refine h3.frame _ (nB _ _ _ _ _ _ (by omega) (by omega) hr hc (by omega)) (fun a b hab hb => ?_) (ok.Aw r c hr hc)
    rw [s2n] at hb
    simp only [MatV.sub]
    exact cAT _ _ _ _ (by omega) (by omega) hr hc
  have t2 : ∀ r c, r < Tm.m → c < Tm.n → (r < n1 → c < n1) → entry ν2 Tm r c = entry ν1 Tm r c := fun r c hr hc h =>
    o2 _ (nTA _ _ _ _ _ _ (by omega) (by omega) hr hc) (nT _ _ _ _ _ _ (by omega) (by omega) hr hc (by omega))
  have t3 : ∀ r c, r < Tm.m → c < Tm.n → r < n1 ∨ c < n1 → entry ν3 Tm r c = entry ν2 Tm r c := by
    intro r c hr hc h
    refine h3.frame _ (nTA _ _ _ _ _ _ (by omega) (by omega) hr hc) (fun a b hab hb e => ?_) (ok.Tw r c hr hc)
    rw [s2n] at hb
    simp only [MatV.sub] at e
    have := ok.tinj _ _ _ _ (by omega) (by omega) hr hc e
    omega
  have i1 := h1.inv
  have r1 := h1.rel rfl
  rw [s1m, s1n, entry_sub00, entry_sub00, entry_sub00] at i1
  rw [s1m, s1n, entry_sub00, entry_sub00] at r1
  have i3 := h3.inv
  rw [s2m, s2n] at i3
  have hP := mat_rel_q (dir := .Forward) (store := .Columnwise) (Tf := entry ν1 Tm) r1
  have inv1 := Q3.half ok hm hn hTm hTn h1 o2 e2
  have inv2 : QRInv .Forward A.m A.n A.n (entry μ A) (n1 + n2) (entry ν3 A) (fun i => entry ν3 Tm i i) := by
    refine inv1.block (r0 := n1) (q := A.m - n1) (c0 := n1) (t0 := n1) (d0 := n1 + n2) (nr := 0)
      (by omega) (by omega) (by omega) rfl (by omega) rfl rfl rfl (by simp) ?_ ?_ ?_ ?_
    · exact i3
    · ext r c
      exact c.elim0
    · intro r c hr hc h
      exact a3 r c hr hc (by omega)
    · intro i hi h
      exact t3 i i (by omega) (by omega) (by omega)
  rw [← hn] at inv2
  refine ⟨inv2, ?_, fun hs => ?_, fun l g1 g2 g3 => ?_⟩
  · refine trel_congr r1 (fun b i hb hi => ?_) (fun i hi => ?_) (fun a b ha hb => ?_)
    · exact gram_congr (fun r hr => (a3 r b hr (by omega) (by omega)).trans (a2 r b hr hb)) (fun r hr => (a3 r i hr (by omega) (by omega)).trans (a2 r i hr hi))
    · exact (t3 i i (by omega) (by omega) (by omega)).trans (t2 i i (by omega) (by omega) (by omega))
    · exact triF_congr' (n := n1) (fun i j hi hj => (t3 i j (by omega) (by omega) (by omega)).trans (t2 i j (by omega) (by omega) (by omega))) ha hb
  · have r3 := h3.rel hs
    rw [s2m, s2n] at r3
    refine trel_congr r3 (fun b i hb hi => ?_) (fun i hi => rfl) (fun a b ha hb => rfl)
    rw [gram_shift (k' := n2) (by omega)]
    rfl
  · have p3 : ν3 l = ν2 l := by
      refine h3.frame l (fun ho => g1 (ho.sub (by omega) (by omega))) (fun a b hab hb => ?_) g3
      rw [s2n] at hb
      exact g2 (n1 + a) (n1 + b) (by omega) (by omega)
    have p2 : ν2 l = ν1 l := by
      refine o2 l (fun ho => g1 (ho.sub (by omega) (by omega))) ?_
      rintro ⟨i, j, hi, hj, e⟩
      simp only [MatV.sub] at hi hj e
      exact g2 (0 + i) (n1 + j) (by omega) (by omega) e
    rw [p3, p2]
    refine h1.frame l (fun ho => g1 (ho.sub (by omega) (by omega))) (fun a b hab hb => ?_) g3
    rw [s1n] at hb
    simp only [MatV.sub, Nat.zero_add]
    exact g2 a b hab (by omega)

set_option maxHeartbeats 2000000 in
theorem wp_geqrt3F (hl : HhLaws 𝕜 p) (hreal : (hhOps (𝕜 := 𝕜) p).isReal = true → ∀ z : 𝕜, star z = z) {nb nx : Nat} (hnb : 0 < nb)
    {work : VecV L} (fuel : Nat) : ∀ (isw : Bool) (A Tm : MatV L) (μ : Store L 𝕜), A.n < fuel → GqtOK A Tm work → A.n ≤ A.m →
      Tm.m = A.n → Tm.n = A.n → (∀ B : MatV L, B.m ≤ A.m → B.n ≤ A.n → (geqrfWorksize B nb).size ≤ work.n) →
      ColBound p .Columnwise μ A → wp (geqrt3F (hhOps p) nb nx work fuel isw A Tm) μ (fun _ ν => Q3 A Tm work isw μ ν) := by
  induction fuel with
  | zero => intro _ A _ _ h; omega
  | succ fuel ih =>
    intro isw A Tm μ hf ok hmn hTm hTn hw hb
    unfold geqrt3F
    simp only []
    rw [if_neg (by omega)]
    by_cases c1 : A.n = 1
    · rw [if_pos c1]
      simp only [wp_bind]
      refine wp_sliceCol (by omega) (by omega) (by omega) ?_
      exact Q3.one hl ok isw c1 (by omega) hTm hTn hb
    rw [if_neg c1]
    by_cases c2 : A.n ≤ nx
    · rw [if_pos c2]
      simp only [wp_bind, wp_pure]
      exact Q3.leaf hl hreal ok isw hnb hmn hTm hTn (hw A (le_refl _) (le_refl _)) hb
    rw [if_neg c2]
    by_cases c0 : A.n = 0
    · omega
    obtain ⟨n1, hn1⟩ : ∃ n1, n1 = A.n / 2 := ⟨_, rfl⟩
    obtain ⟨n2, hn2⟩ : ∃ n2, A.n = n1 + n2 := ⟨A.n - n1, by omega⟩
    rw [← hn1]
    simp only [wp_bind]
    refine wp_slice (by omega) (by omega) (by omega) (by omega) ?_
    refine wp_slice (by omega) (by omega) (by omega) (by omega) ?_
    refine wp_slice (by omega) (by omega) (by omega) (by omega) ?_
    refine wp_slice (by omega) (by omega) (by omega) (by omega) ?_
    refine wp_slice (by omega) (by omega) (by omega) (by omega) ?_
    refine wp_slice (by omega) (by omega) (by omega) (by omega) ?_
    refine wp_slice (by omega) (by omega) (by omega) (by omega) ?_
    refine wp_slice (by omega) (by omega) (by omega) (by omega) ?_
    refine wp_slice (by omega) (by omega) (by omega) (by omega) ?_
    refine wp_slice (by omega) (by omega) (by omega) (by omega) ?_
    refine wp_slice (by omega) (by omega) (by omega) (by omega) ?_
    rw [hn2]
    have cb1 : ColBound p .Columnwise μ (A.sub 0 A.m 0 n1) := by
      intro c hc
      simp only [MatV.sub] at hc
      have := hb c (by omega)
      rw [LG_col] at this ⊢
      simpa [entry, MatV.sub] using this
    refine wp_conseq (ih false (A.sub 0 A.m 0 n1) (Tm.sub 0 n1 0 n1) μ (by simp [MatV.sub]; omega) (gqt_sub ok (by omega) (by omega) (by omega) (by omega))
      (by simp [MatV.sub]; omega) (by simp [MatV.sub]) (by simp [MatV.sub])
      (fun B h1 h2 => hw B (by simpa [MatV.sub] using h1) (by simp [MatV.sub] at h2; omega)) cb1) fun _ ν1 h1 => ?_
    refine wp_conseq (wp_geqrt3Mid ok.inj ok.tinj ok.AT (by omega) hn2 (by omega) (by omega) ν1) fun _ ν2 ⟨o2, e2⟩ => ?_
    have inv1 := Q3.half ok (by omega) hn2 hTm hTn h1 o2 e2
    have cb2 : ColBound p .Columnwise ν2 (A.sub n1 A.m n1 (n1 + n2)) := by
      have := QRInv.panel (store := .Columnwise) (B := A) (p := p) (k := A.n) (s := n1) (ib := n2) (μ := μ) (ν := ν2) (r0 := n1) (q := A.m - n1) (c0 := n1) (t0 := n1) (d0 := n1 + n2) (nr := 0)
        (by rw [LG_col, LG_col]; exact inv1) (by omega) (by omega) (by omega) ⟨rfl, by omega, rfl, rfl, rfl, rfl⟩ hb
      rwa [show n1 + (A.m - n1) = A.m by omega] at this
    refine wp_conseq (ih isw (A.sub n1 A.m n1 (n1 + n2)) (Tm.sub n1 (n1 + n2) n1 (n1 + n2)) ν2 (by simp [MatV.sub]; omega) (gqt_sub ok (by omega) (by omega) (by omega) (by omega))
      (by simp [MatV.sub]; omega) (by simp [MatV.sub]) (by simp [MatV.sub])
      (fun B h1 h2 => hw B (by simp [MatV.sub] at h1; omega) (by simp [MatV.sub] at h2; omega)) cb2) fun _ ν3 h3 => ?_
    obtain ⟨i3, r1, r2, fr⟩ := Q3.join ok (by omega) hn2 hTm hTn h1 o2 e2 h3
    cases isw with
    | true =>
      simp only [if_true, wp_pure]
      exact ⟨i3, fun h => absurd h (by decide), fr⟩
    | false =>
      simp only [Bool.false_eq_true, if_false]
      refine wp_conseq (wp_geqrt3Last ok.tinj ok.AT (by omega) hn2 (by omega) (by omega) A.n ν3) fun _ ν4 ⟨o4, e4⟩ => ?_
      have a4 : ∀ r c, r < A.m → c < A.n → entry ν4 A r c = entry ν3 A r c := fun r c hr hc =>
        o4 _ fun ho => ok.AT r c hr hc (ho.sub (by omega) (by omega))
      have t4 : ∀ r c, r < Tm.m → c < Tm.n → ¬ (r < n1 ∧ n1 ≤ c) → entry ν4 Tm r c = entry ν3 Tm r c := by
        intro r c hr hc h
        refine o4 _ ?_
        rintro ⟨i, j, hi, hj, e⟩
        simp only [MatV.sub] at hi hj e
        have := ok.tinj _ _ _ _ (by omega) (by omega) hr hc e
        omega
      refine ⟨i3.congr (le_refl _) hmn (le_refl _) a4 (fun i hi => t4 i i (by omega) (by omega) (by omega)), fun _ => ?_, fun l g1 g2 g3 => ?_⟩
      · have gc : ∀ b i, b < A.n → i < A.n → gramF A.m (houseVec .Forward .Columnwise A.m A.n (entry ν4 A)) b i =
            gramF A.m (houseVec .Forward .Columnwise A.m A.n (entry ν3 A)) b i := fun b i hb hi =>
          gram_congr (fun r hr => a4 r b hr hb) (fun r hr => a4 r i hr hi)
        have tt1 : ∀ a b, a < n1 → b < n1 → triF .Upper .NonUnit (entry ν4 Tm) a b = triF .Upper .NonUnit (entry ν3 Tm) a b := fun a b ha hb =>
          triF_congr' (n := n1) (fun i j hi hj => t4 i j (by omega) (by omega) (by omega)) ha hb
        have tt2 : ∀ a b, a < n2 → b < n2 → triF .Upper .NonUnit (sh n1 n1 (entry ν4 Tm)) a b = triF .Upper .NonUnit (sh n1 n1 (entry ν3 Tm)) a b := fun a b ha hb =>
          triF_congr' (n := n2) (fun i j hi hj => t4 (n1 + i) (n1 + j) (by omega) (by omega) (by omega)) ha hb
        have := trel_join (n1 := n1) (n2 := n2) (g := gramF A.m (houseVec .Forward .Columnwise A.m A.n (entry ν4 A))) (t := fun i => entry ν4 Tm i i) (Tf := entry ν4 Tm)
          (trel_congr r1 (fun b i hb hi => gc b i (by omega) (by omega)) (fun i hi => t4 i i (by omega) (by omega) (by omega)) tt1)
          (trel_congr (r2 rfl) (fun b i hb hi => gc _ _ (by omega) (by omega)) (fun i hi => t4 _ _ (by omega) (by omega) (by omega)) tt2) ?_
        · rwa [hn2] at this ⊢
        · intro a c ha hc
          rw [e4 a c ha hc]
          congr 1
          refine Finset.sum_congr rfl fun b hb => ?_
          have hb := mem_range.1 hb
          rw [tt1 a b ha hb]
          congr 1
          refine Finset.sum_congr rfl fun d hd => ?_
          have hd := mem_range.1 hd
          rw [tt2 d c hd hc, gc b (n1 + d) (by omega) (by omega)]
      · rw [← fr l g1 g2 g3]
        refine o4 l ?_
        rintro ⟨i, j, hi, hj, e⟩
        simp only [MatV.sub] at hi hj e
        exact g2 _ _ (by omega) (by omega) e

end TLA
