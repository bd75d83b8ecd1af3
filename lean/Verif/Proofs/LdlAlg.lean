import Verif.SpecLdl
import Verif.RealScalar
import Verif.Proofs.Util
set_option linter.unusedTactic false
set_option linter.unusedVariables false
set_option linter.unusedSimpArgs false
set_option linter.unreachableTactic false
set_option linter.unusedSectionVars false

/-! # Algebra of the Bunch-Kaufman factorization -/

namespace TLA
open Finset Matrix
variable {𝕜 : Type} [RCLike 𝕜] {n : Nat} {herm : Bool}

/-- Conjugation or the identity. -/
noncomputable def cjH (𝕜 : Type) [RCLike 𝕜] (herm : Bool) : 𝕜 →+* 𝕜 := if herm then starRingEnd 𝕜 else RingHom.id 𝕜

theorem cjH_true (x : 𝕜) : cjH 𝕜 true x = star x := rfl
theorem cjH_false (x : 𝕜) : cjH 𝕜 false x = x := rfl

theorem cjH_cjH (x : 𝕜) : cjH 𝕜 herm (cjH 𝕜 herm x) = x := by
  cases herm
  · rfl
  · exact star_star x

theorem adjM_eq {m n : Nat} (M : Matrix (Fin m) (Fin n) 𝕜) : adjM herm M = (M.map (cjH 𝕜 herm))ᵀ := by
  cases herm
  · ext i j; rfl
  · ext i j; rfl

theorem adjM_mul {m k n : Nat} (M : Matrix (Fin m) (Fin k) 𝕜) (N : Matrix (Fin k) (Fin n) 𝕜) : adjM herm (M * N) = adjM herm N * adjM herm M := by
  cases herm
  · exact transpose_mul M N
  · exact conjTranspose_mul M N

theorem adjM_one : adjM herm (1 : Matrix (Fin n) (Fin n) 𝕜) = 1 := by
  cases herm
  · exact transpose_one
  · exact conjTranspose_one

theorem adjM_adjM {m n : Nat} (M : Matrix (Fin m) (Fin n) 𝕜) : adjM herm (adjM herm M) = M := by
  cases herm
  · exact transpose_transpose M
  · exact conjTranspose_conjTranspose M

theorem adjM_mat {m n : Nat} (f : Nat → Nat → 𝕜) : adjM herm (mat m n f) = mat n m fun i j => cjH 𝕜 herm (f j i) := by
  rw [adjM_eq]; rfl

theorem fullF_tri {uplo : Uplo} (a : Nat → Nat → 𝕜) {i k : Nat} (h : i ≠ k) (h1 : inTri uplo i k) : fullF herm uplo a i k = a i k := by
  cases herm
  · exact if_pos (.inr h1)
  · exact (if_neg h).trans (if_pos h1)

theorem fullF_off {uplo : Uplo} (a : Nat → Nat → 𝕜) {i k : Nat} (h : i ≠ k) (h1 : ¬ inTri uplo i k) : fullF herm uplo a i k = cjH 𝕜 herm (a k i) := by
  cases herm
  · exact if_neg (fun q => q.elim h h1)
  · exact (if_neg h).trans (if_neg h1)

theorem fullF_diag {uplo : Uplo} (a : Nat → Nat → 𝕜) (i : Nat) : fullF herm uplo a i i = if herm then re (a i i) else a i i := by
  cases herm
  · exact if_pos (.inl rfl)
  · exact if_pos rfl

theorem fullF_lt (a : Nat → Nat → 𝕜) {i k : Nat} (h : k < i) : fullF herm .Lower a i k = a i k :=
  fullF_tri a (by omega) (show k ≤ i by omega)
theorem fullF_gt (a : Nat → Nat → 𝕜) {i k : Nat} (h : i < k) : fullF herm .Lower a i k = cjH 𝕜 herm (a k i) :=
  fullF_off a (by omega) (show ¬ k ≤ i by omega)

theorem fullF_cj {uplo : Uplo} (hu : uplo = .Lower ∨ uplo = .Upper) (a : Nat → Nat → 𝕜) (i k : Nat) :
    fullF herm uplo a k i = cjH 𝕜 herm (fullF herm uplo a i k) := by
  by_cases h : i = k
  · subst h
    rw [fullF_diag]
    cases herm
    · rfl
    · exact (ExactScalar.star_re _).symm
  · have dj : inTri uplo i k ∧ ¬ inTri uplo k i ∨ inTri uplo k i ∧ ¬ inTri uplo i k := by
      rcases hu with rfl | rfl <;> simp only [inTri] <;> omega
    rcases dj with ⟨h1, h2⟩ | ⟨h1, h2⟩
    · rw [fullF_tri a h h1, fullF_off a (Ne.symm h) h2]
    · rw [fullF_off a h h2, fullF_tri a (Ne.symm h) h1, cjH_cjH]

/-- A block triangular partition: `D` up to `j`, `C` from `j` on. -/
def gF (j : Nat) (D C : Nat → Nat → 𝕜) : Nat → Nat → 𝕜 := fun i k => if i < j ∧ k < j then D i k else if j ≤ i ∧ j ≤ k then C i k else 0

theorem swapMat_mul (s p : Nat) (hs : s < n) (hp : p < n) (X : Nat → Nat → 𝕜) :
    mat n n (fun i j => if Equiv.swap s p i = j then (1 : 𝕜) else 0) * mat n n X = mat n n fun i k => X (Equiv.swap s p i) k := by
  rw [mat_mul]
  refine mat_ext_iff.2 fun i k hi hk => ?_
  have : Equiv.swap s p i < n := by
    rw [Equiv.swap_apply_def]; split_ifs <;> assumption
  rw [Finset.sum_eq_single (Equiv.swap s p i)]
  · rw [if_pos rfl, one_mul]
  · intro b _ hb; rw [if_neg (fun h => hb h.symm), zero_mul]
  · intro h; exact absurd (mem_range.2 this) h

theorem stripMul (j sz : Nat) (h : j + sz ≤ n) (l X : Nat → Nat → 𝕜) (q : Nat → Prop) [DecidablePred q] (hq : ∀ i, q i → ¬ (j ≤ i ∧ i < j + sz)) :
    mat n n (fun i c => if i = c then (1 : 𝕜) else if (j ≤ c ∧ c < j + sz) ∧ q i then l i c else 0) * mat n n X =
      mat n n fun i k => X i k + if q i then ∑ c ∈ range sz, l i (j + c) * X (j + c) k else 0 := by
  rw [mat_mul]
  refine mat_ext_iff.2 fun i k hi hk => ?_
  have e : ∀ c ∈ range n, (if i = c then (1 : 𝕜) else if (j ≤ c ∧ c < j + sz) ∧ q i then l i c else 0) * X c k =
      (if c = i then X i k else 0) + (if q i ∧ j ≤ c ∧ c < j + sz then l i c * X c k else 0) := by
    intro c _
    by_cases h1 : i = c
    · subst h1
      rw [if_pos rfl, if_pos rfl, if_neg (fun h' => hq i h'.1 h'.2), one_mul, add_zero]
    · rw [if_neg h1, if_neg (show ¬ c = i from fun h => h1 h.symm), zero_add]
      by_cases h2 : (j ≤ c ∧ c < j + sz) ∧ q i
      · rw [if_pos h2, if_pos ⟨h2.2, h2.1⟩]
      · rw [if_neg h2, if_neg (fun h => h2 ⟨h.2, h.1⟩), zero_mul]
  rw [Finset.sum_congr rfl e, Finset.sum_add_distrib, Finset.sum_ite_eq' (range n) i, if_pos (mem_range.2 hi)]
  congr 1
  by_cases h1 : q i
  · rw [if_pos h1]
    simp only [h1, true_and]
    rw [← Finset.sum_filter]
    refine Finset.sum_bij' (fun c _ => c - j) (fun c _ => j + c) ?_ ?_ ?_ ?_ ?_
    · intro c hc; rw [mem_filter] at hc; rw [mem_range]; omega
    · intro c hc; rw [mem_range] at hc; rw [mem_filter, mem_range]; omega
    · intro c hc; rw [mem_filter] at hc; omega
    · intro c hc; omega
    · intro c hc; rw [mem_filter] at hc; rw [show j + (c - j) = c by omega]
  · rw [if_neg h1]
    exact Finset.sum_eq_zero fun c _ => if_neg fun h => h1 h.1

theorem mulAdj (X Y : Nat → Nat → 𝕜) (G : Matrix (Fin n) (Fin n) 𝕜) (h : G * mat n n (fun i k => cjH 𝕜 herm (X k i)) = mat n n Y) :
    mat n n X * adjM herm G = mat n n fun i k => cjH 𝕜 herm (Y k i) := by
  rw [← adjM_mat, ← h, adjM_mul]
  congr 1
  rw [adjM_mat]
  refine mat_ext_iff.2 fun i k hi hk => ?_
  exact (cjH_cjH _).symm

/-- One step of the factorization: eliminating a block of order `sz` after an interchange. -/
theorem ldl_step {b : Blk} {j : Nat} (hk : b.k = j) (hsz : j + b.sz ≤ n) (hp : j ≤ b.p) (hpn : b.p < n) {D D' C C2 a : Nat → Nat → 𝕜}
    (hC : ∀ i k, j ≤ i → j ≤ k → i < n → k < n → C k i = cjH 𝕜 herm (C i k))
    (hD : ∀ i k, i < j → k < j → D' i k = D i k) (hD1 : ∀ i k, i < j → j ≤ k → k < j + b.sz → D' i k = 0 ∧ D' k i = 0)
    (hD2 : ∀ i k, j ≤ i → j ≤ k → i < j + b.sz → k < j + b.sz → D' i k = C (Equiv.swap (b.s .Lower) b.p i) (Equiv.swap (b.s .Lower) b.p k))
    (hl : ∀ i k, j + b.sz ≤ i → i < n → j ≤ k → k < j + b.sz →
      C (Equiv.swap (b.s .Lower) b.p i) (Equiv.swap (b.s .Lower) b.p k) = ∑ c ∈ range b.sz, a i (j + c) * D' (j + c) k)
    (hS : ∀ i k, j + b.sz ≤ i → j + b.sz ≤ k → i < n → k < n → C (Equiv.swap (b.s .Lower) b.p i) (Equiv.swap (b.s .Lower) b.p k) =
      C2 i k + ∑ c ∈ range b.sz, a i (j + c) * cjH 𝕜 herm (C (Equiv.swap (b.s .Lower) b.p k) (Equiv.swap (b.s .Lower) b.p (j + c)))) :
    mat n n (gF j D C) = (ldlP .Lower n b * ldlL .Lower n a b) * mat n n (gF (j + b.sz) D' C2) * adjM herm (ldlP .Lower n b * ldlL .Lower n a b) := by
  have s1 : j ≤ b.s .Lower := by unfold Blk.s; split_ifs <;> omega
  have s2 : b.s .Lower < j + b.sz := by unfold Blk.s Blk.sz; split_ifs <;> simp_all
  set σ := Equiv.swap (b.s .Lower) b.p with hσ
  have σlt : ∀ i, i < n → σ i < n := fun i hi => by rw [hσ, Equiv.swap_apply_def]; split_ifs <;> omega
  have σge : ∀ i, j ≤ i → j ≤ σ i := fun i hi => by rw [hσ, Equiv.swap_apply_def]; split_ifs <;> omega
  have σid : ∀ i, i < j → σ i = i := fun i hi => by rw [hσ, Equiv.swap_apply_def]; split_ifs <;> omega
  have σσ : ∀ i, σ (σ i) = i := fun i => Equiv.swap_apply_self _ _ _
  -- the entries of the permuted matrix
  set G' : Nat → Nat → 𝕜 := gF j D (fun i k => C (σ i) (σ k)) with hG'
  have perm : mat n n (gF j D C) = ldlP .Lower n b * mat n n G' * adjM herm (ldlP .Lower n b) := by
    have e1 : ldlP .Lower n b * mat n n G' = mat n n fun i k => G' (σ i) k := by
      unfold ldlP; exact swapMat_mul _ _ (by omega) hpn _
    rw [e1, mulAdj _ (fun i k => cjH 𝕜 herm (G' (σ k) (σ i)))]
    · refine mat_ext_iff.2 fun i k hi hk => ?_
      rw [cjH_cjH]
      simp only [hG', gF]
      by_cases c1 : i < j
      · by_cases c2 : k < j
        · rw [σid i c1, σid k c2, if_pos ⟨c1, c2⟩, if_pos ⟨c1, c2⟩]
        · have := σge k (by omega)
          rw [σid i c1, if_neg (by omega), if_neg (by omega), if_neg (by omega), if_neg (by omega)]
      · have h1 := σge i (by omega)
        by_cases c2 : k < j
        · rw [σid k c2, if_neg (by omega), if_neg (by omega), if_neg (by omega), if_neg (by omega)]
        · have h2 := σge k (by omega)
          rw [if_neg (by omega), if_pos (by omega), if_neg (by omega), if_pos (by omega), σσ, σσ]
    · unfold ldlP
      rw [swapMat_mul _ _ (by omega) hpn]
  have strip : mat n n G' = ldlL .Lower n a b * mat n n (gF (j + b.sz) D' C2) * adjM herm (ldlL .Lower n a b) := by
    have eL : ldlL .Lower n a b = mat n n (fun i c => if i = c then (1 : 𝕜) else if (j ≤ c ∧ c < j + b.sz) ∧ j + b.sz ≤ i then a i c else 0) := by
      unfold ldlL; rw [hk]; simp only [if_true]
    have nq : ∀ i, j + b.sz ≤ i → ¬ (j ≤ i ∧ i < j + b.sz) := fun i hi => by omega
    rw [eL, stripMul j b.sz hsz a _ _ nq, mulAdj _ _ _ (stripMul j b.sz hsz a _ _ nq)]
    refine mat_ext_iff.2 fun i k hi hk' => ?_
    simp only [map_add, cjH_cjH]
    have S1 : ∀ i k, j ≤ k → k < j + b.sz → gF (j + b.sz) D' C2 i k = if i < j + b.sz then D' i k else 0 := by
      intro i k h1 h2
      unfold gF
      by_cases c : i < j + b.sz
      · rw [if_pos ⟨c, h2⟩, if_pos c]
      · rw [if_neg (fun h => c h.1), if_neg (by omega), if_neg c]
    have S2 : ∀ c, c < b.sz → ∀ k, gF (j + b.sz) D' C2 (j + c) k = if k < j + b.sz then D' (j + c) k else 0 := by
      intro c hc k
      unfold gF
      by_cases c1 : k < j + b.sz
      · rw [if_pos ⟨by omega, c1⟩, if_pos c1]
      · rw [if_neg (fun h => c1 h.2), if_neg (by omega), if_neg c1]
    have sumL : ∀ i k, ∑ c ∈ range b.sz, a i (j + c) * gF (j + b.sz) D' C2 (j + c) k = if k < j + b.sz then ∑ c ∈ range b.sz, a i (j + c) * D' (j + c) k else 0 := by
      intro i k
      by_cases c1 : k < j + b.sz
      · rw [if_pos c1]
        refine Finset.sum_congr rfl fun c hc => ?_
        rw [S2 c (mem_range.1 hc), if_pos c1]
      · rw [if_neg c1]
        exact Finset.sum_eq_zero fun c hc => by rw [S2 c (mem_range.1 hc), if_neg c1, mul_zero]
    simp only [sumL]
    by_cases c1 : i < j
    · -- upper rows
      by_cases c2 : k < j
      · rw [if_neg (by omega), if_neg (by omega)]
        simp only [hG', gF]
        rw [if_pos ⟨c1, c2⟩, if_pos ⟨by omega, by omega⟩, hD i k c1 c2]
        simp
      · have g0 : G' i k = 0 := by simp only [hG', gF]; rw [if_neg (by omega), if_neg (by omega)]
        rw [g0, if_neg (show ¬ j + b.sz ≤ i by omega)]
        by_cases c3 : k < j + b.sz
        · rw [if_neg (by omega), S1 i k (by omega) c3, if_pos (by omega), (hD1 i k c1 (by omega) c3).1]; simp
        · rw [if_pos (by omega)]
          have : gF (j + b.sz) D' C2 i k = 0 := by unfold gF; rw [if_neg (by omega), if_neg (by omega)]
          rw [this]
          symm
          simp only [add_zero, zero_add, map_sum, map_mul, cjH_cjH]
          refine Finset.sum_eq_zero fun c hc => ?_
          have hc := mem_range.1 hc
          rw [if_neg (show ¬ j + b.sz ≤ i by omega), S1 i (j + c) (by omega) (by omega), if_pos (by omega), (hD1 i (j + c) c1 (by omega) (by omega)).1]
          simp
    · by_cases c2 : k < j
      · have g0 : G' i k = 0 := by simp only [hG', gF]; rw [if_neg (by omega), if_neg (by omega)]
        rw [g0, if_neg (show ¬ j + b.sz ≤ k by omega)]
        by_cases c3 : i < j + b.sz
        · rw [if_neg (by omega)]
          have : gF (j + b.sz) D' C2 i k = 0 := by
            unfold gF; rw [if_pos (by omega)]; exact (hD1 k i c2 (by omega) c3).2
          rw [this]; simp
        · rw [if_pos (by omega), if_pos (by omega)]
          have : gF (j + b.sz) D' C2 i k = 0 := by unfold gF; rw [if_neg (by omega), if_neg (by omega)]
          rw [this]
          symm
          simp only [zero_add, map_zero, add_zero]
          refine Finset.sum_eq_zero fun c hc => ?_
          have hc := mem_range.1 hc
          rw [(hD1 k (j + c) c2 (by omega) (by omega)).2, mul_zero]
      · have gC : G' i k = C (σ i) (σ k) := by simp only [hG', gF]; rw [if_neg (by omega), if_pos (by omega)]
        rw [gC]
        -- the entry (i, c) of the row-updated matrix, c in the block
        have rowE : ∀ c, c < b.sz → gF (j + b.sz) D' C2 i (j + c) + (if j + b.sz ≤ i then
            if j + c < j + b.sz then ∑ t ∈ range b.sz, a i (j + t) * D' (j + t) (j + c) else 0 else 0) = C (σ i) (σ (j + c)) := by
          intro c hc
          rw [S1 i (j + c) (by omega) (by omega)]
          by_cases c3 : i < j + b.sz
          · rw [if_pos c3, if_neg (by omega), add_zero, hD2 i (j + c) (by omega) (by omega) c3 (by omega)]
          · rw [if_neg c3, if_pos (by omega), if_pos (by omega), zero_add, hl i (j + c) (by omega) hi (by omega) (by omega)]
        by_cases c4 : k < j + b.sz
        · rw [if_neg (show ¬ j + b.sz ≤ k by omega), map_zero, add_zero]
          have := rowE (k - j) (by omega)
          rw [show j + (k - j) = k by omega] at this
          exact this.symm
        · rw [if_pos (show j + b.sz ≤ k by omega)]
          simp only [map_sum, map_mul, map_add, cjH_cjH]
          have e2 : ∑ c ∈ range b.sz, cjH 𝕜 herm (a k (j + c)) * (gF (j + b.sz) D' C2 i (j + c) +
              (if j + b.sz ≤ i then if j + c < j + b.sz then ∑ t ∈ range b.sz, a i (j + t) * D' (j + t) (j + c) else 0 else 0)) =
              ∑ c ∈ range b.sz, cjH 𝕜 herm (a k (j + c)) * C (σ i) (σ (j + c)) :=
            Finset.sum_congr rfl fun c hc => by rw [rowE c (mem_range.1 hc)]
          rw [e2]
          have hCi : ∀ c, c < b.sz → C (σ i) (σ (j + c)) = cjH 𝕜 herm (C (σ (j + c)) (σ i)) := fun c hc =>
            hC _ _ (σge _ (by omega)) (σge _ (by omega)) (σlt _ (by omega)) (σlt _ hi)
          by_cases c3 : i < j + b.sz
          · rw [if_neg (by omega)]
            have : gF (j + b.sz) D' C2 i k = 0 := by unfold gF; rw [if_neg (by omega), if_neg (by omega)]
            rw [this, zero_add, zero_add]
            -- conjugate of the strip equation for row k
            have := hl k i (by omega) hk' (by omega) c3
            rw [hC _ _ (σge k (by omega)) (σge i (by omega)) (σlt k hk') (σlt i hi), this, map_sum]
            refine Finset.sum_congr rfl fun c hc => ?_
            have hc := mem_range.1 hc
            rw [map_mul]
            congr 1
            rw [hD2 (j + c) i (by omega) (by omega) (by omega) c3]
            exact (hC _ _ (σge _ (by omega)) (σge _ (by omega)) (σlt _ (by omega)) (σlt _ hi)).symm
          · rw [if_pos (by omega), if_neg (by omega), add_zero]
            have : gF (j + b.sz) D' C2 i k = C2 i k := by unfold gF; rw [if_neg (by omega), if_pos (by omega)]
            rw [this, hS i k (by omega) (by omega) hi hk']
            congr 1
            -- both sums are a i D' a k^*
            have h1 : ∀ c, c < b.sz → cjH 𝕜 herm (C (σ k) (σ (j + c))) = ∑ d ∈ range b.sz, cjH 𝕜 herm (a k (j + d)) * D' (j + c) (j + d) := by
              intro c hc
              rw [hl k (j + c) (by omega) hk' (by omega) (by omega), map_sum]
              refine Finset.sum_congr rfl fun d hd => ?_
              have hd := mem_range.1 hd
              rw [map_mul]
              congr 1
              rw [hD2 (j + d) (j + c) (by omega) (by omega) (by omega) (by omega), hD2 (j + c) (j + d) (by omega) (by omega) (by omega) (by omega)]
              exact (hC _ _ (σge _ (by omega)) (σge _ (by omega)) (σlt _ (by omega)) (σlt _ (by omega))).symm
            have e3 : ∑ c ∈ range b.sz, a i (j + c) * cjH 𝕜 herm (C (σ k) (σ (j + c))) =
                ∑ c ∈ range b.sz, a i (j + c) * ∑ d ∈ range b.sz, cjH 𝕜 herm (a k (j + d)) * D' (j + c) (j + d) :=
              Finset.sum_congr rfl fun c hc => by rw [h1 c (mem_range.1 hc)]
            have e4 : ∑ c ∈ range b.sz, cjH 𝕜 herm (a k (j + c)) * C (σ i) (σ (j + c)) =
                ∑ c ∈ range b.sz, cjH 𝕜 herm (a k (j + c)) * ∑ d ∈ range b.sz, a i (j + d) * D' (j + d) (j + c) :=
              Finset.sum_congr rfl fun c hc => by rw [hl i (j + c) (by omega) hi (by omega) (by have := mem_range.1 hc; omega)]
            rw [e3, e4]
            simp only [Finset.mul_sum]
            rw [Finset.sum_comm]
            refine Finset.sum_congr rfl fun c _ => Finset.sum_congr rfl fun d _ => ?_
            ring
  rw [perm, strip, adjM_mul]
  simp only [Matrix.mul_assoc]

end TLA
