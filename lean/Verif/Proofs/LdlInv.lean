import Verif.Proofs.LdlAlg
set_option linter.unusedTactic false
set_option linter.unusedVariables false
set_option linter.unusedSimpArgs false
set_option linter.unreachableTactic false
set_option linter.unusedSectionVars false

/-! # Invariant of a panel of the Bunch-Kaufman factorization -/

namespace TLA
open Finset Matrix
variable {𝕜 : Type} [RCLike 𝕜] {n : Nat} {herm : Bool}

/-- The Schur complement of the first `j` columns, before it is stored. -/
noncomputable def schurF (herm : Bool) (j : Nat) (a w : Nat → Nat → 𝕜) : Nat → Nat → 𝕜 := fun i k =>
  fullF herm .Lower a i k - ∑ c ∈ range j, a i c * cjH 𝕜 herm (w k c)

/-- Rows `s` and `p` interchanged in the columns before `hi`. -/
def rowSw {α : Type} (s p hi : Nat) (x : Nat → Nat → α) : Nat → Nat → α := fun i c => if c < hi then x (Equiv.swap s p i) c else x i c

/-- All later interchanges undone. -/
def undoF (bl : List Blk) (a : Nat → Nat → 𝕜) : Nat → Nat → 𝕜 := bl.foldr (fun b x => rowSw (b.s .Lower) b.p b.k x) a

/-- Columns of zero pivots cleared. -/
def maskC (Z : Nat → Bool) (a : Nat → Nat → 𝕜) : Nat → Nat → 𝕜 := fun i c => if Z c then 0 else a i c

theorem undoF_snoc (bl : List Blk) (b : Blk) (a : Nat → Nat → 𝕜) : undoF (bl ++ [b]) a = undoF bl (rowSw (b.s .Lower) b.p b.k a) := by
  simp [undoF, List.foldr_append]

def InBlk (bl : List Blk) (i c : Nat) : Prop := ∃ b ∈ bl, b.two = true ∧ ((i = b.k + 1 ∧ c = b.k) ∨ (i = b.k ∧ c = b.k + 1))

theorem InBlk.symm {bl : List Blk} {i c : Nat} (h : InBlk bl i c) : InBlk bl c i := by
  obtain ⟨b, hb, h1, h2⟩ := h
  exact ⟨b, hb, h1, h2.elim (fun h => .inr ⟨h.2, h.1⟩) (fun h => .inl ⟨h.2, h.1⟩)⟩

open Classical in
theorem ldlD_eq {uplo : Uplo} (hu : uplo = .Lower ∨ uplo = .Upper) (x : Nat → Nat → 𝕜) (bl : List Blk) (i c : Nat) :
    ldlD herm uplo x bl i c = if i = c ∨ InBlk bl i c then fullF herm uplo x i c else 0 := by
  have cnd : ∀ i c, (i = c ∨ (∃ b ∈ bl, b.two = true ∧ ((i = b.k + 1 ∧ c = b.k) ∨ (i = b.k ∧ c = b.k + 1)))) ↔ (i = c ∨ InBlk bl i c) := fun _ _ => Iff.rfl
  unfold ldlD
  simp only [cnd]
  by_cases h : i = c
  · subst h
    rw [fullF_diag, fullF_diag]
    simp only [true_or, if_true]
  · by_cases ht : inTri uplo i c
    · rw [fullF_tri _ h ht, fullF_tri _ h ht]
    · rw [fullF_off _ h ht, fullF_off _ h ht]
      by_cases hb : InBlk bl i c
      · rw [if_pos (show i = c ∨ InBlk bl i c from .inr hb), if_pos (show c = i ∨ InBlk bl c i from .inr hb.symm)]
      · rw [if_neg (show ¬ (i = c ∨ InBlk bl i c) from fun q => q.elim h hb),
          if_neg (show ¬ (c = i ∨ InBlk bl c i) from fun q => q.elim (fun e => h e.symm) fun q => hb (InBlk.symm q)), map_zero]

theorem swapN_lt {s p i m : Nat} (hs : s < m) (hp : p < m) (hi : i < m) : Equiv.swap s p i < m := by
  rw [Equiv.swap_apply_def]; split_ifs <;> assumption
theorem swapN_id {s p i m : Nat} (hs : m ≤ s) (hp : m ≤ p) (hi : i < m) : Equiv.swap s p i = i := by
  rw [Equiv.swap_apply_def]; split_ifs <;> omega
theorem swapN_ge {s p i m : Nat} (hs : m ≤ s) (hp : m ≤ p) (hi : m ≤ i) : m ≤ Equiv.swap s p i := by
  rw [Equiv.swap_apply_def]; split_ifs <;> assumption

/-- The blocks lie before `j` and their interchanges within the matrix. -/
def BlksIn (n j : Nat) (bl : List Blk) : Prop := ∀ b ∈ bl, b.k + b.sz ≤ j ∧ b.k ≤ b.p ∧ b.p < n

theorem undoF_right {bl : List Blk} {j : Nat} (h : BlksIn n j bl) (a : Nat → Nat → 𝕜) (i c : Nat) (hc : j ≤ c) : undoF bl a i c = a i c := by
  induction bl with
  | nil => rfl
  | cons b bs ih =>
    have hb := h b (List.mem_cons_self ..)
    show rowSw _ _ _ (undoF bs a) i c = _
    unfold rowSw
    rw [if_neg (by omega)]
    exact ih fun b' hb' => h b' (List.mem_cons_of_mem _ hb')

theorem Blk.s_le (b : Blk) : b.k ≤ b.s .Lower ∧ b.s .Lower < b.k + b.sz := by
  unfold Blk.s Blk.sz; constructor <;> split_ifs <;> simp_all

theorem undoF_congr {bl : List Blk} {j : Nat} (h : BlksIn n j bl) (hj : j ≤ n) {a a' : Nat → Nat → 𝕜} {c : Nat} (e : ∀ i, i < n → a' i c = a i c) (i : Nat) (hi : i < n) :
    undoF bl a' i c = undoF bl a i c := by
  induction bl generalizing i with
  | nil => exact e i hi
  | cons b bs ih =>
    have hb := h b (List.mem_cons_self ..)
    have hs := b.s_le
    have ih := ih fun b' hb' => h b' (List.mem_cons_of_mem _ hb')
    show rowSw _ _ _ (undoF bs a') i c = rowSw _ _ _ (undoF bs a) i c
    unfold rowSw
    split_ifs
    · exact ih _ (swapN_lt (by omega) hb.2.2 hi)
    · exact ih _ hi

/-- The blocks of two functions agreeing in the columns before `j` have the same factors. -/
theorem ldlM_congr {bl : List Blk} {j : Nat} (h : BlksIn n j bl) {x y : Nat → Nat → 𝕜} (e : ∀ i c, i < n → c < j → x i c = y i c) :
    ldlM .Lower n x bl = ldlM .Lower n y bl := by
  unfold ldlM
  congr 1
  refine List.map_congr_left fun b hb => ?_
  have := h b hb
  congr 1
  unfold ldlL
  refine mat_ext_iff.2 fun i c hi hc => ?_
  simp only [if_true]
  split_ifs with h1 h2
  · rfl
  · exact e i c hi (by omega)
  · rfl

theorem ldlM_snoc (uplo : Uplo) (x : Nat → Nat → 𝕜) (bl : List Blk) (b : Blk) :
    ldlM uplo n x (bl ++ [b]) = ldlM uplo n x bl * (ldlP uplo n b * ldlL uplo n x b) := by
  simp [ldlM]

/-- Invariant of the panel: `j` columns are factored. -/
structure PInv (herm : Bool) (n j : Nat) (S0 a w : Nat → Nat → 𝕜) (bl : List Blk) (Z : Nat → Bool) : Prop where
  fac : mat n n S0 = ldlM .Lower n (maskC Z (undoF bl a)) bl * mat n n (gF j (ldlD herm .Lower (maskC Z (undoF bl a)) bl) (schurF herm j a w)) *
    adjM herm (ldlM .Lower n (maskC Z (undoF bl a)) bl)
  sym : ∀ i k, j ≤ i → j ≤ k → i < n → k < n → schurF herm j a w k i = cjH 𝕜 herm (schurF herm j a w i k)
  blk : BlksIn n j bl

theorem PInv.start (a w : Nat → Nat → 𝕜) : PInv herm n 0 (fullF herm .Lower a) a w [] fun _ => false := by
  refine ⟨?_, fun i k _ _ _ _ => ?_, fun b hb => absurd hb (by simp)⟩
  · simp only [ldlM, List.map_nil, List.prod_nil, adjM_one, Matrix.one_mul, Matrix.mul_one]
    refine mat_ext_iff.2 fun i k _ _ => ?_
    unfold gF
    rw [if_neg (by omega), if_pos (by omega)]
    simp [schurF]
  · simp only [schurF, range_zero, sum_empty, sub_zero]
    exact fullF_cj (.inl rfl) a i k

set_option maxHeartbeats 1000000 in
theorem PInv.step {j : Nat} {S0 a w a' w' : Nat → Nat → 𝕜} {bl : List Blk} {Z Z' : Nat → Bool} {b : Blk} (h : PInv herm n j S0 a w bl Z) (hk : b.k = j)
    (hsz : j + b.sz ≤ n) (hp : b.s .Lower ≤ b.p) (hpn : b.p < n)
    (hZ : ∀ c, c < j → Z' c = Z c)
    (F1 : ∀ i c, i < n → c < j → a' i c = a (Equiv.swap (b.s .Lower) b.p i) c)
    (F2 : ∀ i c, j ≤ i → i < n → c < j → w' i c = w (Equiv.swap (b.s .Lower) b.p i) c)
    (F3 : ∀ i k, j + b.sz ≤ i → j + b.sz ≤ k → i < n → k < n →
      fullF herm .Lower a' i k = fullF herm .Lower a (Equiv.swap (b.s .Lower) b.p i) (Equiv.swap (b.s .Lower) b.p k))
    (F4 : ∀ i c, j ≤ i → i < n → c < b.sz → w' i (j + c) = schurF herm j a w (Equiv.swap (b.s .Lower) b.p i) (Equiv.swap (b.s .Lower) b.p (j + c)))
    (F5 : ∀ i k, j ≤ i → i < j + b.sz → j ≤ k → k < j + b.sz →
      fullF herm .Lower (maskC Z' a') i k = schurF herm j a w (Equiv.swap (b.s .Lower) b.p i) (Equiv.swap (b.s .Lower) b.p k))
    (F6 : ∀ i k, j + b.sz ≤ i → i < n → j ≤ k → k < j + b.sz → schurF herm j a w (Equiv.swap (b.s .Lower) b.p i) (Equiv.swap (b.s .Lower) b.p k) =
      ∑ c ∈ range b.sz, maskC Z' a' i (j + c) * schurF herm j a w (Equiv.swap (b.s .Lower) b.p (j + c)) (Equiv.swap (b.s .Lower) b.p k))
    (F7 : ∀ c i, c < b.sz → Z' (j + c) = true → j ≤ i → i < n → w' i (j + c) = 0) :
    PInv herm n (j + b.sz) S0 a' w' (bl ++ [b]) Z' := by
  have sle := b.s_le
  rw [hk] at sle
  obtain ⟨σ, hσ⟩ : ∃ σ, σ = Equiv.swap (b.s .Lower) b.p := ⟨_, rfl⟩
  rw [← hσ] at F1 F2 F3 F4 F5 F6
  have σlt : ∀ i, i < n → σ i < n := fun i hi => by rw [hσ]; exact swapN_lt (by omega) hpn hi
  have σge : ∀ i, j ≤ i → j ≤ σ i := fun i hi => by rw [hσ]; exact swapN_ge (by omega) (by omega) hi
  have σσ : ∀ i, σ (σ i) = i := fun i => by rw [hσ]; exact Equiv.swap_apply_self _ _ _
  obtain ⟨x, hx⟩ : ∃ x, x = maskC Z (undoF bl a) := ⟨_, rfl⟩
  obtain ⟨x', hx'⟩ : ∃ x', x' = maskC Z' (undoF (bl ++ [b]) a') := ⟨_, rfl⟩
  obtain ⟨C, hC⟩ : ∃ C, C = schurF herm j a w := ⟨_, rfl⟩
  obtain ⟨C2, hC2⟩ : ∃ C2, C2 = schurF herm (j + b.sz) a' w' := ⟨_, rfl⟩
  obtain ⟨fac, sym, blk⟩ := h
  rw [← hx, ← hC] at fac
  rw [← hC] at sym F4 F5 F6
  have x'eq : ∀ i c, i < n → c < j → x' i c = x i c := by
    intro i c hi hc
    rw [hx, hx', undoF_snoc]
    unfold maskC
    rw [hZ c hc]
    split_ifs
    · rfl
    · refine undoF_congr blk (by omega) (fun i hi => ?_) i hi
      unfold rowSw
      rw [if_pos (by omega), F1 _ _ (swapN_lt (by omega) hpn hi) hc, ← hσ, σσ]
  have x'new : ∀ i c, j ≤ c → x' i c = maskC Z' a' i c := by
    intro i c hc
    rw [hx', undoF_snoc]
    unfold maskC
    split_ifs
    · rfl
    · rw [undoF_right blk _ _ _ hc]
      unfold rowSw
      rw [if_neg (by omega)]
  -- the new Schur complement
  have hS : ∀ i k, j + b.sz ≤ i → j + b.sz ≤ k → i < n → k < n → C (σ i) (σ k) =
      C2 i k + ∑ c ∈ range b.sz, x' i (j + c) * cjH 𝕜 herm (C (σ k) (σ (j + c))) := by
    intro i k h1 h2 h3 h4
    rw [hC2, hC]
    unfold schurF
    rw [F3 i k h1 h2 h3 h4, Finset.sum_range_add]
    have e1 : ∑ c ∈ range j, a' i c * cjH 𝕜 herm (w' k c) = ∑ c ∈ range j, a (σ i) c * cjH 𝕜 herm (w (σ k) c) :=
      Finset.sum_congr rfl fun c hc => by
        have hc := mem_range.1 hc
        rw [F1 i c h3 hc, F2 k c (by omega) h4 hc]
    have e2 : ∑ c ∈ range b.sz, a' i (j + c) * cjH 𝕜 herm (w' k (j + c)) = ∑ c ∈ range b.sz, x' i (j + c) * cjH 𝕜 herm (C (σ k) (σ (j + c))) :=
      Finset.sum_congr rfl fun c hc => by
        have hc := mem_range.1 hc
        rw [x'new _ _ (by omega), ← F4 k c (by omega) h4 hc]
        unfold maskC
        split_ifs with q
        · rw [F7 c k hc q (by omega) h4, map_zero, mul_zero, zero_mul]
        · rfl
    rw [hC] at e2
    unfold schurF at e2
    rw [e1, e2]
    ring
  have inb : ∀ i c, InBlk (bl ++ [b]) i c → i < j → InBlk bl i c := by
    rintro i c ⟨b', hb', h1, h2⟩ hi
    rw [List.mem_append, List.mem_singleton] at hb'
    rcases hb' with hb' | rfl
    · exact ⟨b', hb', h1, h2⟩
    · omega
  have inb' : ∀ i c, InBlk bl i c → i < j ∧ c < j := by
    rintro i c ⟨b', hb', h1, h2⟩
    have h3 := (blk b' hb').1
    have h4 : b'.sz = 2 := by unfold Blk.sz; rw [if_pos h1]
    omega
  have hD : ∀ i k, i < j → k < j → ldlD herm .Lower x' (bl ++ [b]) i k = ldlD herm .Lower x bl i k := by
    intro i k hi hk'
    rw [ldlD_eq (.inl rfl), ldlD_eq (.inl rfl)]
    have ef : fullF herm .Lower x' i k = fullF herm .Lower x i k := by
      rcases lt_trichotomy i k with q | q | q
      · rw [fullF_gt _ q, fullF_gt _ q, x'eq _ _ (by omega) hi]
      · subst q; rw [fullF_diag, fullF_diag, x'eq _ _ (by omega) hi]
      · rw [fullF_lt _ q, fullF_lt _ q, x'eq _ _ (by omega) hk']
    rw [ef]
    by_cases q : i = k ∨ InBlk bl i k
    · rw [if_pos q, if_pos (q.imp_right fun ⟨b', h1, h2⟩ => ⟨b', List.mem_append_left _ h1, h2⟩)]
    · rw [if_neg q, if_neg (fun h => q (h.imp_right fun h => inb i k h hi))]
  have hD1 : ∀ i k, i < j → j ≤ k → k < j + b.sz → ldlD herm .Lower x' (bl ++ [b]) i k = 0 ∧ ldlD herm .Lower x' (bl ++ [b]) k i = 0 := by
    intro i k hi h1 h2
    rw [ldlD_eq (.inl rfl), ldlD_eq (.inl rfl)]
    constructor
    · rw [if_neg]
      rintro (q | q)
      · omega
      · have := inb' _ _ (inb _ _ q hi); omega
    · rw [if_neg]
      rintro (q | q)
      · omega
      · have := inb' _ _ (inb _ _ q.symm hi); omega
  have hD2 : ∀ i k, j ≤ i → j ≤ k → i < j + b.sz → k < j + b.sz → ldlD herm .Lower x' (bl ++ [b]) i k = C (σ i) (σ k) := by
    intro i k h1 h2 h3 h4
    rw [ldlD_eq (.inl rfl), if_pos]
    · rw [← F5 i k h1 h3 h2 h4]
      rcases lt_trichotomy i k with q | q | q
      · rw [fullF_gt _ q, fullF_gt _ q, x'new _ _ h1]
      · subst q; rw [fullF_diag, fullF_diag, x'new _ _ h1]
      · rw [fullF_lt _ q, fullF_lt _ q, x'new _ _ h2]
    · by_cases q : i = k
      · exact .inl q
      · refine .inr ⟨b, List.mem_append_right _ (List.mem_singleton.2 rfl), ?_, ?_⟩
        · by_contra q2
          have : b.sz = 1 := by unfold Blk.sz; rw [if_neg q2]
          omega
        · have : b.sz ≤ 2 := by unfold Blk.sz; split_ifs <;> omega
          omega
  have hl : ∀ i k, j + b.sz ≤ i → i < n → j ≤ k → k < j + b.sz →
      C (σ i) (σ k) = ∑ c ∈ range b.sz, x' i (j + c) * ldlD herm .Lower x' (bl ++ [b]) (j + c) k := by
    intro i k h1 h2 h3 h4
    rw [F6 i k h1 h2 h3 h4]
    refine Finset.sum_congr rfl fun c hc => ?_
    have hc := mem_range.1 hc
    rw [x'new _ _ (by omega), hD2 (j + c) k (by omega) h3 (by omega) h4]
  have stp := ldl_step (n := n) (herm := herm) (b := b) (D := ldlD herm .Lower x bl) (C := C) (C2 := C2) (a := x') hk hsz (by omega) hpn sym hD hD1
    (by rw [← hσ]; exact hD2) (by rw [← hσ]; exact hl) (by rw [← hσ]; exact hS)
  refine ⟨?_, ?_, ?_⟩
  · rw [← hx', ← hC2, ldlM_snoc, fac, stp]
    rw [ldlM_congr blk x'eq]
    simp only [adjM_mul, Matrix.mul_assoc]
  · rw [← hC2]
    intro i k h1 h2 h3 h4
    have e1 := hS k i h2 h1 h4 h3
    have e2 := hS i k h1 h2 h3 h4
    have e3 : C2 k i = C (σ k) (σ i) - ∑ c ∈ range b.sz, x' k (j + c) * cjH 𝕜 herm (C (σ i) (σ (j + c))) := by rw [e1]; ring
    have e4 : C2 i k = C (σ i) (σ k) - ∑ c ∈ range b.sz, x' i (j + c) * cjH 𝕜 herm (C (σ k) (σ (j + c))) := by rw [e2]; ring
    rw [e3, e4, map_sub, ← sym _ _ (σge i (by omega)) (σge k (by omega)) (σlt i h3) (σlt k h4)]
    congr 1
    rw [map_sum]
    simp only [map_mul, cjH_cjH]
    have l1 : ∀ i, j + b.sz ≤ i → i < n → ∀ c, c < b.sz → C (σ i) (σ (j + c)) = ∑ d ∈ range b.sz, x' i (j + d) * ldlD herm .Lower x' (bl ++ [b]) (j + d) (j + c) :=
      fun i q1 q2 c hc => hl i (j + c) q1 q2 (by omega) (by omega)
    have s1 : ∑ c ∈ range b.sz, x' k (j + c) * cjH 𝕜 herm (C (σ i) (σ (j + c))) =
        ∑ c ∈ range b.sz, ∑ d ∈ range b.sz, x' k (j + c) * (cjH 𝕜 herm (x' i (j + d)) * ldlD herm .Lower x' (bl ++ [b]) (j + c) (j + d)) := by
      refine Finset.sum_congr rfl fun c hc => ?_
      have hc := mem_range.1 hc
      rw [l1 i h1 h3 c hc, map_sum, Finset.mul_sum]
      refine Finset.sum_congr rfl fun d hd => ?_
      have hd := mem_range.1 hd
      rw [map_mul, hD2 (j + d) (j + c) (by omega) (by omega) (by omega) (by omega), hD2 (j + c) (j + d) (by omega) (by omega) (by omega) (by omega),
        ← sym _ _ (σge _ (by omega)) (σge _ (by omega)) (σlt _ (by omega)) (σlt _ (by omega))]
    have s2 : ∑ c ∈ range b.sz, cjH 𝕜 herm (x' i (j + c)) * C (σ k) (σ (j + c)) =
        ∑ c ∈ range b.sz, ∑ d ∈ range b.sz, cjH 𝕜 herm (x' i (j + c)) * (x' k (j + d) * ldlD herm .Lower x' (bl ++ [b]) (j + d) (j + c)) := by
      refine Finset.sum_congr rfl fun c hc => ?_
      rw [l1 k h2 h4 c (mem_range.1 hc), Finset.mul_sum]
    rw [s1, s2, Finset.sum_comm]
    refine Finset.sum_congr rfl fun c _ => Finset.sum_congr rfl fun d _ => ?_
    ring
  · intro b' hb'
    rw [List.mem_append, List.mem_singleton] at hb'
    rcases hb' with hb' | rfl
    · have := blk b' hb'
      exact ⟨by omega, this.2⟩
    · exact ⟨by omega, by omega, hpn⟩

end TLA
