import Verif.Proofs.FrobM
import Verif.Model.Lahqr

/-! lahqr: cuts, zero pattern, the effect of one step of a sweep. -/

set_option linter.unusedTactic false
set_option linter.unusedSectionVars false
set_option linter.unusedVariables false
set_option linter.unreachableTactic false
set_option linter.unusedSimpArgs false

namespace TLA
open Matrix Finset
variable {T : Type} [Field T] [StarRing T] [DecidableEq T]

/-- Where memory and the (ghost) full matrix agree: everywhere if the whole Schur form is wanted, otherwise below the
diagonal and inside the blocks cut out by `K`. -/
def HqP (wantt : Bool) (K : Nat → Prop) (r c : Nat) : Prop :=
  wantt = true ∨ c < r ∨ ∀ κ, K κ → (r < κ ↔ c < κ)

/-- Zero pattern: block triangular at every cut, Hessenberg in between, except for the bulge `(b+1, b-1)`. -/
structure HqZ (n ilo ihi : Nat) (K : Nat → Prop) (F : Nat → Nat → T) (b : Nat) : Prop where
  cut : ∀ κ, K κ → ∀ r c, r < n → κ ≤ r → c < κ → F r c = 0
  hess : ∀ r c, ilo ≤ c → r < ihi → c + 1 < r → ¬ (r = b + 1 ∧ c + 1 = b) → F r c = 0

/-- The matrix after step `i`: the similarity by the rotation, with the entry `(i+1, i-1)` set to zero. -/
def hqNext (i : Nat) (c s : T) (F : Nat → Nat → T) : Nat → Nat → T := fun r k =>
  if r = i + 1 ∧ k + 1 = i then 0 else simRot i (i + 1) c s F r k

/-- The contents of memory after step `i`, from those (`M`) after the prologue. -/
def hqMem (i lo hi top : Nat) (c s : T) (M : Nat → Nat → T) : Nat → Nat → T := fun r k =>
  if lo ≤ r ∧ r < hi then rowMap (pairRot i (i + 1) c (star s))
    (fun r k => if i ≤ k ∧ k < top then colMap (pairRot i (i + 1) c s) M r k else M r k) r k
  else if i ≤ k ∧ k < top then colMap (pairRot i (i + 1) c s) M r k else M r k

section
variable {wantt : Bool} {n ilo ihi istart istop i istartM istopM b : Nat} {K : Nat → Prop} {c s : T}
  {F M : Nat → Nat → T}

theorem HqP.move (hK : ∀ κ, K κ → κ ≤ istart ∨ istop ≤ κ) (h1 : istart ≤ i) (h2 : i + 1 < istop) {r k k' : Nat}
    (hk : k = i ∨ k = i + 1) (hk' : k' = i ∨ k' = i + 1) (hr : r ≤ i + 1) (h : HqP wantt K r k)
    (hl : ¬ (k < r) ) : HqP wantt K r k' := by
  rcases h with h | h | h
  · exact .inl h
  · exact absurd h hl
  · exact .inr (.inr fun κ hκ => (h κ hκ).trans (by rcases hK κ hκ with h | h <;> omega))

theorem HqP.moveL (hK : ∀ κ, K κ → κ ≤ istart ∨ istop ≤ κ) (h1 : istart ≤ i) (h2 : i + 1 < istop) {r r' k : Nat}
    (hk : r = i ∨ r = i + 1) (hk' : r' = i ∨ r' = i + 1) (h : HqP wantt K r k)
    (hl : ¬ (k < r) ) : HqP wantt K r' k := by
  rcases h with h | h | h
  · exact .inl h
  · exact absurd h hl
  · exact .inr (.inr fun κ hκ => Iff.trans (by rcases hK κ hκ with h | h <;> omega) (h κ hκ))

theorem HqP.blk (hK : ∀ κ, K κ → κ ≤ istart ∨ istop ≤ κ) {r k : Nat} (h1 : istart ≤ r) (h2 : r < istop)
    (h3 : istart ≤ k) (h4 : k < istop) : HqP wantt K r k :=
  .inr (.inr fun κ hκ => by rcases hK κ hκ with h | h <;> omega)

/-- Zeros of rows `i`, `i+1` left of the bulge. -/
theorem HqZ.left (z : HqZ n ilo ihi K F b) (hb : b = 0 ∨ b = i) (klo : K ilo) (h0 : ilo ≤ i) (h1 : i + 1 < ihi)
    (hn : ihi ≤ n) {k r : Nat} (hk : k + 1 < i) (hr : r = i ∨ r = i + 1) : F r k = 0 := by
  by_cases h : ilo ≤ k
  · exact z.hess r k h (by omega) (by omega) (by omega)
  · exact z.cut ilo klo r k (by omega) (by omega) (by omega)

/-- Zeros of columns `i`, `i+1` below the bulge. -/
theorem HqZ.below (z : HqZ n ilo ihi K F b) (hb : b = 0 ∨ b = i) (kst : K istop) (h0 : ilo ≤ i) (h1 : i + 1 < istop)
    (h2 : istop ≤ ihi) {k r : Nat} (hr : i + 3 ≤ r ∨ istop ≤ r) (hrn : r < n) (hk : k = i ∨ k = i + 1) : F r k = 0 := by
  by_cases h : istop ≤ r
  · exact z.cut istop kst r k hrn h (by omega)
  · exact z.hess r k (by omega) (by omega) (by omega) (by omega)

theorem hqMem_agree (hK : ∀ κ, K κ → κ ≤ istart ∨ istop ≤ κ) (kst : K istart) (ksp : K istop) (klo : K ilo)
    (z : HqZ n ilo ihi K F b) (hb : b = 0 ∨ b = i)
    (g0 : ilo ≤ istart) (g1 : istart ≤ i) (g2 : i + 1 < istop) (g3 : istop ≤ ihi) (g4 : ihi ≤ n)
    (hlo : istartM ≤ istart ∧ (wantt = true → istartM = 0)) (hhi : istopM = if wantt then n else istop)
    (hM : ∀ r k, r < n → k < n → k + 1 ≠ i ∨ (r ≠ i ∧ r ≠ i + 1) → HqP wantt K r k → M r k = F r k)
    (hM1 : ∀ k, k + 1 = i → M i k = c * F i k + s * F (i + 1) k) (hM2 : ∀ k, k + 1 = i → M (i + 1) k = 0) :
    ∀ r k, r < n → k < n → HqP wantt K r k →
      hqMem i istartM (min (i + 3) istop) istopM c s M r k = hqNext i c s F r k := by
  intro r k hr hk hP
  have e0 : ¬ i + 1 = i := by omega
  have hsM : istartM ≤ istart := hlo.1
  have htM : istop ≤ istopM := by rw [hhi]; split <;> omega
  have htM' : istopM ≤ n := by rw [hhi]; split <;> omega
  by_cases hri : r = i ∨ r = i + 1
  · by_cases hki : k = i ∨ k = i + 1
    · -- the diagonal block
      have a : ∀ r' k', r' = i ∨ r' = i + 1 → k' = i ∨ k' = i + 1 → M r' k' = F r' k' := fun r' k' h1 h2 =>
        hM r' k' (by omega) (by omega) (by omega) (HqP.blk hK (by omega) (by omega) (by omega) (by omega))
      unfold hqMem hqNext
      rw [if_pos (by omega), if_neg (by omega)]
      unfold simRot rowMap colMap pairRot
      beta_reduce
      rw [if_pos (by omega : i ≤ k ∧ k < istopM), if_pos (by omega : i ≤ i ∧ i < istopM),
        if_pos (by omega : i ≤ i + 1 ∧ i + 1 < istopM)]
      rw [a i i (.inl rfl) (.inl rfl), a i (i + 1) (.inl rfl) (.inr rfl), a (i + 1) i (.inr rfl) (.inl rfl),
        a (i + 1) (i + 1) (.inr rfl) (.inr rfl), a r i hri (.inl rfl), a r (i + 1) hri (.inr rfl), a r k hri hki,
        a i k (.inl rfl) hki, a (i + 1) k (.inr rfl) hki]
    · -- rows, outside of the block
      have e1 : ¬ k = i := by omega
      have e2 : ¬ k = i + 1 := by omega
      have red : hqMem i istartM (min (i + 3) istop) istopM c s M r k =
          if i ≤ k ∧ k < istopM then colMap (pairRot i (i + 1) c s) M r k else M r k := by
        unfold hqMem
        rw [if_pos (by omega)]
        simp only [rowMap, pairRot, e1, e2, if_false]
      rw [red]
      by_cases hlt : k < i
      · rw [if_neg (by omega)]
        by_cases hk1 : k + 1 = i
        · unfold hqNext
          rcases hri with rfl | rfl
          · rw [if_neg (by omega), hM1 k hk1]
            simp [simRot, rowMap, colMap, pairRot, e1, e2]
          · rw [if_pos ⟨rfl, hk1⟩, hM2 k hk1]
        · rw [hM r k hr hk (.inl hk1) (.inr (.inl (by omega))), z.left hb klo (by omega) (by omega) g4 (by omega) hri]
          unfold hqNext
          rw [if_neg (by omega)]
          exact (simRot_zero_col e1 e2 (z.left hb klo (by omega) (by omega) g4 (by omega) hri) fun _ =>
            ⟨z.left hb klo (by omega) (by omega) g4 (by omega) (.inl rfl),
             z.left hb klo (by omega) (by omega) g4 (by omega) (.inr rfl)⟩).symm
      · have hP1 : ∀ r', r' = i ∨ r' = i + 1 → M r' k = F r' k := fun r' h' =>
          hM r' k (by omega) hk (by omega) (HqP.moveL hK g1 g2 hri h' hP (by omega))
        have hkt : k < istopM := by
          by_contra hc
          have hw : ¬ wantt = true := fun hw => by rw [hhi, if_pos hw] at hc; omega
          rcases hP with h | h | h
          · exact hw h
          · omega
          · have := h istop ksp
            omega
        rw [if_pos ⟨by omega, hkt⟩]
        unfold hqNext
        rw [if_neg (by omega)]
        simp only [simRot, rowMap, colMap, pairRot, e1, e2, if_false]
        rw [hP1 i (.inl rfl), hP1 (i + 1) (.inr rfl), hP1 r hri]
  · have e1 : ¬ r = i := by omega
    have e2 : ¬ r = i + 1 := by omega
    have in1 : ∀ k', (if i ≤ k' ∧ k' < istopM then colMap (pairRot i (i + 1) c s) M r k' else M r k') = M r k' := by
      intro k'
      simp only [colMap, pairRot, e1, e2, if_false]
      split <;> rfl
    by_cases hki : k = i ∨ k = i + 1
    · unfold hqNext
      rw [if_neg (by omega)]
      by_cases hri2 : r < i
      · have hP1 : ∀ k', k' = i ∨ k' = i + 1 → M r k' = F r k' := fun k' h' =>
          hM r k' hr (by omega) (by omega) (HqP.move hK g1 g2 hki h' (by omega) hP (by omega))
        have hst : istartM ≤ r := by
          by_contra hc
          have hw : ¬ wantt = true := fun hw => by rw [hlo.2 hw] at hc; omega
          rcases hP with h | h | h
          · exact hw h
          · omega
          · have := h istart kst
            omega
        unfold hqMem
        rw [if_pos ⟨hst, by omega⟩]
        simp only [rowMap, pairRot]
        rw [in1, in1, in1]
        simp only [simRot, rowMap, colMap, pairRot, e1, e2, if_false]
        rw [hP1 i (.inl rfl), hP1 (i + 1) (.inr rfl), hP1 k hki]
      · have hP1 : ∀ k', k' = i ∨ k' = i + 1 → M r k' = F r k' := fun k' h' =>
          hM r k' hr (by omega) (by omega) (.inr (.inl (by omega)))
        by_cases hb' : r < min (i + 3) istop
        · unfold hqMem
          rw [if_pos ⟨by omega, hb'⟩]
          simp only [rowMap, pairRot]
          rw [in1, in1, in1]
          simp only [simRot, rowMap, colMap, pairRot, e1, e2, if_false]
          rw [hP1 i (.inl rfl), hP1 (i + 1) (.inr rfl), hP1 k hki]
        · unfold hqMem
          rw [if_neg (by omega), in1, hP1 k hki]
          have zz : ∀ k', k' = i ∨ k' = i + 1 → F r k' = 0 := fun k' h' =>
            z.below hb ksp (by omega) g2 g3 (by omega) hr h'
          rw [zz k hki]
          exact (simRot_zero_row e1 e2 (zz k hki) fun _ => ⟨zz i (.inl rfl), zz (i + 1) (.inr rfl)⟩).symm
    · unfold hqNext
      rw [if_neg (by omega), simRot_out e1 e2 (by omega) (by omega), ← hM r k hr hk (.inr ⟨e1, e2⟩) hP]
      unfold hqMem
      split
      · simp only [rowMap, pairRot]
        rw [if_neg (by omega), if_neg (by omega), in1]
      · rw [in1]

/-- The zero pattern after step `i`: the bulge has moved on. -/
theorem HqZ.next (hK : ∀ κ, K κ → κ ≤ istart ∨ istop ≤ κ) (ksp : K istop) (klo : K ilo)
    (z : HqZ n ilo ihi K F b) (hb : b = 0 ∨ b = i)
    (g0 : ilo ≤ istart) (g1 : istart ≤ i) (g2 : i + 1 < istop) (g3 : istop ≤ ihi) (g4 : ihi ≤ n) :
    HqZ n ilo ihi K (hqNext i c s F) (i + 1) := by
  constructor
  · intro κ hκ r k hr h1 h2
    unfold hqNext
    split
    · rfl
    have hc := hK κ hκ
    by_cases hri : r = i ∨ r = i + 1
    · have hz : ∀ r', r' = i ∨ r' = i + 1 → F r' k = 0 := fun r' h' => z.cut κ hκ r' k (by omega) (by omega) h2
      exact simRot_zero_col (by omega) (by omega) (hz r hri) fun _ => ⟨hz i (.inl rfl), hz _ (.inr rfl)⟩
    · by_cases hki : k = i ∨ k = i + 1
      · have hz : ∀ k', k' = i ∨ k' = i + 1 → F r k' = 0 := fun k' h' => z.cut κ hκ r k' hr h1 (by omega)
        exact simRot_zero_row (by omega) (by omega) (hz k hki) fun _ => ⟨hz i (.inl rfl), hz _ (.inr rfl)⟩
      · rw [simRot_out (by omega) (by omega) (by omega) (by omega)]
        exact z.cut κ hκ r k hr h1 h2
  · intro r k h1 h2 h3 h4
    unfold hqNext
    split
    · rfl
    next hn =>
    by_cases hri : r = i ∨ r = i + 1
    · have hz : ∀ r', r' = i ∨ r' = i + 1 → F r' k = 0 := fun r' h' =>
        z.left hb klo (by omega) (by omega) g4 (by omega) h'
      exact simRot_zero_col (by omega) (by omega) (hz r hri) fun _ => ⟨hz i (.inl rfl), hz _ (.inr rfl)⟩
    · by_cases hki : k = i ∨ k = i + 1
      · have hz : ∀ k', k' = i ∨ k' = i + 1 → F r k' = 0 := fun k' h' =>
          z.below hb ksp (by omega) g2 g3 (by omega) (by omega) h'
        exact simRot_zero_row (by omega) (by omega) (hz k hki) fun _ => ⟨hz i (.inl rfl), hz _ (.inr rfl)⟩
      · rw [simRot_out (by omega) (by omega) (by omega) (by omega)]
        exact z.hess r k h1 h2 h3 (by omega)

end

end TLA
