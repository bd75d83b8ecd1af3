import Verif.Model.Gehrd
import Verif.Proofs.Hess
import Verif.Proofs.BlockApply
set_option linter.unusedTactic false
set_option linter.unusedVariables false
set_option linter.unreachableTactic false
set_option linter.unusedSectionVars false

/-! # The algebra of a panel of the blocked Hessenberg reduction -/

namespace TLA
open Finset
variable {L 𝕜 : Type} [DecidableEq L] [RCLike 𝕜] [DecidableEq 𝕜] {p : HhPar}

/-- `B` after the two-sided application of the first `i` reflectors. -/
def panM (n : Nat) (B : Nat → Nat → 𝕜) (t : Nat → 𝕜) (u : Nat → Nat → 𝕜) : Nat → Nat → Nat → 𝕜
  | 0 => B
  | i + 1 => applyL n (star (t i)) (u i) (applyR n (t i) (u i) (panM n B t u i))

theorem applyL_row0 {n : Nat} {t : 𝕜} {u : Nat → 𝕜} {G : Nat → Nat → 𝕜} {r c : Nat} (h : u r = 0) : applyL n t u G r c = G r c := by
  unfold applyL; rw [h]; simp

theorem applyR_col0 {n : Nat} {t : 𝕜} {u : Nat → 𝕜} {G : Nat → Nat → 𝕜} {r c : Nat} (h : u c = 0) : applyR n t u G r c = G r c := by
  unfold applyR; rw [h]; simp

theorem applyL_zero {n : Nat} {t : 𝕜} {u : Nat → 𝕜} {G : Nat → Nat → 𝕜} {r c : Nat} (h : ∀ s, s < n → u s = 0 ∨ G s c = 0) :
    applyL n t u G r c = G r c := by
  unfold applyL
  rw [Finset.sum_eq_zero, mul_zero, sub_zero]
  intro s hs
  rcases h s (mem_range.1 hs) with e | e <;> rw [e] <;> simp

theorem applyR_zero {n : Nat} {t : 𝕜} {u : Nat → 𝕜} {G : Nat → Nat → 𝕜} {r c : Nat} (h : ∀ s, s < n → u s = 0 ∨ G r s = 0) :
    applyR n t u G r c = G r c := by
  unfold applyR
  rw [Finset.sum_eq_zero, mul_zero, zero_mul, sub_zero]
  intro s hs
  rcases h s (mem_range.1 hs) with e | e <;> rw [e] <;> simp

theorem panM_congr {n : Nat} {B : Nat → Nat → 𝕜} {t t' : Nat → 𝕜} {u u' : Nat → Nat → 𝕜} {i : Nat} (ht : ∀ j, j < i → t' j = t j)
    (hu : ∀ j r, j < i → r < n → u' j r = u j r) : ∀ r c, r < n → c < n → panM n B t' u' i r c = panM n B t u i r c := by
  induction i with
  | zero => intro r c _ _; rfl
  | succ i ih =>
    have ih := ih (fun j hj => ht j (by omega)) (fun j r hj hr => hu j r (by omega) hr)
    have hR : ∀ r c, r < n → c < n → applyR n (t' i) (u' i) (panM n B t' u' i) r c = applyR n (t i) (u i) (panM n B t u i) r c := by
      intro r c hr hc
      unfold applyR
      rw [ih r c hr hc, ht i (by omega), hu i c (by omega) hc]
      congr 2
      congr 1
      exact Finset.sum_congr rfl fun s hs => by rw [ih r s hr (mem_range.1 hs), hu i s (by omega) (mem_range.1 hs)]
    intro r c hr hc
    simp only [panM]
    unfold applyL
    have hS : ∑ s ∈ range n, star (u' i s) * applyR n (t' i) (u' i) (panM n B t' u' i) s c =
        ∑ s ∈ range n, star (u i s) * applyR n (t i) (u i) (panM n B t u i) s c :=
      Finset.sum_congr rfl fun s hs => by rw [hR s c (mem_range.1 hs) hc, hu i s (by omega) (mem_range.1 hs)]
    rw [hR r c hr hc, hS, ht i (by omega), hu i r (by omega) hr]

/-- The matrix form. -/
theorem panM_prod {n : Nat} {B : Nat → Nat → 𝕜} {t : Nat → 𝕜} {u : Nat → Nat → 𝕜} (i : Nat) :
    mat n n (panM n B t u i) = (reflProd n 0 i t u).conjTranspose * mat n n B * reflProd n 0 i t u := by
  induction i with
  | zero => simp [panM, reflProd]
  | succ i ih =>
    rw [panM, mat_applyL, mat_applyR, ih, reflProd_succ, Nat.zero_add, Matrix.conjTranspose_mul, refl_conjTranspose]
    simp only [Matrix.mul_assoc]

theorem trel_reflProd {n i : Nat} {t : Nat → 𝕜} {u Tf : Nat → Nat → 𝕜} (h : TRel .Forward i (gramF n u) t Tf) :
    mat n n (blkF (range i) u Tf) = reflProd n 0 i t u := by
  rw [h.prod]
  unfold reflProd
  simp [qidx]

/-- `B P` for the block reflector `P`. -/
theorem blkF_right {n : Nat} {B u Tf : Nat → Nat → 𝕜} {i r c : Nat} (hc : c < n) :
    ∑ l ∈ range n, B r l * blkF (range i) u Tf l c =
      B r c - ∑ j ∈ range i, (∑ l ∈ range n, B r l * ∑ a ∈ range i, u a l * Tf a j) * star (u j c) := by
  unfold blkF
  simp only [mul_sub, mul_ite, mul_one, mul_zero, Finset.sum_sub_distrib]
  rw [Finset.sum_ite_eq', if_pos (mem_range.2 hc)]
  congr 1
  have e : ∀ l, B r l * ∑ a ∈ range i, ∑ b ∈ range i, u a l * Tf a b * star (u b c) =
      ∑ b ∈ range i, (B r l * ∑ a ∈ range i, u a l * Tf a b) * star (u b c) := by
    intro l
    rw [Finset.sum_comm, Finset.mul_sum]
    refine Finset.sum_congr rfl fun b _ => ?_
    rw [mul_assoc, Finset.sum_mul]
  simp only [e]
  rw [Finset.sum_comm]
  exact Finset.sum_congr rfl fun b _ => by rw [Finset.sum_mul]

/-- `P^H W` for the block reflector `P`. -/
theorem blkF_left {n : Nat} {W u Tf : Nat → Nat → 𝕜} {i r c : Nat} (hr : r < n) :
    ∑ s ∈ range n, star (blkF (range i) u Tf s r) * W s c =
      W r c - ∑ l ∈ range i, u l r * ∑ b ∈ range i, star (Tf b l) * ∑ s ∈ range n, star (u b s) * W s c := by
  have e : ∀ s, star (blkF (range i) u Tf s r) * W s c =
      (if s = r then W s c else 0) - ∑ b ∈ range i, ∑ a ∈ range i, u b r * (star (Tf a b) * (star (u a s) * W s c)) := by
    intro s
    unfold blkF
    rw [star_sub, sub_mul]
    congr 1
    · split <;> simp
    · simp only [star_sum, Finset.sum_mul]
      rw [Finset.sum_comm]
      refine Finset.sum_congr rfl fun a _ => Finset.sum_congr rfl fun b _ => ?_
      simp only [star_mul', star_star]
      ring
  simp only [e]
  rw [Finset.sum_sub_distrib, Finset.sum_ite_eq', if_pos (mem_range.2 hr)]
  congr 1
  rw [Finset.sum_comm]
  refine Finset.sum_congr rfl fun l hl => ?_
  rw [Finset.mul_sum, Finset.sum_comm]
  refine Finset.sum_congr rfl fun b _ => ?_
  rw [Finset.mul_sum, Finset.mul_sum]

/-- The entries after the two-sided application, from the block form. -/
theorem panM_entry {n i : Nat} {B : Nat → Nat → 𝕜} {t : Nat → 𝕜} {u Tf : Nat → Nat → 𝕜} (h : TRel .Forward i (gramF n u) t Tf)
    {r c : Nat} (hr : r < n) (hc : c < n) :
    panM n B t u i r c = (∑ l ∈ range n, B r l * blkF (range i) u Tf l c) - ∑ l ∈ range i, u l r * ∑ b ∈ range i, star (Tf b l) *
      ∑ s ∈ range n, star (u b s) * ∑ l ∈ range n, B s l * blkF (range i) u Tf l c := by
  have e := panM_prod (n := n) (B := B) (t := t) (u := u) i
  rw [← trel_reflProd h, Matrix.mul_assoc, mat_mul, mat_conjTranspose, mat_mul, mat_ext_iff] at e
  rw [e r c hr hc]
  exact blkF_left (𝕜 := 𝕜) (W := fun s c => ∑ l ∈ range n, B s l * blkF (range i) u Tf l c) (u := u) (Tf := Tf) (i := i) (c := c) hr

/-- A panel of `i` reflectors of the Hessenberg reduction of `B` starting in column `k`. -/
structure Pan (n k ihi : Nat) (B : Nat → Nat → 𝕜) (i : Nat) (u : Nat → Nat → 𝕜) (t : Nat → 𝕜) (Tf Y F : Nat → Nat → 𝕜) : Prop where
  supp : ∀ j r, j < i → (r < k + 1 + j ∨ ihi ≤ r) → u j r = 0
  rel : TRel .Forward i (gramF n u) t Tf
  y : ∀ r j, k < r → r < ihi → j < i → Y r j = ∑ l ∈ range n, B r l * ∑ a ∈ range i, u a l * Tf a j
  unit : ∀ j, j < i → (mat n n (reflF (t j) (u j))).conjTranspose * mat n n (reflF (t j) (u j)) = 1
  col : ∀ j r, j < i → k < r → r < ihi → panM n B t u i r (k + j) = if r ≤ k + 1 + j then F r j else 0

theorem Pan.zero {n k ihi : Nat} {B : Nat → Nat → 𝕜} {u : Nat → Nat → 𝕜} {t : Nat → 𝕜} {Tf Y F : Nat → Nat → 𝕜} :
    Pan n k ihi B 0 u t Tf Y F :=
  ⟨fun _ _ h => by omega, ⟨fun _ h => by omega, fun _ _ h => by omega, fun _ _ h => by omega⟩, fun _ _ _ _ h => by omega,
    fun _ h => by omega, fun _ _ h => by omega⟩

theorem Pan.frob {n k ihi : Nat} {B : Nat → Nat → 𝕜} {i : Nat} {u : Nat → Nat → 𝕜} {t : Nat → 𝕜} {Tf Y F : Nat → Nat → 𝕜}
    (h : Pan n k ihi B i u t Tf Y F) : frobSq n n (panM n B t u i) = frobSq n n B := by
  have hu : (reflProd n 0 i t u).conjTranspose * reflProd n 0 i t u = 1 := reflProd_unitary fun j _ hj => h.unit j (by omega)
  have hu' := mul_eq_one_comm.1 hu
  refine frobSq_unitary (Q := (reflProd n 0 i t u).conjTranspose) (W := reflProd n 0 i t u) ?_ hu' (panM_prod i)
  rw [Matrix.conjTranspose_conjTranspose]
  exact hu'

/-- One more reflector. -/
theorem Pan.next {n k ihi : Nat} {B : Nat → Nat → 𝕜} {i : Nat} {u u' : Nat → Nat → 𝕜} {t t' : Nat → 𝕜} {Tf Tf' Y Y' F F' : Nat → Nat → 𝕜}
    (h : Pan n k ihi B i u t Tf Y F) (hk : k + i + 1 < ihi) (hn : ihi ≤ n)
    (hu : ∀ j r, j < i → r < n → u' j r = u j r) (ht : ∀ j, j < i → t' j = t j)
    (hT : ∀ a j, a < i → j < i → Tf' a j = Tf a j) (hY : ∀ r j, k < r → r < ihi → j < i → Y' r j = Y r j)
    (hF : ∀ r j, k < r → r ≤ k + 1 + j → j < i → F' r j = F r j)
    (hsupp : ∀ j r, j < i + 1 → (r < k + 1 + j ∨ ihi ≤ r) → u' j r = 0)
    (hd : Tf' i i = t' i) (hz : ∀ b, b < i → Tf' i b = 0)
    (ho : ∀ a, a < i → Tf' a i = -t' i * ∑ b ∈ range i, Tf' a b * gramF n u' b i)
    (hy : ∀ r, k < r → r < ihi → Y' r i = t' i * (∑ l ∈ range n, B r l * u' i l - ∑ j ∈ range i, Y r j * gramF n u' j i))
    (hunit : (mat n n (reflF (t' i) (u' i))).conjTranspose * mat n n (reflF (t' i) (u' i)) = 1)
    (hcol : ∀ r, k < r → r < ihi → applyL n (star (t' i)) (u' i) (panM n B t u i) r (k + i) = if r ≤ k + 1 + i then F' r i else 0) :
    Pan n k ihi B (i + 1) u' t' Tf' Y' F' := by
  have bs : ∀ k i, bset .Forward k i = range i := fun k i => by simp [bset]
  have hg : ∀ a b, a < i → b < i → gramF n u' a b = gramF n u a b := by
    intro a b ha hb
    unfold gramF
    exact Finset.sum_congr rfl fun s hs => by rw [hu a s ha (mem_range.1 hs), hu b s hb (mem_range.1 hs)]
  have rel' : TRel .Forward (i + 1) (gramF n u') t' Tf' := by
    refine ⟨fun j hj => ?_, fun j b hj hb => ?_, fun j a hj ha => ?_⟩
    · by_cases e : j = i
      · subst e; exact hd
      · rw [hT j j (by omega) (by omega), ht j (by omega), h.rel.diag j (by omega)]
    · rw [bs, mem_range] at hb
      by_cases e : j = i
      · subst e; exact hz b hb
      · rw [hT j b (by omega) (by omega), h.rel.zero j b (by omega) (by rw [bs, mem_range]; exact hb)]
    · rw [bs, mem_range] at ha
      rw [bs]
      by_cases e : j = i
      · subst e; exact ho a ha
      · rw [hT a j (by omega) (by omega), ht j (by omega), h.rel.off j a (by omega) (by rw [bs, mem_range]; exact ha), bs]
        congr 1
        refine Finset.sum_congr rfl fun b hb => ?_
        have hb := mem_range.1 hb
        rw [hT a b (by omega) (by omega), hg b j (by omega) (by omega)]
  have hP : ∀ r c, r < n → c < n → panM n B t' u' i r c = panM n B t u i r c := panM_congr ht hu
  refine ⟨hsupp, rel', fun r j h1 h2 hj => ?_, fun j hj => ?_, fun j r hj h1 h2 => ?_⟩
  · by_cases e : j = i
    · subst e
      rw [hy r h1 h2]
      have e1 : ∀ l ∈ range n, B r l * ∑ a ∈ range (j + 1), u' a l * Tf' a j =
          B r l * (∑ a ∈ range j, u a l * (-t' j * ∑ b ∈ range j, Tf a b * gramF n u' b j)) + t' j * (B r l * u' j l) := by
        intro l hl
        rw [Finset.sum_range_succ, hd]
        rw [Finset.sum_congr rfl fun a ha => by rw [hu a l (mem_range.1 ha) (mem_range.1 hl), ho a (mem_range.1 ha),
          Finset.sum_congr rfl fun b hb => by rw [hT a b (mem_range.1 ha) (mem_range.1 hb)]]]
        ring
      rw [Finset.sum_congr rfl e1, Finset.sum_add_distrib, ← Finset.mul_sum, mul_sub, add_comm, sub_eq_add_neg]
      congr 1
      rw [Finset.mul_sum, ← Finset.sum_neg_distrib]
      have e2 : ∀ x ∈ range j, -(t' j * (Y r x * gramF n u' x j)) =
          ∑ l ∈ range n, B r l * ∑ a ∈ range j, u a l * (-t' j * (Tf a x * gramF n u' x j)) := by
        intro x hx
        rw [h.y r x h1 h2 (mem_range.1 hx), Finset.sum_mul, Finset.mul_sum, ← Finset.sum_neg_distrib]
        refine Finset.sum_congr rfl fun l _ => ?_
        rw [show -(t' j * (B r l * (∑ a ∈ range j, u a l * Tf a x) * gramF n u' x j)) =
          B r l * ((∑ a ∈ range j, u a l * Tf a x) * (-t' j * gramF n u' x j)) by ring, Finset.sum_mul]
        congr 1
        exact Finset.sum_congr rfl fun a _ => by ring
      rw [Finset.sum_congr rfl e2, Finset.sum_comm]
      refine Finset.sum_congr rfl fun l _ => ?_
      rw [← Finset.mul_sum]
      congr 1
      rw [Finset.sum_comm]
      refine Finset.sum_congr rfl fun a _ => ?_
      rw [← Finset.mul_sum, ← Finset.mul_sum]
    · rw [hY r j h1 h2 (by omega), h.y r j h1 h2 (by omega)]
      refine Finset.sum_congr rfl fun l hl => ?_
      rw [Finset.sum_range_succ, hz j (by omega), mul_zero, add_zero]
      congr 1
      exact Finset.sum_congr rfl fun a ha => by
        have ha := mem_range.1 ha
        rw [hu a l ha (mem_range.1 hl), hT a j ha (by omega)]
  · by_cases e : j = i
    · subst e; exact hunit
    · have : mat n n (reflF (t' j) (u' j)) = mat n n (reflF (t j) (u j)) := by
        rw [mat_ext_iff]
        intro r c hr hc
        unfold reflF
        rw [ht j (by omega), hu j r (by omega) hr, hu j c (by omega) hc]
      rw [this]
      exact h.unit j (by omega)
  · simp only [panM]
    have hR : ∀ s, s < n → applyR n (t' i) (u' i) (panM n B t' u' i) s (k + j) = panM n B t u i s (k + j) := by
      intro s hs
      rw [applyR_col0 (hsupp i (k + j) (by omega) (by omega)), hP s (k + j) hs (by omega)]
    by_cases e : j = i
    · subst e
      rw [← hcol r h1 h2]
      unfold applyL
      rw [hR r (by omega)]
      congr 2
      exact Finset.sum_congr rfl fun s hs => by rw [hR s (mem_range.1 hs)]
    · rw [applyL_zero, hR r (by omega), h.col j r (by omega) h1 h2]
      · by_cases hh : r ≤ k + 1 + j
        · rw [if_pos hh, if_pos hh, hF r j h1 hh (by omega)]
        · rw [if_neg hh, if_neg hh]
      · intro s hs
        by_cases c : s < k + 1 + i ∨ ihi ≤ s
        · exact Or.inl (hsupp i s (by omega) c)
        · right
          rw [hR s hs, h.col j s (by omega) (by omega) (by omega), if_neg (by omega)]

/-- Columns left of the panel, and rows below the active block, are not changed. -/
theorem panM_left {n k ihi : Nat} {B : Nat → Nat → 𝕜} {i : Nat} {u : Nat → Nat → 𝕜} {t : Nat → 𝕜}
    (supp : ∀ j r, j < i → (r < k + 1 + j ∨ ihi ≤ r) → u j r = 0) {c : Nat} (hc : c < k)
    (hB : ∀ r, k < r → r < ihi → B r c = 0) : ∀ r, panM n B t u i r c = B r c := by
  induction i with
  | zero => intro r; rfl
  | succ i ih =>
    have ih := ih fun j r hj h => supp j r (by omega) h
    have hR : ∀ s, applyR n (t i) (u i) (panM n B t u i) s c = B s c := fun s => by
      rw [applyR_col0 (supp i c (by omega) (by omega)), ih]
    intro r
    simp only [panM]
    rw [applyL_zero, hR]
    intro s hs
    by_cases e : s < k + 1 + i ∨ ihi ≤ s
    · exact Or.inl (supp i s (by omega) e)
    · rw [hR]; exact Or.inr (hB s (by omega) (by omega))

theorem panM_bottom {n k ihi : Nat} {B : Nat → Nat → 𝕜} {i : Nat} {u : Nat → Nat → 𝕜} {t : Nat → 𝕜}
    (supp : ∀ j r, j < i → (r < k + 1 + j ∨ ihi ≤ r) → u j r = 0) {r : Nat} (hr : ihi ≤ r)
    (hB : ∀ c, c < ihi → B r c = 0) : ∀ c, panM n B t u i r c = B r c := by
  induction i with
  | zero => intro c; rfl
  | succ i ih =>
    have ih := ih fun j r hj h => supp j r (by omega) h
    intro c
    simp only [panM]
    rw [applyL_row0 (supp i r (by omega) (Or.inr hr)), applyR_zero, ih]
    intro s hs
    by_cases e : s < k + 1 + i ∨ ihi ≤ s
    · exact Or.inl (supp i s (by omega) e)
    · rw [ih]; exact Or.inr (hB s (by omega))

/-- Rows above the panel see the reflectors from the right only. -/
theorem panM_top {n k ihi : Nat} {B : Nat → Nat → 𝕜} {i : Nat} {u : Nat → Nat → 𝕜} {t : Nat → 𝕜} {Tf : Nat → Nat → 𝕜}
    (supp : ∀ j r, j < i → (r < k + 1 + j ∨ ihi ≤ r) → u j r = 0) (h : TRel .Forward i (gramF n u) t Tf) {r c : Nat} (hr : r ≤ k)
    (hrn : r < n) (hc : c < n) : panM n B t u i r c = ∑ l ∈ range n, B r l * blkF (range i) u Tf l c := by
  rw [panM_entry h hrn hc, Finset.sum_eq_zero (s := range i) fun l hl => by
    rw [supp l r (mem_range.1 hl) (by have := mem_range.1 hl; omega), zero_mul], sub_zero]

/-- A whole block of gehrd. -/
theorem HessInv.block {n ilo ihi s nb : Nat} {A0 G G' : Nat → Nat → 𝕜} {g g' : Nat → 𝕜} {Tf Y : Nat → Nat → 𝕜}
    (h : HessInv n ilo ihi A0 s G g) (hlo : ilo ≤ s) (hs : s + nb + 1 ≤ ihi) (hn : ihi ≤ n)
    (pan : Pan n s ihi (hz ilo ihi s G) nb (fun j => reflCol 1 ihi G' (s + j)) (fun j => g' (s + j)) Tf Y (fun r j => G' r (s + j)))
    (hsame : ∀ r c, r < n → c < n → c < s ∨ (c = s ∧ r ≤ s) ∨ ihi ≤ r → G' r c = G r c)
    (htop : ∀ r c, r ≤ s → s < c → c < n → G' r c =
      ∑ l ∈ range n, hz ilo ihi s G r l * blkF (range nb) (fun j => reflCol 1 ihi G' (s + j)) Tf l c)
    (hrest : ∀ r c, s < r → r < ihi → s + nb ≤ c → c < n →
      G' r c = panM n (hz ilo ihi s G) (fun j => g' (s + j)) (fun j => reflCol 1 ihi G' (s + j)) nb r c)
    (hreal : ∀ j, j < nb → star (G' (s + j + 1) (s + j)) = G' (s + j + 1) (s + j)) (hg : ∀ i, i < s → g' i = g i) :
    HessInv n ilo ihi A0 (s + nb) G' g' := by
  set B := hz ilo ihi s G with hB
  have Bge : ∀ r c, s ≤ c → B r c = G r c := fun r c hc => hz_out (by omega)
  have Bhi : ∀ r c, r < n → ihi ≤ r → c < ihi → B r c = 0 := by
    intro r c hr h1 h2
    rw [hB]; unfold hz
    split
    · rfl
    · exact h.shape.hi r c hr h1 h2
  have Bleft : ∀ c, c < s → ∀ r, s < r → r < ihi → B r c = 0 := by
    intro c hc r h1 h2
    by_cases e : ilo ≤ c
    · exact hz_in (by omega)
    · rw [hB, hz_out (by omega)]
      exact h.shape.lo r c (by omega) (by omega) (by omega)
  have key : mat n n (hz ilo ihi (s + nb) G') = mat n n (panM n B (fun j => g' (s + j)) (fun j => reflCol 1 ihi G' (s + j)) nb) := by
    rw [mat_ext_iff]
    intro r c hr hc
    by_cases h1 : ihi ≤ r
    · rw [panM_bottom pan.supp h1 (fun c hc => Bhi r c hr h1 hc), hz_out (by omega), hsame r c hr hc (by omega), hB, hz_out (by omega)]
    by_cases h2 : c < s
    · rw [panM_left pan.supp h2 (Bleft c h2), hB]
      unfold hz
      rw [hsame r c hr hc (by omega)]
      by_cases e : (ilo ≤ c ∧ c < s) ∧ c + 1 < r ∧ r < ihi
      · rw [if_pos e, if_pos (by omega)]
      · rw [if_neg e, if_neg (by omega)]
    by_cases h3 : r ≤ s
    · rw [panM_top pan.supp pan.rel h3 hr hc, hz_out (by omega)]
      by_cases h4 : c = s
      · subst h4
        rw [hsame r c hr hc (by omega), blkF_right hc, Finset.sum_eq_zero, sub_zero, Bge r c (le_refl _)]
        intro j hj
        rw [pan.supp j c (mem_range.1 hj) (by omega), star_zero, mul_zero]
      · exact htop r c h3 (by omega) hc
    by_cases h5 : s + nb ≤ c
    · rw [hz_out (by omega)]
      exact hrest r c (by omega) (by omega) h5 hc
    obtain ⟨j, rfl⟩ : ∃ j, c = s + j := ⟨c - s, by omega⟩
    rw [pan.col j r (by omega) (by omega) (by omega)]
    by_cases e : r ≤ s + 1 + j
    · rw [if_pos e, hz_out (by omega)]
    · rw [if_neg e, hz_in (by omega)]
  have hold : ∀ i, i < s → ∀ r, r < n → reflCol 1 ihi G' i r = reflCol 1 ihi G i r := by
    intro i hi r hr
    unfold reflCol
    rw [hsame r i hr (by omega) (by omega)]
  have hQ : reflProd n ilo (s + nb - ilo) g' (reflCol 1 ihi G') = reflProd n ilo (s - ilo) g (reflCol 1 ihi G) *
      reflProd n 0 nb (fun j => g' (s + j)) (fun j => reflCol 1 ihi G' (s + j)) := by
    rw [show s + nb - ilo = (s - ilo) + nb by omega]
    unfold reflProd
    rw [List.range_add, List.map_append, List.prod_append, List.map_map]
    congr 1
    · congr 1
      refine List.map_congr_left fun i hi => ?_
      have hi := List.mem_range.1 hi
      rw [hg _ (by omega), mat_ext_iff]
      intro r c hr hc
      unfold reflF
      rw [hold _ (by omega) r hr, hold _ (by omega) c hc]
    · congr 1
      refine List.map_congr_left fun i hi => ?_
      simp only [Function.comp]
      rw [show ilo + (s - ilo + i) = s + (0 + i) by omega]
  have hu : (reflProd n 0 nb (fun j => g' (s + j)) (fun j => reflCol 1 ihi G' (s + j))).conjTranspose *
      reflProd n 0 nb (fun j => g' (s + j)) (fun j => reflCol 1 ihi G' (s + j)) = 1 :=
    reflProd_unitary fun j _ hj => pan.unit j (by omega)
  have hu' := mul_eq_one_comm.1 hu
  refine ⟨?_, fun i h0 h1 => ?_, fun i h0 h1 => ?_, ⟨fun r c hr hc h1 => ?_, fun r c hr h1 hc => ?_⟩, fun r c hr hc hh => ?_⟩
  · rw [h.prod, ← hB, key, panM_prod, hQ, Matrix.conjTranspose_mul]
    generalize reflProd n 0 nb (fun j => g' (s + j)) (fun j => reflCol 1 ihi G' (s + j)) = W at hu hu'
    generalize reflProd n ilo (s - ilo) g (reflCol 1 ihi G) = V
    rw [show V * W * (W.conjTranspose * mat n n B * W) * (W.conjTranspose * V.conjTranspose) =
      V * (W * W.conjTranspose) * mat n n B * (W * W.conjTranspose) * V.conjTranspose by simp only [Matrix.mul_assoc], hu',
      Matrix.mul_one, Matrix.mul_one]
  · by_cases e : i < s
    · have : mat n n (reflF (g' i) (reflCol 1 ihi G' i)) = mat n n (reflF (g i) (reflCol 1 ihi G i)) := by
        rw [hg i e, mat_ext_iff]
        intro r c hr hc
        unfold reflF
        rw [hold i e r hr, hold i e c hc]
      rw [this]
      exact h.unit i h0 e
    · obtain ⟨j, rfl⟩ : ∃ j, i = s + j := ⟨i - s, by omega⟩
      exact pan.unit j (by omega)
  · by_cases e : i < s
    · rw [hsame (i + 1) i (by omega) (by omega) (by omega)]
      exact h.real i h0 e
    · obtain ⟨j, rfl⟩ : ∃ j, i = s + j := ⟨i - s, by omega⟩
      exact hreal j (by omega)
  · rw [hsame r c hr (by omega) (by omega)]
    exact h.shape.lo r c hr hc h1
  · rw [hsame r c hr (by omega) (by omega)]
    exact h.shape.hi r c hr h1 hc
  · rw [hsame r c hr hc (by omega)]
    exact h.same r c hr hc hh

end TLA
