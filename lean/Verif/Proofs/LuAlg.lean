import Verif.Proofs.BlockMat
import Mathlib.Logic.Equiv.Basic
import Mathlib.Algebra.Group.End

/-! Algebra of LU factorization with row exchanges. -/

set_option linter.unusedSectionVars false

namespace TLA
open Finset

/-- The row permutation of the exchanges `0 ↔ p 0`, `1 ↔ p 1`, ..., `k-1 ↔ p (k-1)`, in that
order: after them row `i` is the original row `pivPerm p k i`. -/
def pivPerm (p : Nat → Nat) : Nat → Equiv.Perm Nat
  | 0 => 1
  | k + 1 => pivPerm p k * Equiv.swap k (p k)

theorem pivPerm_zero (p : Nat → Nat) (i : Nat) : pivPerm p 0 i = i := rfl

theorem pivPerm_succ (p : Nat → Nat) (k i : Nat) :
    pivPerm p (k + 1) i = pivPerm p k (Equiv.swap k (p k) i) := rfl

theorem pivPerm_congr {p q : Nat → Nat} {k : Nat} (h : ∀ j, j < k → p j = q j) :
    pivPerm p k = pivPerm q k := by
  induction k with
  | zero => rfl
  | succ k ih => rw [pivPerm, pivPerm, ih (fun j hj => h j (by omega)), h k (by omega)]

theorem swap_lt {m a b i : Nat} (ha : a < m) (hb : b < m) (hi : i < m) : Equiv.swap a b i < m := by
  rw [Equiv.swap_apply_def]; split_ifs <;> omega

theorem pivPerm_lt {p : Nat → Nat} {m k : Nat} (hk : k ≤ m) (h : ∀ j, j < k → p j < m) {i : Nat}
    (hi : i < m) : pivPerm p k i < m := by
  induction k generalizing i with
  | zero => exact hi
  | succ k ih =>
    rw [pivPerm_succ]
    exact ih (by omega) (fun j hj => h j (by omega)) (swap_lt (by omega) (h k (by omega)) hi)

theorem pivPerm_symm_lt {p : Nat → Nat} {m k : Nat} (hk : k ≤ m) (h : ∀ j, j < k → p j < m) {i : Nat}
    (hi : i < m) : (pivPerm p k).symm i < m := by
  induction k generalizing i with
  | zero => exact hi
  | succ k ih =>
    have : (pivPerm p (k + 1)).symm i = Equiv.swap k (p k) ((pivPerm p k).symm i) := by
      rw [Equiv.symm_apply_eq, pivPerm_succ, Equiv.swap_apply_self, Equiv.apply_symm_apply]
    rw [this]
    exact swap_lt (by omega) (h k (by omega)) (ih (by omega) (fun j hj => h j (by omega)) hi)

theorem swap_add (a i j k : Nat) : Equiv.swap (a + i) (a + j) (a + k) = a + Equiv.swap i j k := by
  rw [Equiv.swap_apply_def, Equiv.swap_apply_def]
  split_ifs <;> omega

/-- Exchanges of the trailing rows after exchanges of all the rows. -/
theorem pivPerm_add {p p1 : Nat → Nat} {k0 t : Nat} (h : ∀ i, i < t → p (k0 + i) = k0 + p1 i) (i : Nat) :
    pivPerm p (k0 + t) (k0 + i) = pivPerm p k0 (k0 + pivPerm p1 t i) := by
  induction t generalizing i with
  | zero => rfl
  | succ t ih =>
    rw [show k0 + (t + 1) = (k0 + t) + 1 by omega, pivPerm_succ, h t (by omega), swap_add,
      ih (fun i hi => h i (by omega)), pivPerm_succ]

theorem pivPerm_top {p p1 : Nat → Nat} {k0 t : Nat} (h : ∀ i, i < t → p (k0 + i) = k0 + p1 i) {i : Nat}
    (hi : i < k0) : pivPerm p (k0 + t) i = pivPerm p k0 i := by
  induction t generalizing i with
  | zero => rfl
  | succ t ih =>
    rw [show k0 + (t + 1) = (k0 + t) + 1 by omega, pivPerm_succ, h t (by omega),
      Equiv.swap_apply_of_ne_of_ne (by omega) (by omega), ih (fun i hi => h i (by omega)) hi]

variable {T : Type} [Field T]

/-- The unit lower trapezoidal factor stored in `F`. -/
abbrev lowF (F : Nat → Nat → T) : Nat → Nat → T := triF .Lower .Unit F
/-- The upper trapezoidal factor stored in `F`. -/
abbrev uppF (F : Nat → Nat → T) : Nat → Nat → T := triF .Upper .NonUnit F

theorem lowF_lt (F : Nat → Nat → T) {i j : Nat} (h : j < i) : lowF F i j = F i j := by
  unfold lowF triF
  rw [if_neg (by omega)]
  exact if_pos (show j ≤ i by omega)

theorem lowF_self (F : Nat → Nat → T) (i : Nat) : lowF F i i = 1 := by
  unfold lowF triF
  rw [if_pos rfl]

theorem lowF_gt (F : Nat → Nat → T) {i j : Nat} (h : i < j) : lowF F i j = 0 := by
  unfold lowF triF
  rw [if_neg (by omega)]
  exact if_neg (show ¬ j ≤ i by omega)

theorem uppF_le (F : Nat → Nat → T) {i j : Nat} (h : i ≤ j) : uppF F i j = F i j := by
  unfold uppF triF
  by_cases e : i = j
  · subst e; rw [if_pos rfl]
  · rw [if_neg e]; exact if_pos h

theorem uppF_gt (F : Nat → Nat → T) {i j : Nat} (h : j < i) : uppF F i j = 0 := by
  unfold uppF triF
  rw [if_neg (by omega)]
  exact if_neg (show ¬ i ≤ j by omega)

theorem lowF_congr {F G : Nat → Nat → T} {i j : Nat} (h : j < i → F i j = G i j) :
    lowF F i j = lowF G i j := by
  rcases Nat.lt_trichotomy i j with h1 | h1 | h1
  · rw [lowF_gt _ h1, lowF_gt _ h1]
  · subst h1; rw [lowF_self, lowF_self]
  · rw [lowF_lt _ h1, lowF_lt _ h1, h h1]

theorem uppF_congr {F G : Nat → Nat → T} {i j : Nat} (h : i ≤ j → F i j = G i j) :
    uppF F i j = uppF G i j := by
  by_cases h1 : i ≤ j
  · rw [uppF_le _ h1, uppF_le _ h1, h h1]
  · rw [uppF_gt _ (by omega), uppF_gt _ (by omega)]

/-- `j` columns have been eliminated: the exchanged matrix is `L U` plus the remaining Schur
complement. -/
def LuPart (m n j : Nat) (G : Nat → Nat → T) (s : Nat → Nat) (F : Nat → Nat → T) : Prop :=
  ∀ i c, i < m → c < n → G (s i) c = ∑ l ∈ range j, lowF F i l * uppF F l c +
    (if j ≤ i ∧ j ≤ c then F i c else 0)

theorem LuPart.zero (m n : Nat) (G : Nat → Nat → T) (p : Nat → Nat) : LuPart m n 0 G (pivPerm p 0) G := by
  intro i c _ _
  simp [pivPerm_zero]

/-- Elimination of one column after one exchange. -/
theorem LuPart.step {m n j : Nat} {G F F1 F2 : Nat → Nat → T} {p : Nat → Nat}
    (h : LuPart m n j G (pivPerm p j) F) (hjm : j < m) (hjn : j < n)
    (hp : j ≤ p j) (hpm : p j < m)
    (h1 : ∀ i c, i < m → c < n → F1 i c = F (Equiv.swap j (p j) i) c) (h0 : F1 j j ≠ 0)
    (h2 : ∀ i c, i < m → c < n → F2 i c = if j < i then (if c = j then F1 i j / F1 j j
      else if j < c then F1 i c - F1 i j / F1 j j * F1 j c else F1 i c) else F1 i c) :
    LuPart m n (j + 1) G (pivPerm p (j + 1)) F2 := by
  intro i c hi hc
  have hs : Equiv.swap j (p j) i < m := swap_lt hjm hpm hi
  rw [pivPerm_succ, h _ c hs hc, Finset.sum_range_succ]
  have hsum : ∑ l ∈ range j, lowF F (Equiv.swap j (p j) i) l * uppF F l c =
      ∑ l ∈ range j, lowF F2 i l * uppF F2 l c := by
    refine Finset.sum_congr rfl (fun l hl => ?_)
    have hlj : l < j := Finset.mem_range.1 hl
    have e1 : uppF F l c = uppF F2 l c := by
      refine uppF_congr (fun _ => ?_)
      rw [h2 l c (by omega) hc, if_neg (by omega), h1 l c (by omega) hc,
        Equiv.swap_apply_of_ne_of_ne (by omega) (by omega)]
    have e2 : lowF F (Equiv.swap j (p j) i) l = lowF F2 i l := by
      by_cases hij : i < j
      · rw [Equiv.swap_apply_of_ne_of_ne (by omega) (by omega)]
        refine lowF_congr (fun _ => ?_)
        rw [h2 i l hi (by omega), if_neg (by omega), h1 i l hi (by omega),
          Equiv.swap_apply_of_ne_of_ne (by omega) (by omega)]
      · have hge : j ≤ Equiv.swap j (p j) i := by
          rw [Equiv.swap_apply_def]; split_ifs <;> omega
        rw [lowF_lt _ (by omega), lowF_lt _ (by omega), h2 i l hi (by omega)]
        rw [if_neg (show ¬ l = j by omega), if_neg (show ¬ j < l by omega), ite_self,
          h1 i l hi (by omega)]
    rw [e1, e2]
  rw [hsum, add_assoc]
  congr 1
  by_cases hij : i < j
  · rw [Equiv.swap_apply_of_ne_of_ne (by omega) (by omega), if_neg (by omega), if_neg (by omega),
      lowF_gt _ hij]
    simp
  · have hge : j ≤ Equiv.swap j (p j) i := by
      rw [Equiv.swap_apply_def]; split_ifs <;> omega
    by_cases hcj : c < j
    · rw [if_neg (by omega), if_neg (by omega), uppF_gt _ hcj]; simp
    · rw [if_pos ⟨hge, by omega⟩, ← h1 i c hi hc, uppF_le _ (by omega : j ≤ c)]
      have hj : F2 j c = F1 j c := by rw [h2 j c hjm hc, if_neg (by omega)]
      rw [hj]
      by_cases hii : i = j
      · subst hii
        rw [lowF_self, if_neg (by omega)]; simp
      · rw [lowF_lt _ (by omega), h2 i j hi hjn, if_pos (by omega), if_pos rfl]
        by_cases hcc : c = j
        · subst hcc
          rw [if_neg (by omega), div_mul_cancel₀ _ h0, add_zero]
        · rw [if_pos (by omega), h2 i c hi hc, if_pos (by omega), if_neg hcc, if_pos (by omega)]
          ring

/-- The first `j` columns are linearly independent. -/
def ColsIndep (m j : Nat) (G : Nat → Nat → T) : Prop :=
  ∀ x : Nat → T, (∀ i, i < m → ∑ c ∈ range j, G i c * x c = 0) → ∀ c, c < j → x c = 0

/-- Column `j` is a combination of the columns before it. -/
def ColDep (m j : Nat) (G : Nat → Nat → T) : Prop :=
  ∃ y : Nat → T, ∀ i, i < m → G i j = ∑ c ∈ range j, G i c * y c

theorem low_zero {n : Nat} {F : Nat → Nat → T} {y : Nat → T}
    (h : ∀ i, i < n → ∑ l ∈ range n, lowF F i l * y l = 0) : ∀ i, i < n → y i = 0 := by
  intro i
  induction i using Nat.strong_induction_on with
  | _ i ih =>
    intro hi
    have := h i hi
    rw [Finset.sum_eq_single i] at this
    · rwa [lowF_self, one_mul] at this
    · intro l hl hne
      have := Finset.mem_range.1 hl
      by_cases hlt : l < i
      · rw [ih l hlt (by omega), mul_zero]
      · rw [lowF_gt _ (by omega), zero_mul]
    · intro hn; exact absurd (Finset.mem_range.2 hi) hn

theorem upp_zero {n : Nat} {F : Nat → Nat → T} {y : Nat → T} (hd : ∀ i, i < n → F i i ≠ 0)
    (h : ∀ i, i < n → ∑ l ∈ range n, uppF F i l * y l = 0) : ∀ i, i < n → y i = 0 := by
  have : ∀ t i, i < n → n - i ≤ t → y i = 0 := by
    intro t
    induction t with
    | zero => intro i hi ht; omega
    | succ t ih =>
      intro i hi ht
      have := h i hi
      rw [Finset.sum_eq_single i] at this
      · rw [uppF_le _ (le_refl i)] at this
        exact (mul_eq_zero.1 this).resolve_left (hd i hi)
      · intro l hl hne
        have := Finset.mem_range.1 hl
        by_cases hlt : l < i
        · rw [uppF_gt _ hlt, zero_mul]
        · rw [ih l (by omega) (by omega), mul_zero]
      · intro hn; exact absurd (Finset.mem_range.2 hi) hn
  exact fun i hi => this n i hi (by omega)

/-- Upper triangular systems with nonzero diagonal are solvable. -/
theorem upp_solve {F : Nat → Nat → T} (n : Nat) (b : Nat → T) (hd : ∀ i, i < n → F i i ≠ 0) :
    ∃ y : Nat → T, ∀ i, i < n → ∑ l ∈ range n, uppF F i l * y l = b i := by
  induction n generalizing b with
  | zero => exact ⟨fun _ => 0, fun i hi => by omega⟩
  | succ n ih =>
    obtain ⟨y, hy⟩ := ih (fun i => b i - F i n * (b n / F n n)) (fun i hi => hd i (by omega))
    refine ⟨fun i => if i = n then b n / F n n else y i, fun i hi => ?_⟩
    rw [Finset.sum_range_succ]
    beta_reduce
    rw [if_pos rfl]
    have e : ∑ l ∈ range n, uppF F i l * (if l = n then b n / F n n else y l) =
        ∑ l ∈ range n, uppF F i l * y l := by
      refine Finset.sum_congr rfl (fun l hl => ?_)
      rw [if_neg (by have := Finset.mem_range.1 hl; omega)]
    rw [e]
    by_cases h : i = n
    · subst h
      rw [Finset.sum_eq_zero, uppF_le _ (le_refl i), zero_add, mul_div_cancel₀ _ (hd i (by omega))]
      intro l hl
      rw [uppF_gt _ (Finset.mem_range.1 hl), zero_mul]
    · rw [hy i (by omega), uppF_le _ (by omega)]
      ring

theorem sum_swap_mul (a b : Nat) (f : Nat → T) (g : Nat → Nat → T) (x : Nat → T) :
    ∑ c ∈ range b, (∑ l ∈ range a, f l * g l c) * x c =
      ∑ l ∈ range a, f l * ∑ c ∈ range b, g l c * x c := by
  simp only [Finset.sum_mul, Finset.mul_sum]
  rw [Finset.sum_comm]
  refine Finset.sum_congr rfl (fun l _ => Finset.sum_congr rfl (fun c _ => by ring))

/-- Independence of leading columns passes from the Schur complement to the matrix. -/
theorem LuPart.indep {m n j t : Nat} {G F : Nat → Nat → T} {s : Nat → Nat}
    (h : LuPart m n j G s F) (hs : ∀ i, i < m → s i < m) (hj : j ≤ m) (ht : j + t ≤ n)
    (hd : ∀ i, i < j → F i i ≠ 0) (hS : ColsIndep (m - j) t (sh j j F)) :
    ColsIndep m (j + t) G := by
  intro x hx
  have key : ∀ i, i < m → ∑ l ∈ range j, lowF F i l * (∑ c ∈ range (j + t), uppF F l c * x c) +
      (if j ≤ i then ∑ c ∈ range t, F i (j + c) * x (j + c) else 0) = 0 := by
    intro i hi
    refine Eq.trans ?_ (hx (s i) (hs i hi))
    rw [← sum_swap_mul]
    have : ∀ c, c ∈ range (j + t) → G (s i) c * x c =
        (∑ l ∈ range j, lowF F i l * uppF F l c) * x c +
        (if j ≤ i ∧ j ≤ c then F i c else 0) * x c := by
      intro c hc
      rw [h i c hi (by have := Finset.mem_range.1 hc; omega), add_mul]
    rw [Finset.sum_congr rfl this, Finset.sum_add_distrib]
    congr 1
    rw [Finset.sum_range_add (fun c => (if j ≤ i ∧ j ≤ c then F i c else 0) * x c),
      Finset.sum_eq_zero (s := range j), zero_add]
    · by_cases hji : j ≤ i
      · rw [if_pos hji]
        refine Finset.sum_congr rfl (fun c _ => ?_)
        rw [if_pos ⟨hji, by omega⟩]
      · rw [if_neg hji, Finset.sum_eq_zero]
        intro c _
        rw [if_neg (by omega), zero_mul]
    · intro c hc
      rw [if_neg (by have := Finset.mem_range.1 hc; omega), zero_mul]
  have hy : ∀ l, l < j → ∑ c ∈ range (j + t), uppF F l c * x c = 0 := by
    refine low_zero (F := F) (fun i hi => ?_)
    have := key i (by omega)
    rwa [if_neg (by omega), add_zero] at this
  have hx1 : ∀ c, c < t → x (j + c) = 0 := by
    refine hS (fun c => x (j + c)) (fun i hi => ?_)
    have := key (j + i) (by omega)
    rw [if_pos (by omega), Finset.sum_eq_zero, zero_add] at this
    · exact this
    · intro l hl
      rw [hy l (Finset.mem_range.1 hl), mul_zero]
  have hx0 : ∀ c, c < j → x c = 0 := by
    refine upp_zero hd (fun i hi => ?_)
    have := hy i hi
    rw [Finset.sum_range_add, Finset.sum_eq_zero (s := range t), add_zero] at this
    · exact this
    · intro c hc
      rw [hx1 c (Finset.mem_range.1 hc), mul_zero]
  intro c hc
  by_cases hcj : c < j
  · exact hx0 c hcj
  · have := hx1 (c - j) (by omega)
    rwa [show j + (c - j) = c by omega] at this

/-- Dependence of a column passes from the Schur complement to the matrix. -/
theorem LuPart.dep {m n j t : Nat} {G F : Nat → Nat → T} {s : Nat → Nat}
    (h : LuPart m n j G s F) (hs : ∀ i, i < m → ∃ i', i' < m ∧ s i' = i) (ht : j + t < n)
    (hd : ∀ i, i < j → F i i ≠ 0) (hS : ColDep (m - j) t (sh j j F)) :
    ColDep m (j + t) G := by
  obtain ⟨y, hy⟩ := hS
  obtain ⟨z, hz⟩ := upp_solve j (fun l => uppF F l (j + t) - ∑ c ∈ range t, uppF F l (j + c) * y c) hd
  refine ⟨fun c => if c < j then z c else y (c - j), fun i0 hi0 => ?_⟩
  obtain ⟨i, hi, rfl⟩ := hs i0 hi0
  rw [Finset.sum_range_add]
  have e0 : ∀ c, c ∈ range j → G (s i) c * (if c < j then z c else y (c - j)) =
      (∑ l ∈ range j, lowF F i l * uppF F l c) * z c := by
    intro c hc
    have := Finset.mem_range.1 hc
    rw [if_pos this, h i c hi (by omega), if_neg (by omega), add_zero]
  have e1 : ∀ c, c ∈ range t → G (s i) (j + c) * (if j + c < j then z (j + c) else y (j + c - j)) =
      (∑ l ∈ range j, lowF F i l * uppF F l (j + c)) * y c +
      (if j ≤ i then F i (j + c) * y c else 0) := by
    intro c hc
    have := Finset.mem_range.1 hc
    rw [if_neg (by omega), h i (j + c) hi (by omega), show j + c - j = c by omega, add_mul]
    congr 1
    by_cases hji : j ≤ i
    · rw [if_pos ⟨hji, by omega⟩, if_pos hji]
    · rw [if_neg (by omega), if_neg hji, zero_mul]
  rw [Finset.sum_congr rfl e0, Finset.sum_congr rfl e1, Finset.sum_add_distrib,
    sum_swap_mul j j (fun l => lowF F i l) (fun l c => uppF F l c) z,
    sum_swap_mul j t (fun l => lowF F i l) (fun l c => uppF F l (j + c)) y,
    h i (j + t) hi ht, ← add_assoc, ← Finset.sum_add_distrib]
  congr 1
  · refine Finset.sum_congr rfl (fun l hl => ?_)
    rw [← mul_add, hz l (Finset.mem_range.1 hl), sub_add_cancel]
  · by_cases hji : j ≤ i
    · rw [if_pos ⟨hji, by omega⟩]
      simp only [if_pos hji]
      have := hy (i - j) (by omega)
      simpa only [sh, show j + (i - j) = i by omega] using this
    · rw [if_neg (by omega)]
      simp only [if_neg hji, Finset.sum_const_zero]

/-- What a successful getrf leaves: `k = min(m, n)` columns are eliminated. -/
theorem LuPart.indep_all {m n j : Nat} {G F : Nat → Nat → T} {s : Nat → Nat}
    (h : LuPart m n j G s F) (hs : ∀ i, i < m → s i < m) (hj : j ≤ m) (hn : j ≤ n)
    (hd : ∀ i, i < j → F i i ≠ 0) : ColsIndep m j G :=
  h.indep (t := 0) hs hj (by omega) hd (fun _ _ c hc => by omega)

/-- Combination of the two halves of the recursive algorithm. -/
theorem LuPart.glue {m n k0 t : Nat} {G F F' : Nat → Nat → T} {p p1 : Nat → Nat}
    (h : LuPart m n k0 G (pivPerm p k0) F)
    (hp : ∀ i, i < t → p (k0 + i) = k0 + p1 i) (hp1 : ∀ i, i < t → p1 i < m - k0)
    (hkm : k0 + t ≤ m) (hkn : k0 ≤ n)
    (h00 : ∀ i c, i < k0 → c < n → F' i c = F i c)
    (h10 : ∀ i c, i < m - k0 → c < k0 → F' (k0 + i) c = F (k0 + pivPerm p1 t i) c)
    (h11 : LuPart (m - k0) (n - k0) t (sh k0 k0 F) (pivPerm p1 t) (sh k0 k0 F')) :
    LuPart m n (k0 + t) G (pivPerm p (k0 + t)) F' := by
  intro i c hi hc
  rw [Finset.sum_range_add]
  by_cases hik : i < k0
  · rw [pivPerm_top hp hik, h i c hi hc, if_neg (by omega), if_neg (by omega), add_zero, add_zero,
      Finset.sum_eq_zero (s := range t), add_zero]
    · refine Finset.sum_congr rfl (fun l hl => ?_)
      have hl := Finset.mem_range.1 hl
      rw [lowF_congr (fun _ => (h00 i l hik (by omega)).symm),
        uppF_congr (fun _ => (h00 l c hl hc).symm)]
    · intro l _
      rw [lowF_gt _ (by omega), zero_mul]
  · obtain ⟨i, rfl⟩ := Nat.exists_eq_add_of_le (Nat.le_of_not_lt hik)
    have hi' : i < m - k0 := by omega
    have hps : pivPerm p1 t i < m - k0 := pivPerm_lt (by omega) hp1 hi'
    rw [pivPerm_add hp, h _ c (by omega) hc]
    have e0 : ∑ l ∈ range k0, lowF F (k0 + pivPerm p1 t i) l * uppF F l c =
        ∑ l ∈ range k0, lowF F' (k0 + i) l * uppF F' l c := by
      refine Finset.sum_congr rfl (fun l hl => ?_)
      have hl := Finset.mem_range.1 hl
      rw [lowF_lt _ (by omega), lowF_lt _ (by omega), h10 i l hi' hl,
        uppF_congr (fun _ => (h00 l c hl hc).symm)]
    rw [e0, add_assoc]
    congr 1
    by_cases hck : c < k0
    · rw [if_neg (by omega), if_neg (by omega), add_zero, Finset.sum_eq_zero]
      intro l _
      rw [uppF_gt _ (by omega), mul_zero]
    · obtain ⟨c, rfl⟩ := Nat.exists_eq_add_of_le (Nat.le_of_not_lt hck)
      rw [if_pos ⟨by omega, by omega⟩]
      have := h11 i c hi' (by omega)
      rw [show sh k0 k0 F (pivPerm p1 t i) c = F (k0 + pivPerm p1 t i) (k0 + c) from rfl] at this
      rw [this]
      congr 1
      · refine Finset.sum_congr rfl (fun l _ => ?_)
        have hl1 : lowF (sh k0 k0 F') i l = lowF F' (k0 + i) (k0 + l) := by
          rw [lowF, ← triF_sh (Or.inr rfl)]; rfl
        have hl2 : uppF (sh k0 k0 F') l c = uppF F' (k0 + l) (k0 + c) := by
          rw [uppF, ← triF_sh (Or.inl rfl)]; rfl
        rw [hl1, hl2]
      · by_cases hb : t ≤ i ∧ t ≤ c
        · rw [if_pos hb, if_pos (by omega)]; rfl
        · rw [if_neg hb, if_neg (by omega)]

/-- Extension of the factorization of the leading columns to the columns on their right. -/
theorem LuPart.extend {m n k0 : Nat} {G F : Nat → Nat → T} {s : Nat → Nat}
    (h : LuPart m k0 k0 G s F) (hkn : k0 ≤ n)
    (h01 : ∀ i c, i < k0 → i < m → k0 ≤ c → c < n → ∑ l ∈ range k0, lowF F i l * F l c = G (s i) c)
    (h11 : ∀ i c, k0 ≤ i → i < m → k0 ≤ c → c < n →
      F i c = G (s i) c - ∑ l ∈ range k0, F i l * F l c) : LuPart m n k0 G s F := by
  intro i c hi hc
  by_cases hck : c < k0
  · exact h i c hi hck
  have hu : ∀ l, l ∈ range k0 → lowF F i l * uppF F l c = lowF F i l * F l c := fun l hl => by
    have := Finset.mem_range.1 hl
    rw [uppF_le _ (by omega)]
  rw [Finset.sum_congr rfl hu]
  by_cases hik : i < k0
  · rw [if_neg (by omega), add_zero, h01 i c hik hi (by omega) hc]
  · rw [if_pos (by omega), h11 i c (by omega) hi (by omega) hc]
    have : ∑ l ∈ range k0, lowF F i l * F l c = ∑ l ∈ range k0, F i l * F l c := by
      refine Finset.sum_congr rfl (fun l hl => ?_)
      have := Finset.mem_range.1 hl
      rw [lowF_lt _ (by omega)]
    rw [this]; ring

theorem LuPart.congr {m n j : Nat} {G G' F F' : Nat → Nat → T} {s : Nat → Nat}
    (h : LuPart m n j G s F) (hs : ∀ i, i < m → s i < m) (hjm : j ≤ m) (hjn : j ≤ n)
    (hG : ∀ i c, i < m → c < n → G' i c = G i c)
    (hF : ∀ i c, i < m → c < n → F' i c = F i c) : LuPart m n j G' s F' := by
  intro i c hi hc
  rw [hG _ c (hs i hi) hc, h i c hi hc, hF i c hi hc]
  congr 1
  refine Finset.sum_congr rfl (fun l hl => ?_)
  have hl := Finset.mem_range.1 hl
  rw [lowF_congr (fun _ => (hF i l hi (by omega)).symm), uppF_congr (fun _ => (hF l c (by omega) hc).symm)]

end TLA
