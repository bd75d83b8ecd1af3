import Verif.Proofs.Loops

/-! Existence of the sequences computed by substitution; sums over triangles. -/

namespace TLA
set_option linter.unusedTactic false
set_option linter.unreachableTactic false
variable {T : Type}

/-- A sequence defined from its earlier terms. -/
theorem exists_fwd [Nonempty T] (F : (Nat → T) → Nat → T)
    (hF : ∀ x y i, (∀ l, l < i → x l = y l) → F x i = F y i) : ∃ x : Nat → T, ∀ i, x i = F x i := by
  classical
  obtain ⟨z⟩ := ‹Nonempty T›
  let x : Nat → T := WellFounded.fix (measure (fun n : Nat => n)).wf
    (fun i rec => F (fun l => if h : l < i then rec l h else z) i)
  refine ⟨x, fun i => ?_⟩
  have : x i = F (fun l => if h : l < i then x l else z) i := by
    show WellFounded.fix _ _ _ = _
    rw [WellFounded.fix_eq]
  rw [this]
  exact hF _ _ _ (fun l hl => by simp [hl])

/-- A sequence of length `n` defined from its later terms. -/
theorem exists_bwd [Nonempty T] (n : Nat) (F : (Nat → T) → Nat → T)
    (hF : ∀ x y i, i < n → (∀ l, i < l → l < n → x l = y l) → F x i = F y i) :
    ∃ x : Nat → T, ∀ i, i < n → x i = F x i := by
  by_cases hn : n = 0
  · exact ⟨fun _ => Classical.arbitrary T, fun i hi => by omega⟩
  obtain ⟨y, hy⟩ := exists_fwd (T := T) (fun y i => F (fun l => y (n - 1 - l)) (n - 1 - i)) (by
    intro x y i h
    exact hF _ _ _ (by omega) (fun l h1 h2 => h _ (by omega)))
  refine ⟨fun l => y (n - 1 - l), fun i hi => ?_⟩
  have := hy (n - 1 - i)
  rw [show n - 1 - (n - 1 - i) = i by omega] at this
  exact this

theorem foldDownN_congr {σ : Type} {lo c : Nat} {s : σ} {f g : Nat → σ → σ}
    (h : ∀ i s, lo ≤ i → i < lo + c → f i s = g i s) :
    foldDownN lo c s f = foldDownN lo c s g := by
  induction c generalizing s with
  | zero => rfl
  | succ c ih =>
    rw [foldDownN, foldDownN, h _ _ (by omega) (by omega), ih (fun i s h1 h2 => h i s h1 (by omega))]

theorem foldDown_congr {σ : Type} {lo hi : Nat} {s : σ} {f g : Nat → σ → σ}
    (h : ∀ i s, lo ≤ i → i < hi → f i s = g i s) : foldDown lo hi s f = foldDown lo hi s g :=
  foldDownN_congr (fun i s h1 h2 => h i s h1 (by omega))

theorem foldDown_sub [AddCommGroup T] {lo hi : Nat} (h : lo ≤ hi) (s : T) (f : Nat → T) :
    foldDown lo hi s (fun i acc => acc - f i) = s - ∑ i ∈ Finset.Ico lo hi, f i := by
  simp only [sub_eq_add_neg]
  rw [foldDown_add h s (fun i => - f i), Finset.sum_neg_distrib]

theorem foldUp_top {σ : Type} {lo hi : Nat} (h : lo < hi) (s : σ) (f : Nat → σ → σ) :
    foldUp lo hi s f = foldUp (lo + 1) hi (f lo s) f := by
  unfold foldUp
  rw [show hi - lo = (hi - (lo + 1)) + 1 by omega, foldUpN]

theorem foldDown_top {σ : Type} {lo hi : Nat} (h : lo ≤ hi) (s : σ) (f : Nat → σ → σ) :
    foldDown lo (hi + 1) s f = foldDown lo hi (f hi s) f := by
  unfold foldDown
  rw [show hi + 1 - lo = (hi - lo) + 1 by omega, foldDownN, show lo + (hi - lo) = hi by omega]

/-- Row of an upper triangular matrix times a vector. -/
theorem sum_upper [NonUnitalNonAssocSemiring T] {n i : Nat} (hi : i < n) (t x : Nat → T)
    (ht : ∀ l, l < i → t l = 0) :
    ∑ l ∈ Finset.range n, t l * x l = t i * x i + ∑ l ∈ Finset.Ico (i + 1) n, t l * x l := by
  rw [Finset.range_eq_Ico, ← Finset.sum_Ico_consecutive _ (Nat.zero_le i) (by omega : i ≤ n),
    Finset.sum_eq_zero, zero_add, Finset.sum_eq_sum_Ico_succ_bot hi]
  intro l hl
  rw [ht l (Finset.mem_Ico.1 hl).2, zero_mul]

/-- Row of a lower triangular matrix times a vector. -/
theorem sum_lower [NonUnitalNonAssocSemiring T] {n i : Nat} (hi : i < n) (t x : Nat → T)
    (ht : ∀ l, i < l → t l = 0) :
    ∑ l ∈ Finset.range n, t l * x l = ∑ l ∈ Finset.range i, t l * x l + t i * x i := by
  rw [Finset.range_eq_Ico, ← Finset.sum_Ico_consecutive _ (Nat.zero_le (i + 1)) (by omega : i + 1 ≤ n),
    Finset.sum_Ico_succ_top (Nat.zero_le i), Finset.range_eq_Ico]
  rw [Finset.sum_eq_zero (s := Finset.Ico (i + 1) n), add_zero]
  intro l hl
  rw [ht l (by have := (Finset.mem_Ico.1 hl).1; omega), zero_mul]

/-- `v / d` unless the diagonal is unit. -/
def divD [Div T] (diag : Diag) (v d : T) : T := if diag = .NonUnit then v / d else v
/-- `v * d` unless the diagonal is unit. -/
def mulD [Mul T] (diag : Diag) (v d : T) : T := if diag = .NonUnit then v * d else v

end TLA
