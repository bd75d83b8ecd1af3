import Verif.Proofs.Sort
import Verif.Props.Examples
import Mathlib.Order.Basic
import Mathlib.Data.Finset.Card
import Mathlib.Data.Fintype.Card
import Mathlib.Data.Fintype.EquivFin
import Mathlib.Tactic.IntervalCases

/-! # C21 lasrt, C22 lamrg -/

set_option linter.unusedTactic false
set_option linter.unreachableTactic false

namespace TLA
variable {L T : Type} [DecidableEq L]

/-- The first `n` entries of `ν`'s vector are a rearrangement of those of `μ`'s. -/
def Rearranged (n : Nat) (old new : Nat → T) : Prop :=
  ∃ σ : Equiv.Perm Nat, (∀ k, n ≤ k → σ k = k) ∧ ∀ k, k < n → new k = old (σ k)

theorem PermOn.rearranged {n : Nat} {g g' : Nat → T} (hn : 0 < n) (h : PermOn 0 (n - 1) g g') :
    Rearranged n g g' := by
  obtain ⟨σ, h1, h2⟩ := h
  exact ⟨σ, fun k hk => h1 k (by omega), fun k _ => h2 k⟩

/-- **C21** For any comparison that is irreflexive and asymmetric (in particular `<` on floating
point numbers including NaN) lasrt terminates within `2n` pops of its stack, never accesses out of
`[0,n)`, rearranges the first `n` entries and changes nothing else. -/
theorem C21_lasrt_safe (lt : T → T → Bool) (has : ∀ x y, lt x y = true → lt y x = false)
    (id : Char) (hid : id = 'i' ∨ id = 'I' ∨ id = 'd' ∨ id = 'D') (n : Nat) (d : VecV L)
    (hn : n = d.n) (hd : d.Inj) (μ : Store L T) (fuel : Nat) (hf : 2 * n ≤ fuel) :
    ∃ ν, lasrt lt fuel id n d μ = (.ok 0, ν) ∧ Rearranged n (ventry μ d) (ventry ν d) ∧
      ∀ l, ¬ d.Owns l → ν l = μ l := by
  by_cases h1 : n ≤ 1
  · refine ⟨μ, ?_, ⟨1, fun _ _ => rfl, fun _ _ => rfl⟩, fun _ _ => rfl⟩
    rcases hid with rfl | rfl | rfl | rfl <;> simp [lasrt, h1] <;> rfl
  · have key : ∀ asc, wp (lasrtLoop lt asc d fuel [(0, n - 1)] >>= fun _ => pure (0 : Int)) μ
        (fun r ν => r = 0 ∧ ∃ g, VState d μ g ν ∧ PermOn 0 (n - 1) (ventry μ d) g) := by
      intro asc
      simp only [wp_bind]
      refine wp_conseq (wp_lasrtLoop has asc hd (n := n) (by omega) (ventry μ d) fuel [(0, n - 1)] μ
        (ventry μ d) (VState.init d μ _ (fun _ _ => rfl)) (by omega) (PermOn.refl _ _ _)
        ⟨by simp; omega, by simp, fun _ p q a b => Or.inl ⟨(0, n - 1), by simp, by simp; omega⟩⟩
        (by simp [pops]; omega)) ?_
      rintro _ ν ⟨g, a, b, _⟩
      simp only [wp_pure]
      exact ⟨trivial, g, a, b⟩
    have fin : ∀ asc, ∃ ν, (lasrtLoop lt asc d fuel [(0, n - 1)] >>= fun _ => pure (0 : Int)) μ
        = (.ok 0, ν) ∧ Rearranged n (ventry μ d) (ventry ν d) ∧ ∀ l, ¬ d.Owns l → ν l = μ l := by
      intro asc
      obtain ⟨r, ν, e, rfl, g, a, b⟩ := wp_iff.1 (key asc)
      obtain ⟨σ, s1, s2⟩ := b.rearranged (by omega)
      exact ⟨ν, e, ⟨σ, s1, fun k hk => (a.val k (by omega)).trans (s2 k hk)⟩, a.frame⟩
    rcases hid with rfl | rfl | rfl | rfl
    · have : lasrt lt fuel 'i' n d = (lasrtLoop lt true d fuel [(0, n - 1)] >>= fun _ => pure (0 : Int)) := by
        simp [lasrt, h1]
      rw [this]; exact fin true
    · have : lasrt lt fuel 'I' n d = (lasrtLoop lt true d fuel [(0, n - 1)] >>= fun _ => pure (0 : Int)) := by
        simp [lasrt, h1]
      rw [this]; exact fin true
    · have : lasrt lt fuel 'd' n d = (lasrtLoop lt false d fuel [(0, n - 1)] >>= fun _ => pure (0 : Int)) := by
        simp [lasrt, h1]
      rw [this]; exact fin false
    · have : lasrt lt fuel 'D' n d = (lasrtLoop lt false d fuel [(0, n - 1)] >>= fun _ => pure (0 : Int)) := by
        simp [lasrt, h1]
      rw [this]; exact fin false

/-- **C21** On totally ordered entries (no NaN) the result is sorted in the requested order. -/
theorem C21_lasrt_sorted [LinearOrder T] (id : Char)
    (hid : id = 'i' ∨ id = 'I' ∨ id = 'd' ∨ id = 'D') (n : Nat) (d : VecV L)
    (hn : n = d.n) (hd : d.Inj) (μ : Store L T) (fuel : Nat) (hf : 2 * n ≤ fuel) :
    ∃ ν, lasrt (fun x y : T => decide (x < y)) fuel id n d μ = (.ok 0, ν) ∧
      Rearranged n (ventry μ d) (ventry ν d) ∧
      (id = 'i' ∨ id = 'I' → ∀ p q, p < q → q < n → ventry ν d p ≤ ventry ν d q) ∧
      (id = 'd' ∨ id = 'D' → ∀ p q, p < q → q < n → ventry ν d q ≤ ventry ν d p) ∧
      ∀ l, ¬ d.Owns l → ν l = μ l := by
  have has : ∀ x y : T, decide (x < y) = true → decide (y < x) = false := by
    intro x y h
    simp only [decide_eq_true_eq, decide_eq_false_iff_not, not_lt] at *
    exact h.le
  by_cases h1 : n ≤ 1
  · refine ⟨μ, ?_, ⟨1, fun _ _ => rfl, fun _ _ => rfl⟩, fun _ p q a b => by omega,
      fun _ p q a b => by omega, fun _ _ => rfl⟩
    rcases hid with rfl | rfl | rfl | rfl <;> simp [lasrt, h1] <;> rfl
  · have key : ∀ asc, wp (lasrtLoop (fun x y : T => decide (x < y)) asc d fuel [(0, n - 1)] >>=
        fun _ => pure (0 : Int)) μ
        (fun r ν => r = 0 ∧ ∃ g, VState d μ g ν ∧ PermOn 0 (n - 1) (ventry μ d) g ∧
          SortedOn (before (fun x y : T => decide (x < y)) asc) 0 (n - 1) g) := by
      intro asc
      simp only [wp_bind]
      refine wp_conseq (wp_lasrtLoop has asc hd (n := n) (by omega) (ventry μ d) fuel [(0, n - 1)] μ
        (ventry μ d) (VState.init d μ _ (fun _ _ => rfl)) (by omega) (PermOn.refl _ _ _)
        ⟨by simp; omega, by simp, fun _ p q a b => Or.inl ⟨(0, n - 1), by simp, by simp; omega⟩⟩
        (by simp [pops]; omega)) ?_
      rintro _ ν ⟨g, a, b, c⟩
      simp only [wp_pure]
      refine ⟨trivial, g, a, b, c ?_⟩
      intro x y z hxy hyz
      cases asc
      · simp only [before, Bool.false_eq_true, if_false, decide_eq_false_iff_not, not_lt] at *
        exact hyz.trans hxy
      · simp only [before, if_true, decide_eq_false_iff_not, not_lt] at *
        exact hxy.trans hyz
    have fin : ∀ asc, ∃ ν, (lasrtLoop (fun x y : T => decide (x < y)) asc d fuel [(0, n - 1)] >>=
        fun _ => pure (0 : Int)) μ
        = (.ok 0, ν) ∧ Rearranged n (ventry μ d) (ventry ν d) ∧
        (∀ p q, p < q → q < n → if asc then ventry ν d p ≤ ventry ν d q
          else ventry ν d q ≤ ventry ν d p) ∧ ∀ l, ¬ d.Owns l → ν l = μ l := by
      intro asc
      obtain ⟨r, ν, e, rfl, g, a, b, c⟩ := wp_iff.1 (key asc)
      obtain ⟨σ, s1, s2⟩ := b.rearranged (by omega)
      refine ⟨ν, e, ⟨σ, s1, fun k hk => (a.val k (by omega)).trans (s2 k hk)⟩,
        fun p q hpq hq => ?_, a.frame⟩
      rw [show ventry ν d p = g p from a.val p (by omega),
        show ventry ν d q = g q from a.val q (by omega)]
      have := c p q (Nat.zero_le _) hpq (by omega)
      cases asc
      · simpa [before] using this
      · simpa [before] using this
    rcases hid with rfl | rfl | rfl | rfl
    · have e : lasrt (fun x y : T => decide (x < y)) fuel 'i' n d =
        (lasrtLoop (fun x y : T => decide (x < y)) true d fuel [(0, n - 1)] >>= fun _ => pure (0 : Int)) := by
        simp [lasrt, h1]
      rw [e]
      obtain ⟨ν, a, b, c, f⟩ := fin true
      exact ⟨ν, a, b, fun _ p q x y => by simpa using c p q x y, fun h => by simp at h, f⟩
    · have e : lasrt (fun x y : T => decide (x < y)) fuel 'I' n d =
        (lasrtLoop (fun x y : T => decide (x < y)) true d fuel [(0, n - 1)] >>= fun _ => pure (0 : Int)) := by
        simp [lasrt, h1]
      rw [e]
      obtain ⟨ν, a, b, c, f⟩ := fin true
      exact ⟨ν, a, b, fun _ p q x y => by simpa using c p q x y, fun h => by simp at h, f⟩
    · have e : lasrt (fun x y : T => decide (x < y)) fuel 'd' n d =
        (lasrtLoop (fun x y : T => decide (x < y)) false d fuel [(0, n - 1)] >>= fun _ => pure (0 : Int)) := by
        simp [lasrt, h1]
      rw [e]
      obtain ⟨ν, a, b, c, f⟩ := fin false
      exact ⟨ν, a, b, fun h => by simp at h, fun _ p q x y => by simpa using c p q x y, f⟩
    · have e : lasrt (fun x y : T => decide (x < y)) fuel 'D' n d =
        (lasrtLoop (fun x y : T => decide (x < y)) false d fuel [(0, n - 1)] >>= fun _ => pure (0 : Int)) := by
        simp [lasrt, h1]
      rw [e]
      obtain ⟨ν, a, b, c, f⟩ := fin false
      exact ⟨ν, a, b, fun h => by simp at h, fun _ p q x y => by simpa using c p q x y, f⟩

/-- **C21** Any other option character returns -1 and leaves everything unchanged. -/
theorem C21_lasrt_bad_id (lt : T → T → Bool) (id : Char)
    (hid : ¬ (id = 'i' ∨ id = 'I' ∨ id = 'd' ∨ id = 'D')) (n : Nat) (d : VecV L)
    (μ : Store L T) (fuel : Nat) : lasrt lt fuel id n d μ = (.ok (-1), μ) := by
  unfold lasrt
  rw [if_neg (by tauto), if_neg (by tauto)]
  rfl

/-- The hypotheses are met, e.g. by 50 integers. -/
example : (mkV 0 50).Inj ∧ 50 = (mkV 0 50).n ∧ 2 * 50 ≤ 100 := ⟨mkV_inj _ _, rfl, by decide⟩

/-! ### lamrg -/

/-- Position of the `k`-th smallest entry of a run of length `n` starting at `off`, sorted
ascending (`dtrd = 1`) or descending (`dtrd = -1`). -/
def runPos (off n : Nat) (dtrd : Int) (k : Nat) : Int :=
  if dtrd > 0 then (off : Int) + k else (off : Int) + n - 1 - k

/-- The run `a[off .. off+n-1]` is sorted in the direction of `dtrd`. -/
def RunSorted [LE T] (a : Nat → T) (off n : Nat) (dtrd : Int) : Prop :=
  ∀ p q, off ≤ p → p ≤ q → q < off + n → if dtrd > 0 then a p ≤ a q else a q ≤ a p

omit [DecidableEq L] in
theorem wp_setI {p : IArr} {i : Nat} {ind : Int} {μ : Store L T} {Q : IArr → Store L T → Prop}
    (hi : i < p.n) (h0 : 0 ≤ ind)
    (hQ : Q ⟨p.n, fun k => if k = i then ind.toNat else p.f k⟩ μ) : wp (p.setI i ind) μ Q := by
  unfold IArr.setI IArr.set
  rw [if_pos h0, if_pos hi]
  exact hQ

omit [DecidableEq L] in
theorem wp_getI {a : VecV L} {ind : Int} {μ : Store L T} {Q : T → Store L T → Prop}
    (h0 : 0 ≤ ind) (h1 : ind.toNat < a.n) (hQ : Q (ventry μ a ind.toNat) μ) : wp (getI a ind) μ Q := by
  unfold getI
  rw [if_pos h0, wp_vget]
  exact ⟨h1, hQ⟩

section merge
variable [LinearOrder T]

/-- The index array after `c1` entries of the first and `c2` of the second run were taken. -/
structure MergeInv (a : Nat → T) (n1 n2 : Nat) (d1 d2 : Int) (c1 c2 : Nat) (index : IArr) : Prop where
  size : n1 + n2 ≤ index.n
  le1 : c1 ≤ n1
  le2 : c2 ≤ n2
  range : ∀ t, t < c1 + c2 → index.f t < n1 + n2
  has1 : ∀ k, k < c1 → ∃ t, t < c1 + c2 ∧ (index.f t : Int) = runPos 0 n1 d1 k
  has2 : ∀ k, k < c2 → ∃ t, t < c1 + c2 ∧ (index.f t : Int) = runPos n1 n2 d2 k
  sorted : ∀ t u, t < u → u < c1 + c2 → a (index.f t) ≤ a (index.f u)
  bound1 : c1 < n1 → ∀ t, t < c1 + c2 → a (index.f t) ≤ a (runPos 0 n1 d1 c1).toNat
  bound2 : c2 < n2 → ∀ t, t < c1 + c2 → a (index.f t) ≤ a (runPos n1 n2 d2 c2).toNat

theorem runPos_succ (off n : Nat) (d : Int) (hd : d = 1 ∨ d = -1) (k : Nat) :
    runPos off n d k + d = runPos off n d (k + 1) := by
  unfold runPos
  rcases hd with rfl | rfl
  · simp; omega
  · simp; omega

theorem runPos_range {off n : Nat} {d : Int} {k : Nat} (hk : k < n) :
    0 ≤ runPos off n d k ∧ (runPos off n d k).toNat < off + n ∧ off ≤ (runPos off n d k).toNat := by
  unfold runPos
  split <;> omega

theorem runPos_mono {a : Nat → T} {off n : Nat} {d : Int} (h : RunSorted a off n d) {k l : Nat}
    (hkl : k ≤ l) (hl : l < n) : a (runPos off n d k).toNat ≤ a (runPos off n d l).toNat := by
  unfold runPos
  unfold RunSorted at h
  by_cases hd : d > 0
  · simp only [hd, if_true] at *
    exact h _ _ (by omega) (by omega) (by omega)
  · simp only [hd, if_false] at *
    exact h _ _ (by omega) (by omega) (by omega)

theorem MergeInv.take1 {a : Nat → T} {n1 n2 : Nat} {d1 d2 : Int} {c1 c2 : Nat} {index : IArr}
    (h : MergeInv a n1 n2 d1 d2 c1 c2 index) (h1 : c1 < n1) (hs : RunSorted a 0 n1 d1)
    (hle : c2 < n2 → a (runPos 0 n1 d1 c1).toNat ≤ a (runPos n1 n2 d2 c2).toNat) :
    MergeInv a n1 n2 d1 d2 (c1 + 1) c2
      ⟨index.n, fun k => if k = c1 + c2 then (runPos 0 n1 d1 c1).toNat else index.f k⟩ := by
  have hr := runPos_range (off := 0) (d := d1) h1
  have hval : ∀ t, t < c1 + c2 → (if t = c1 + c2 then (runPos 0 n1 d1 c1).toNat else index.f t)
      = index.f t := fun t ht => if_neg (by omega)
  refine ⟨h.size, by omega, h.le2, ?_, ?_, ?_, ?_, ?_, ?_⟩
  · intro t ht
    by_cases e : t = c1 + c2
    · simp only [e, if_true]; omega
    · simp only [e, if_false]; exact h.range t (by omega)
  · intro k hk
    by_cases e : k = c1
    · refine ⟨c1 + c2, by omega, ?_⟩
      simp only [if_true, e]; omega
    · obtain ⟨t, ht, hh⟩ := h.has1 k (by omega)
      exact ⟨t, by omega, by simp only; rw [hval t ht]; exact hh⟩
  · intro k hk
    obtain ⟨t, ht, hh⟩ := h.has2 k (by omega)
    exact ⟨t, by omega, by simp only; rw [hval t ht]; exact hh⟩
  · intro t u htu hu
    simp only
    rw [hval t (by omega)]
    by_cases e : u = c1 + c2
    · simp only [e, if_true]; exact h.bound1 h1 t (by omega)
    · simp only [e, if_false]; exact h.sorted t u htu (by omega)
  · intro hc t ht
    by_cases e : t = c1 + c2
    · simp only [e, if_true]; exact runPos_mono hs (by omega) hc
    · simp only [e, if_false]
      exact (h.bound1 h1 t (by omega)).trans (runPos_mono hs (by omega) hc)
  · intro hc t ht
    by_cases e : t = c1 + c2
    · simp only [e, if_true]; exact hle hc
    · simp only [e, if_false]; exact h.bound2 hc t (by omega)

theorem MergeInv.take2 {a : Nat → T} {n1 n2 : Nat} {d1 d2 : Int} {c1 c2 : Nat} {index : IArr}
    (h : MergeInv a n1 n2 d1 d2 c1 c2 index) (h2 : c2 < n2) (hs : RunSorted a n1 n2 d2)
    (hle : c1 < n1 → a (runPos n1 n2 d2 c2).toNat ≤ a (runPos 0 n1 d1 c1).toNat) :
    MergeInv a n1 n2 d1 d2 c1 (c2 + 1)
      ⟨index.n, fun k => if k = c1 + c2 then (runPos n1 n2 d2 c2).toNat else index.f k⟩ := by
  have hr := runPos_range (off := n1) (d := d2) h2
  have hval : ∀ t, t < c1 + c2 → (if t = c1 + c2 then (runPos n1 n2 d2 c2).toNat else index.f t)
      = index.f t := fun t ht => if_neg (by omega)
  refine ⟨h.size, h.le1, by omega, ?_, ?_, ?_, ?_, ?_, ?_⟩
  · intro t ht
    by_cases e : t = c1 + c2
    · simp only [e, if_true]; omega
    · simp only [e, if_false]; exact h.range t (by omega)
  · intro k hk
    obtain ⟨t, ht, hh⟩ := h.has1 k (by omega)
    exact ⟨t, by omega, by simp only; rw [hval t ht]; exact hh⟩
  · intro k hk
    by_cases e : k = c2
    · refine ⟨c1 + c2, by omega, ?_⟩
      simp only [if_true, e]; omega
    · obtain ⟨t, ht, hh⟩ := h.has2 k (by omega)
      exact ⟨t, by omega, by simp only; rw [hval t ht]; exact hh⟩
  · intro t u htu hu
    simp only
    rw [hval t (by omega)]
    by_cases e : u = c1 + c2
    · simp only [e, if_true]; exact h.bound2 h2 t (by omega)
    · simp only [e, if_false]; exact h.sorted t u htu (by omega)
  · intro hc t ht
    by_cases e : t = c1 + c2
    · simp only [e, if_true]; exact hle hc
    · simp only [e, if_false]; exact h.bound1 hc t (by omega)
  · intro hc t ht
    by_cases e : t = c1 + c2
    · simp only [e, if_true]; exact runPos_mono hs (by omega) hc
    · simp only [e, if_false]
      exact (h.bound2 h2 t (by omega)).trans (runPos_mono hs (by omega) hc)

omit [DecidableEq L] in
theorem wp_lamrgLoop (a : VecV L) (n1 n2 : Nat) (d1 d2 : Int) (hd1 : d1 = 1 ∨ d1 = -1)
    (hd2 : d2 = 1 ∨ d2 = -1) (μ : Store L T) (ha : n1 + n2 ≤ a.n)
    (hs1 : RunSorted (ventry μ a) 0 n1 d1) (hs2 : RunSorted (ventry μ a) n1 n2 d2) (r : Nat) :
    ∀ (c1 c2 : Nat) (index : IArr), MergeInv (ventry μ a) n1 n2 d1 d2 c1 c2 index →
    (n1 - c1) + (n2 - c2) = r →
    wp (lamrgLoop (fun x y : T => decide (x ≤ y)) a d1 d2 (n1 - c1) (n2 - c2) (runPos 0 n1 d1 c1)
      (runPos n1 n2 d2 c2) (c1 + c2) index) μ (fun res ν => ν = μ ∧ ∃ c1 c2 index,
        MergeInv (ventry μ a) n1 n2 d1 d2 c1 c2 index ∧ (c1 = n1 ∨ c2 = n2) ∧
        res = (n1 - c1, n2 - c2, runPos 0 n1 d1 c1, runPos n1 n2 d2 c2, c1 + c2, index)) := by
  induction r with
  | zero =>
    intro c1 c2 index h hr
    rw [lamrgLoop, if_neg (by omega)]
    simp only [wp_pure]
    exact ⟨trivial, c1, c2, index, h, by have := h.le1; have := h.le2; omega, rfl⟩
  | succ r ih =>
    intro c1 c2 index h hr
    have hl1 := h.le1
    have hl2 := h.le2
    rw [lamrgLoop]
    by_cases hc : n1 - c1 > 0 ∧ n2 - c2 > 0
    · rw [if_pos hc]
      simp only [wp_bind]
      have r1 := runPos_range (off := 0) (n := n1) (d := d1) (k := c1) (by omega)
      have r2 := runPos_range (off := n1) (n := n2) (d := d2) (k := c2) (by omega)
      have := h.size
      refine wp_getI r1.1 (by omega) (wp_getI r2.1 (by omega) ?_)
      split
      · rename_i hle
        simp only [decide_eq_true_eq] at hle
        simp only [wp_bind]
        refine wp_setI (by omega) r1.1 ?_
        have key := ih (c1 + 1) c2 _ (h.take1 (by omega) hs1 (fun _ => hle)) (by omega)
        rw [show n1 - (c1 + 1) = n1 - c1 - 1 by omega, ← runPos_succ 0 n1 d1 hd1,
          show c1 + 1 + c2 = c1 + c2 + 1 by omega] at key
        exact key
      · rename_i hle
        simp only [decide_eq_true_eq, not_le] at hle
        simp only [wp_bind]
        refine wp_setI (by omega) r2.1 ?_
        have key := ih c1 (c2 + 1) _ (h.take2 (by omega) hs2 (fun _ => hle.le)) (by omega)
        rw [show n2 - (c2 + 1) = n2 - c2 - 1 by omega, ← runPos_succ n1 n2 d2 hd2,
          show c1 + (c2 + 1) = c1 + c2 + 1 by omega] at key
        exact key
    · rw [if_neg hc]
      simp only [wp_pure]
      exact ⟨trivial, c1, c2, index, h, by omega, rfl⟩

omit [DecidableEq L] in
theorem wp_lamrgTail2 (a : Nat → T) (n1 n2 : Nat) (d1 d2 : Int)
    (hd2 : d2 = 1 ∨ d2 = -1) (μ : Store L T) (hs2 : RunSorted a n1 n2 d2) (r : Nat) :
    ∀ (c2 : Nat) (index : IArr), MergeInv a n1 n2 d1 d2 n1 c2 index → n2 - c2 = r →
    wp (lamrgTail d2 r (runPos n1 n2 d2 c2) (n1 + c2) index) μ (fun res ν => ν = μ ∧
      MergeInv a n1 n2 d1 d2 n1 n2 res) := by
  induction r with
  | zero =>
    intro c2 index h hr
    obtain rfl : c2 = n2 := by have := h.le2; omega
    exact ⟨rfl, h⟩
  | succ r ih =>
    intro c2 index h hr
    unfold lamrgTail
    simp only [wp_bind]
    have r2 := runPos_range (off := n1) (n := n2) (d := d2) (k := c2) (by omega)
    have := h.size
    refine wp_setI (by omega) r2.1 ?_
    rw [runPos_succ n1 n2 d2 hd2]
    exact ih (c2 + 1) _ (h.take2 (by omega) hs2 (fun h => by omega)) (by omega)

omit [DecidableEq L] in
theorem wp_lamrgTail1 (a : Nat → T) (n1 n2 : Nat) (d1 d2 : Int)
    (hd1 : d1 = 1 ∨ d1 = -1) (μ : Store L T) (hs1 : RunSorted a 0 n1 d1) (r : Nat) :
    ∀ (c1 : Nat) (index : IArr), MergeInv a n1 n2 d1 d2 c1 n2 index → n1 - c1 = r →
    wp (lamrgTail d1 r (runPos 0 n1 d1 c1) (c1 + n2) index) μ (fun res ν => ν = μ ∧
      MergeInv a n1 n2 d1 d2 n1 n2 res) := by
  induction r with
  | zero =>
    intro c1 index h hr
    obtain rfl : c1 = n1 := by have := h.le1; omega
    exact ⟨rfl, h⟩
  | succ r ih =>
    intro c1 index h hr
    unfold lamrgTail
    simp only [wp_bind]
    have r1 := runPos_range (off := 0) (n := n1) (d := d1) (k := c1) (by omega)
    have := h.size
    refine wp_setI (by omega) r1.1 ?_
    rw [runPos_succ 0 n1 d1 hd1]
    have key := ih (c1 + 1) _ (h.take1 (by omega) hs1 (fun h => by omega)) (by omega)
    rw [show c1 + 1 + n2 = c1 + n2 + 1 by omega] at key
    exact key

/-- Every position below `n` is hit exactly once by `f` on `0..n-1`. -/
def IsPermutation (n : Nat) (f : Nat → Nat) : Prop :=
  (∀ t, t < n → f t < n) ∧ (∀ v, v < n → ∃ t, t < n ∧ f t = v) ∧
    ∀ t u, t < n → u < n → f t = f u → t = u

omit [LinearOrder T] in
theorem isPermutation_of_surj {n : Nat} {f : Nat → Nat} (hr : ∀ t, t < n → f t < n)
    (hs : ∀ v, v < n → ∃ t, t < n ∧ f t = v) : IsPermutation n f := by
  refine ⟨hr, hs, ?_⟩
  let F : Fin n → Fin n := fun t => ⟨f t, hr t t.2⟩
  have hF : Function.Surjective F := by
    intro v
    obtain ⟨t, ht, e⟩ := hs v v.2
    exact ⟨⟨t, ht⟩, Fin.ext e⟩
  have hI : Function.Injective F := Finite.injective_iff_surjective.2 hF
  intro t u ht hu e
  have : F ⟨t, ht⟩ = F ⟨u, hu⟩ := Fin.ext e
  exact congrArg Fin.val (hI this)

omit [DecidableEq L] in
/-- **C22** lamrg writes to `index` a permutation of `0..n1+n2-1` under which the data is ascending,
for runs sorted in the direction given by their strides; it reads only `a[0..n1+n2-1]`, writes only
`index[0..n1+n2-1]`, and terminates. -/
theorem C22_lamrg (n1 n2 : Nat) (a : VecV L) (d1 d2 : Int) (hd1 : d1 = 1 ∨ d1 = -1)
    (hd2 : d2 = 1 ∨ d2 = -1) (μ : Store L T) (ha : a.n = n1 + n2) (index : IArr)
    (hi : index.n = n1 + n2)
    (hs1 : RunSorted (ventry μ a) 0 n1 d1) (hs2 : RunSorted (ventry μ a) n1 n2 d2) :
    ∃ res : IArr, lamrg (fun x y : T => decide (x ≤ y)) n1 n2 a d1 d2 index μ = (.ok res, μ) ∧
      res.n = index.n ∧ IsPermutation (n1 + n2) res.f ∧
      ∀ t u, t < u → u < n1 + n2 → ventry μ a (res.f t) ≤ ventry μ a (res.f u) := by
  have main : wp (lamrg (fun x y : T => decide (x ≤ y)) n1 n2 a d1 d2 index) μ (fun res ν =>
      ν = μ ∧ MergeInv (ventry μ a) n1 n2 d1 d2 n1 n2 res) := by
    unfold lamrg
    simp only [wp_bind]
    have e1 : (if d1 > 0 then (0 : Int) else (n1 : Int) - 1) = runPos 0 n1 d1 0 := by
      unfold runPos; split <;> omega
    have e2 : (if d2 > 0 then (n1 : Int) else (n1 : Int) + n2 - 1) = runPos n1 n2 d2 0 := by
      unfold runPos; split <;> omega
    rw [e1, e2]
    have start : MergeInv (ventry μ a) n1 n2 d1 d2 0 0 index :=
      ⟨by omega, by omega, by omega, fun t h => by omega, fun k h => by omega, fun k h => by omega,
        fun t u h h' => by omega, fun _ t h => by omega, fun _ t h => by omega⟩
    refine wp_conseq (wp_lamrgLoop a n1 n2 d1 d2 hd1 hd2 μ (by omega) hs1 hs2 _ 0 0 index start rfl) ?_
    rintro _ ν ⟨rfl, c1, c2, ix, h, hc, rfl⟩
    have := h.le1
    have := h.le2
    simp only
    split
    · obtain rfl : c1 = n1 := by omega
      exact wp_lamrgTail2 (ventry ν a) c1 n2 d1 d2 hd2 ν hs2 _ c2 ix h rfl
    · obtain rfl : c2 = n2 := by omega
      exact wp_lamrgTail1 (ventry ν a) n1 c2 d1 d2 hd1 ν hs1 _ c1 ix h rfl
  obtain ⟨res, ν, e, rfl, h⟩ := wp_iff.1 main
  have hsz : res.n = index.n := by
    -- the size never changes
    have hset : ∀ (p : IArr) (i : Nat) (v : Int) (Q : IArr → Store L T → Prop) (μ : Store L T),
        (∀ q : IArr, q.n = p.n → wp (pure q : M L T IArr) μ Q (fun _ _ => True)) →
        wp (p.setI i v) μ Q (fun _ _ => True) := by
      intro p i v Q μ hq
      unfold IArr.setI IArr.set
      split
      · split
        · exact hq _ rfl
        · trivial
      · trivial
    have htail : ∀ (d : Int) (c : Nat) (ind : Int) (i : Nat) (p : IArr) (μ : Store L T),
        wp (lamrgTail d c ind i p) μ (fun r _ => r.n = p.n) (fun _ _ => True) := by
      intro d c
      induction c with
      | zero => intro ind i p μ; exact rfl
      | succ c ih =>
        intro ind i p μ
        unfold lamrgTail
        simp only [wp_bind]
        refine hset _ _ _ _ _ (fun q hq => ?_)
        simp only [wp_pure]
        rw [← hq]; exact ih _ _ _ _
    have hloop : ∀ (r c1 c2 : Nat) (i1 i2 : Int) (i : Nat) (p : IArr) (μ : Store L T), c1 + c2 = r →
        wp (lamrgLoop (fun x y : T => decide (x ≤ y)) a d1 d2 c1 c2 i1 i2 i p) μ
          (fun r _ => r.2.2.2.2.2.n = p.n) (fun _ _ => True) := by
      have hget : ∀ (ind : Int) (Q : T → Store L T → Prop) (μ : Store L T), (∀ v, Q v μ) →
          wp (getI a ind) μ Q (fun _ _ => True) := by
        intro ind Q μ hQ
        unfold getI
        split
        · unfold VecV.get wp
          by_cases hh : ind.toNat < a.n
          · simp only [hh, if_true]; exact hQ _
          · simp only [hh, if_false]
        · trivial
      intro r
      induction r with
      | zero =>
        intro c1 c2 i1 i2 i p μ hr
        rw [lamrgLoop, if_neg (by omega)]
        exact rfl
      | succ r ih =>
        intro c1 c2 i1 i2 i p μ hr
        rw [lamrgLoop]
        split
        · simp only [wp_bind]
          refine hget _ _ _ (fun x => hget _ _ _ (fun y => ?_))
          split
          · simp only [wp_bind]
            refine hset _ _ _ _ _ (fun q hq => ?_)
            simp only [wp_pure]
            rw [← hq]; exact ih _ _ _ _ _ _ _ (by omega)
          · simp only [wp_bind]
            refine hset _ _ _ _ _ (fun q hq => ?_)
            simp only [wp_pure]
            rw [← hq]; exact ih _ _ _ _ _ _ _ (by omega)
        · exact rfl
    have : wp (lamrg (fun x y : T => decide (x ≤ y)) n1 n2 a d1 d2 index) ν
        (fun r _ => r.n = index.n) (fun _ _ => True) := by
      unfold lamrg
      simp only [wp_bind]
      refine wp_mono (hloop _ _ _ _ _ _ _ _ rfl) ?_ (fun _ _ h => h)
      rintro ⟨a1, a2, a3, a4, a5, a6⟩ ν' hh
      simp only at hh ⊢
      rw [← hh]
      split
      · exact htail _ _ _ _ _ _
      · exact htail _ _ _ _ _ _
    unfold wp at this
    rw [e] at this
    exact this
  refine ⟨res, e, hsz, isPermutation_of_surj h.range (fun v hv => ?_), h.sorted⟩
  by_cases hv1 : v < n1
  · obtain ⟨t, ht, hh⟩ := h.has1 (if d1 > 0 then v else n1 - 1 - v) (by split <;> omega)
    refine ⟨t, ht, ?_⟩
    unfold runPos at hh
    split at hh <;> simp_all <;> omega
  · obtain ⟨t, ht, hh⟩ := h.has2 (if d2 > 0 then v - n1 else n1 + n2 - 1 - v) (by split <;> omega)
    refine ⟨t, ht, ?_⟩
    unfold runPos at hh
    split at hh <;> simp_all <;> omega

/-- Runs `1 3 5` (ascending) and `4 2` (descending) meet the hypotheses. -/
example : RunSorted (fun k => ([1, 3, 5, 4, 2] : List Nat).getD k 0) 0 3 1 ∧
    RunSorted (fun k => ([1, 3, 5, 4, 2] : List Nat).getD k 0) 3 2 (-1) := by
  constructor
  · intro p q _ h1 h2
    have hp : p < 3 := by omega
    have hq : q < 3 := by omega
    interval_cases q <;> interval_cases p <;> simp
  · intro p q h0 h1 h2
    have hq : q < 5 := by omega
    interval_cases q <;> interval_cases p <;> simp

end merge
end TLA
