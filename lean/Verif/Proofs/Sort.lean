import Verif.Model.Sort
import Verif.Proofs.Region
import Mathlib.Logic.Equiv.Basic
import Mathlib.Algebra.Group.End

/-! Proofs about lasrt. -/

set_option linter.unusedTactic false
set_option linter.unreachableTactic false

namespace TLA
variable {L T : Type}

/-- `g'` is `g` with the positions `s..e` permuted. -/
def PermOn (s e : Nat) (g g' : Nat → T) : Prop :=
  ∃ σ : Equiv.Perm Nat, (∀ k, ¬ (s ≤ k ∧ k ≤ e) → σ k = k) ∧ ∀ k, g' k = g (σ k)

theorem PermOn.refl (s e : Nat) (g : Nat → T) : PermOn s e g g := ⟨1, fun _ _ => rfl, fun _ => rfl⟩

theorem PermOn.trans {s e : Nat} {g g' g'' : Nat → T} (h : PermOn s e g g') (h' : PermOn s e g' g'') :
    PermOn s e g g'' := by
  obtain ⟨σ, h1, h2⟩ := h
  obtain ⟨τ, h3, h4⟩ := h'
  exact ⟨σ * τ, fun k hk => by rw [Equiv.Perm.mul_apply, h3 k hk, h1 k hk],
    fun k => by rw [h4, h2, Equiv.Perm.mul_apply]⟩

theorem PermOn.swap {s e i j : Nat} (g : Nat → T) (hi : s ≤ i ∧ i ≤ e) (hj : s ≤ j ∧ j ≤ e) :
    PermOn s e g (fun k => g (Equiv.swap i j k)) := by
  refine ⟨Equiv.swap i j, fun k hk => Equiv.swap_apply_of_ne_of_ne ?_ ?_, fun _ => rfl⟩
  · rintro rfl; exact hk hi
  · rintro rfl; exact hk hj

theorem PermOn.mono {s e s' e' : Nat} {g g' : Nat → T} (h : PermOn s e g g') (hs : s' ≤ s)
    (he : e ≤ e') : PermOn s' e' g g' := by
  obtain ⟨σ, h1, h2⟩ := h
  exact ⟨σ, fun k hk => h1 k (by omega), h2⟩

/-- Inside the interval the values come from inside the interval. -/
theorem PermOn.inside {s e : Nat} {g g' : Nat → T} (h : PermOn s e g g') {k : Nat}
    (hk : s ≤ k ∧ k ≤ e) : ∃ k', (s ≤ k' ∧ k' ≤ e) ∧ g' k = g k' := by
  obtain ⟨σ, h1, h2⟩ := h
  refine ⟨σ k, ?_, h2 k⟩
  by_contra hc
  have := h1 _ hc
  rw [σ.injective this] at hc
  exact hc hk

theorem PermOn.outside {s e : Nat} {g g' : Nat → T} (h : PermOn s e g g') {k : Nat}
    (hk : ¬ (s ≤ k ∧ k ≤ e)) : g' k = g k := by
  obtain ⟨σ, h1, h2⟩ := h
  rw [h2, h1 k hk]

variable [DecidableEq L]

theorem wp_vswap {x : VecV L} (hx : x.Inj) {μ0 μ : Store L T} {g : Nat → T} (h : VState x μ0 g μ)
    {i j : Nat} (hi : i < x.n) (hj : j < x.n) :
    wp (vswap x i j) μ (fun _ ν => VState x μ0 (fun k => g (Equiv.swap i j k)) ν) := by
  unfold vswap
  simp only [wp_bind, wp_vget, wp_vset]
  refine ⟨hi, hj, hi, hj, ?_⟩
  have h1 : VState x μ0 (fun k => if k = i then g j else g k) (upd μ (x.cell i) (μ (x.cell j))) :=
    h.upd hx hi (fun k _ => by rw [h.val j hj])
  refine h1.upd hx hj (fun k _ => ?_)
  rw [h.val i hi]
  by_cases e1 : k = j
  · subst e1; rw [if_pos rfl, Equiv.swap_apply_right]
  · rw [if_neg e1]
    by_cases e2 : k = i
    · subst e2; rw [if_pos rfl, Equiv.swap_apply_left]
    · rw [if_neg e2, Equiv.swap_apply_of_ne_of_ne e2 e1]

/-- Transitivity of "not after". -/
def NegTrans (bf : T → T → Bool) : Prop :=
  ∀ x y z, bf y x = false → bf z y = false → bf z x = false

/-- Sorted between `s` and `e`. -/
def SortedOn (bf : T → T → Bool) (s e : Nat) (g : Nat → T) : Prop :=
  ∀ p q, s ≤ p → p < q → q ≤ e → bf (g q) (g p) = false

theorem wp_insDown {bf : T → T → Bool} (has : ∀ x y, bf x y = true → bf y x = false)
    {x : VecV L} (hx : x.Inj) {μ0 : Store L T} {start i : Nat} (hi : i < x.n) (j : Nat) :
    ∀ (μ : Store L T) (g : Nat → T), VState x μ0 g μ → start ≤ j → j ≤ i →
    wp (insDown bf x start j) μ (fun _ ν => ∃ g', VState x μ0 g' ν ∧ PermOn start i g g' ∧
      (NegTrans bf → (∀ p q, start ≤ p → p < q → q ≤ i → q ≠ j → bf (g q) (g p) = false) →
        SortedOn bf start i g')) := by
  induction j with
  | zero =>
    intro μ g h hs hj
    unfold insDown
    exact ⟨g, h, PermOn.refl _ _ _, fun _ hh p q h1 h2 h3 => hh p q h1 h2 h3 (by omega)⟩
  | succ j ih =>
    intro μ g h hs hj
    unfold insDown
    by_cases hgt : j + 1 > start
    · rw [if_pos hgt]
      simp only [wp_bind, wp_vget]
      refine ⟨by omega, by omega, ?_⟩
      rw [h.val (j + 1) (by omega), h.val j (by omega)]
      by_cases hb : bf (g (j + 1)) (g j) = true
      · rw [if_pos hb]
        simp only [wp_bind]
        refine wp_conseq (wp_vswap hx h (by omega) (by omega)) (fun _ ν hν => ?_)
        refine wp_conseq (ih ν _ hν (by omega) (by omega)) ?_
        rintro _ ν' ⟨g', h1, h2, h3⟩
        refine ⟨g', h1, (PermOn.swap g (by omega) (by omega)).trans h2, fun ht hh => h3 ht ?_⟩
        intro p q hp hpq hq hqj
        by_cases e1 : q = j + 1
        · subst e1
          rw [Equiv.swap_apply_left]
          by_cases e2 : p = j
          · subst e2; rw [Equiv.swap_apply_right]; exact has _ _ hb
          · rw [Equiv.swap_apply_of_ne_of_ne (by omega) e2]
            exact hh p j hp (by omega) (by omega) (by omega)
        · rw [Equiv.swap_apply_of_ne_of_ne (a := j + 1) (b := j) (x := q) e1 hqj]
          by_cases e2 : p = j
          · subst e2; rw [Equiv.swap_apply_right]
            exact hh _ _ (by omega) (by omega) hq e1
          · by_cases e3 : p = j + 1
            · subst e3; rw [Equiv.swap_apply_left]
              exact hh _ _ (by omega) (by omega) hq e1
            · rw [Equiv.swap_apply_of_ne_of_ne e3 e2]
              exact hh _ _ hp hpq hq e1
      · rw [if_neg hb]
        refine ⟨g, h, PermOn.refl _ _ _, fun ht hh p q hp hpq hq => ?_⟩
        have hb : bf (g (j + 1)) (g j) = false := by simpa using hb
        by_cases e1 : q = j + 1
        · subst e1
          by_cases e2 : p = j
          · subst e2; exact hb
          · exact ht _ _ _ (hh p j hp (by omega) (by omega) (by omega)) hb
        · exact hh p q hp hpq hq e1
    · rw [if_neg hgt]
      refine ⟨g, h, PermOn.refl _ _ _, fun ht hh p q hp hpq hq => hh p q hp hpq hq (by omega)⟩

theorem wp_insertionSort {bf : T → T → Bool} (has : ∀ x y, bf x y = true → bf y x = false)
    {x : VecV L} (hx : x.Inj) {μ0 μ : Store L T} {g : Nat → T} {start fin : Nat}
    (hse : start ≤ fin) (hf : fin < x.n) (h : VState x μ0 g μ) :
    wp (insertionSort bf x start fin) μ (fun _ ν => ∃ g', VState x μ0 g' ν ∧
      PermOn start fin g g' ∧ (NegTrans bf → SortedOn bf start fin g')) := by
  unfold insertionSort
  refine wp_forUp_ (fun i ν => ∃ g', VState x μ0 g' ν ∧
      PermOn start fin g g' ∧ (NegTrans bf → SortedOn bf start (i - 1) g')) (by omega)
    ⟨g, h, PermOn.refl _ _ _, fun _ p q h1 h2 h3 => by omega⟩ ?_ (fun ν hν => hν)
  rintro i ν hi1 hi2 ⟨g1, h1, h2, h3⟩
  refine wp_conseq (wp_insDown has hx (i := i) (by omega) i ν g1 h1 (by omega) (le_refl _)) ?_
  rintro _ ν' ⟨g2, h4, h5, h6⟩
  refine ⟨g2, h4, h2.trans (h5.mono (le_refl _) (by omega)), fun ht => ?_⟩
  exact h6 ht (fun p q hp hpq hq hne => h3 ht p q hp hpq (by omega))

omit [DecidableEq L] in
theorem wp_scanUp {bf : T → T → Bool} {x : VecV L} {μ0 μ : Store L T} {g : Nat → T}
    (h : VState x μ0 g μ) (pivot : T) {fin : Nat} (hf : fin < x.n) (cnt : Nat) :
    ∀ i, i + cnt = fin + 1 → wp (scanUp bf x pivot cnt i) μ (fun i' ν => ν = μ ∧ i ≤ i' ∧
      i' ≤ fin + 1 ∧ (∀ k, i ≤ k → k < i' → bf (g k) pivot = true) ∧
      (i' ≤ fin → bf (g i') pivot = false)) := by
  induction cnt with
  | zero =>
    intro i hi
    unfold scanUp
    simp only [wp_pure]
    exact ⟨trivial, le_refl _, by omega, fun k h1 h2 => by omega, fun h => by omega⟩
  | succ c ih =>
    intro i hi
    unfold scanUp
    simp only [wp_bind, wp_vget]
    refine ⟨by omega, ?_⟩
    rw [h.val i (by omega)]
    by_cases hb : bf (g i) pivot = true
    · rw [if_pos hb]
      refine wp_conseq (ih (i + 1) (by omega)) ?_
      rintro i' ν ⟨h1, h2, h3, h4, h5⟩
      refine ⟨h1, by omega, h3, fun k hk1 hk2 => ?_, h5⟩
      by_cases e : k = i
      · rw [e]; exact hb
      · exact h4 k (by omega) hk2
    · rw [if_neg hb]
      simp only [wp_pure]
      exact ⟨trivial, le_refl _, by omega, fun k h1 h2 => by omega, fun _ => by simpa using hb⟩

omit [DecidableEq L] in
theorem wp_scanDown {bf : T → T → Bool} {x : VecV L} {μ0 μ : Store L T} {g : Nat → T}
    (h : VState x μ0 g μ) (pivot : T) {start k0 : Nat} (hk0 : start ≤ k0)
    (hs : bf pivot (g k0) = false) (j : Nat) :
    k0 ≤ j → j < x.n → wp (scanDown bf x pivot start j) μ (fun j' ν => ν = μ ∧ k0 ≤ j' ∧
      j' ≤ j ∧ (∀ k, j' < k → k ≤ j → bf pivot (g k) = true) ∧ bf pivot (g j') = false) := by
  induction j with
  | zero =>
    intro hk hj
    obtain rfl : k0 = 0 := by omega
    unfold scanDown
    rw [if_pos hk0]
    simp only [wp_bind, wp_vget]
    refine ⟨by omega, ?_⟩
    rw [h.val 0 hj, hs]
    simp only [Bool.false_eq_true, if_false, wp_pure]
    exact ⟨trivial, le_refl _, le_refl _, fun k h1 h2 => by omega, hs⟩
  | succ j ih =>
    intro hk hj
    unfold scanDown
    rw [if_pos (by omega)]
    simp only [wp_bind, wp_vget]
    refine ⟨by omega, ?_⟩
    rw [h.val (j + 1) hj]
    by_cases hb : bf pivot (g (j + 1)) = true
    · rw [if_pos hb]
      have : k0 ≠ j + 1 := by rintro rfl; rw [hs] at hb; cases hb
      refine wp_conseq (ih (by omega) (by omega)) ?_
      rintro j' ν ⟨h1, h2, h3, h4, h5⟩
      refine ⟨h1, h2, by omega, fun k hk1 hk2 => ?_, h5⟩
      by_cases e : k = j + 1
      · rw [e]; exact hb
      · exact h4 k hk1 (by omega)
    · rw [if_neg hb]
      simp only [wp_pure]
      exact ⟨trivial, hk, le_refl _, fun k h1 h2 => by omega, by simpa using hb⟩

theorem wp_partLoop {bf : T → T → Bool} (has : ∀ x y, bf x y = true → bf y x = false)
    {x : VecV L} (hx : x.Inj) {μ0 : Store L T} (pivot : T) {start fin : Nat} (hf : fin < x.n)
    (fuel : Nat) :
    ∀ (i j : Nat) (μ : Store L T) (g : Nat → T), VState x μ0 g μ →
    start ≤ i → j ≤ fin → i ≤ j + 1 → 1 ≤ fuel → j + 1 - i ≤ fuel →
    (∀ k, start ≤ k → k < i → bf pivot (g k) = false) →
    (∀ k, j < k → k ≤ fin → bf (g k) pivot = false) →
    (∃ k, start ≤ k ∧ k ≤ j ∧ bf pivot (g k) = false) →
    (j < fin ∨ ∃ k, i ≤ k ∧ k < fin ∧ bf (g k) pivot = false) →
    wp (partLoop bf x pivot start fin fuel i j) μ (fun j' ν => ∃ g', VState x μ0 g' ν ∧
      PermOn start fin g g' ∧ start ≤ j' ∧ j' < fin ∧
      (∀ k, start ≤ k → k ≤ j' → bf pivot (g' k) = false) ∧
      (∀ k, j' < k → k ≤ fin → bf (g' k) pivot = false)) := by
  induction fuel with
  | zero => intro i j μ g _ _ _ _ h; omega
  | succ fuel ih =>
    intro i j μ g h hi hj hij _ hfuel hL hR ⟨k0, hk0, hk0j, hk0b⟩ hup
    unfold partLoop
    simp only [wp_bind]
    refine wp_conseq (wp_scanUp h pivot hf (fin + 1 - i) i (by omega)) ?_
    rintro i' _ ⟨rfl, u1, u2, u3, u4⟩
    refine wp_conseq (wp_scanDown h pivot hk0 hk0b j hk0j (by omega)) ?_
    rintro j' ν ⟨rfl, d1, d2, d3, d4⟩
    by_cases hlt : i' < j'
    · rw [if_pos hlt]
      simp only [wp_bind]
      refine wp_conseq (wp_vswap hx h (by omega) (by omega)) (fun _ ν' hν => ?_)
      refine wp_conseq (ih (i' + 1) (j' - 1) ν' _ hν (by omega) (by omega) (by omega) (by omega)
        (by omega) ?_ ?_ ⟨i', by omega, by omega, ?_⟩ (Or.inl (by omega))) ?_
      · intro k hk1 hk2
        by_cases e : k = i'
        · subst e; rw [Equiv.swap_apply_left]; exact d4
        · rw [Equiv.swap_apply_of_ne_of_ne e (by omega)]
          by_cases hk : k < i
          · exact hL k hk1 hk
          · exact has _ _ (u3 k (by omega) (by omega))
      · intro k hk1 hk2
        by_cases e : k = j'
        · subst e; rw [Equiv.swap_apply_right]; exact u4 (by omega)
        · rw [Equiv.swap_apply_of_ne_of_ne (by omega) e]
          by_cases hk : k ≤ j
          · exact has _ _ (d3 k (by omega) hk)
          · exact hR k (by omega) hk2
      · rw [Equiv.swap_apply_left]; exact d4
      · rintro j'' ν'' ⟨g', h1, h2, h3, h4, h5, h6⟩
        exact ⟨g', h1, (PermOn.swap g (by omega) (by omega)).trans h2, h3, h4, h5, h6⟩
    · rw [if_neg hlt]
      simp only [wp_pure]
      refine ⟨g, h, PermOn.refl _ _ _, by omega, ?_, ?_, ?_⟩
      · rcases hup with hlt' | ⟨k, hk1, hk2, hk3⟩
        · omega
        · have : i' ≤ k := by
            by_contra hc
            rw [u3 k hk1 (by omega)] at hk3
            cases hk3
          omega
      · intro k hk1 hk2
        by_cases e : k = j'
        · subst e; exact d4
        · by_cases hk : k < i
          · exact hL k hk1 hk
          · exact has _ _ (u3 k (by omega) (by omega))
      · intro k hk1 hk2
        by_cases hk : k ≤ j
        · exact has _ _ (d3 k hk1 hk)
        · exact hR k (by omega) hk2

/-- The intervals on the stack: non-empty, in range, pairwise disjoint; entries not in a common
interval are in order. -/
structure StackInv (bf : T → T → Bool) (n : Nat) (stack : List (Nat × Nat)) (g : Nat → T) : Prop where
  ok : ∀ I ∈ stack, I.1 ≤ I.2 ∧ I.2 < n
  disj : stack.Pairwise (fun a b => a.2 < b.1 ∨ b.2 < a.1)
  sorted : NegTrans bf → ∀ p q, p < q → q < n →
    (∃ I ∈ stack, I.1 ≤ p ∧ q ≤ I.2) ∨ bf (g q) (g p) = false

theorem StackInv.step {bf : T → T → Bool} {n s e : Nat} {stack news : List (Nat × Nat)}
    {g g' : Nat → T} (h : StackInv bf n ((s, e) :: stack) g) (hp : PermOn s e g g')
    (hok : ∀ I ∈ news, s ≤ I.1 ∧ I.1 ≤ I.2 ∧ I.2 ≤ e)
    (hdisj : news.Pairwise (fun a b => a.2 < b.1 ∨ b.2 < a.1))
    (hsort : NegTrans bf → ∀ p q, s ≤ p → p < q → q ≤ e →
      (∃ I ∈ news, I.1 ≤ p ∧ q ≤ I.2) ∨ bf (g' q) (g' p) = false) :
    StackInv bf n (news ++ stack) g' := by
  have hse := h.ok (s, e) (by simp)
  have hd := List.pairwise_cons.1 h.disj
  simp only at hse hd
  refine ⟨fun I hI => ?_, ?_, fun ht p q hpq hq => ?_⟩
  · rcases List.mem_append.1 hI with hI | hI
    · have := hok I hI; omega
    · exact h.ok I (by simp [hI])
  · refine List.pairwise_append.2 ⟨hdisj, hd.2, fun a ha b hb => ?_⟩
    have h1 := hok a ha
    have h2 := hd.1 b hb
    omega
  · have old := h.sorted ht
    by_cases hpin : s ≤ p ∧ p ≤ e
    · by_cases hqin : s ≤ q ∧ q ≤ e
      · rcases hsort ht p q hpin.1 hpq hqin.2 with ⟨I, hI, hh⟩ | hh
        · exact Or.inl ⟨I, by simp [hI], hh⟩
        · exact Or.inr hh
      · obtain ⟨p', hp', e1⟩ := hp.inside hpin
        rw [hp.outside hqin, e1]
        rcases old p' q (by omega) hq with ⟨I, hI, hh⟩ | hh
        · rcases List.mem_cons.1 hI with rfl | hI
          · simp only at hh; omega
          · have := hd.1 I hI; omega
        · exact Or.inr hh
    · by_cases hqin : s ≤ q ∧ q ≤ e
      · obtain ⟨q', hq', e1⟩ := hp.inside hqin
        rw [hp.outside hpin, e1]
        rcases old p q' (by omega) (by omega) with ⟨I, hI, hh⟩ | hh
        · rcases List.mem_cons.1 hI with rfl | hI
          · simp only at hh; omega
          · have := hd.1 I hI; omega
        · exact Or.inr hh
      · rw [hp.outside hpin, hp.outside hqin]
        rcases old p q hpq hq with ⟨I, hI, hh⟩ | hh
        · rcases List.mem_cons.1 hI with rfl | hI
          · simp only at hh; omega
          · exact Or.inl ⟨I, by simp [hI], hh⟩
        · exact Or.inr hh

/-- Bound on the number of pops. -/
def pops (stack : List (Nat × Nat)) : Nat := (stack.map (fun I => 2 * (I.2 - I.1) + 1)).sum

theorem before_asym {lt : T → T → Bool} (has : ∀ x y, lt x y = true → lt y x = false) (asc : Bool) :
    ∀ x y, before lt asc x y = true → before lt asc y x = false := by
  intro x y h
  cases asc
  · exact has _ _ h
  · exact has _ _ h

theorem wp_lasrtLoop {lt : T → T → Bool} (has : ∀ x y, lt x y = true → lt y x = false) (asc : Bool)
    {x : VecV L} (hx : x.Inj) {μ0 : Store L T} {n : Nat} (hn : n ≤ x.n) (g0 : Nat → T)
    (fuel : Nat) :
    ∀ (stack : List (Nat × Nat)) (μ : Store L T) (g : Nat → T), VState x μ0 g μ →
    0 < n → PermOn 0 (n - 1) g0 g → StackInv (before lt asc) n stack g → pops stack ≤ fuel →
    wp (lasrtLoop lt asc x fuel stack) μ (fun _ ν => ∃ g', VState x μ0 g' ν ∧
      PermOn 0 (n - 1) g0 g' ∧ (NegTrans (before lt asc) → SortedOn (before lt asc) 0 (n - 1) g')) := by
  have hirr : ∀ x, lt x x = false := by
    intro x
    cases hh : lt x x
    · rfl
    · have := has _ _ hh; rw [hh] at this; exact this
  induction fuel with
  | zero =>
    intro stack μ g h hn0 hp hI hf
    cases stack with
    | nil =>
      unfold lasrtLoop
      refine ⟨g, h, hp, fun ht p q h1 h2 h3 => ?_⟩
      rcases hI.sorted ht p q h2 (by omega) with ⟨I, hI, _⟩ | hh
      · cases hI
      · exact hh
    | cons I stack => simp only [pops, List.map_cons, List.sum_cons] at hf; omega
  | succ fuel ih =>
    intro stack μ g h hn0 hp hI hf
    rcases stack with _ | ⟨⟨s, e⟩, stack⟩
    · unfold lasrtLoop
      refine ⟨g, h, hp, fun ht p q h1 h2 h3 => ?_⟩
      rcases hI.sorted ht p q h2 (by omega) with ⟨I, hI, _⟩ | hh
      · cases hI
      · exact hh
    · have hse := hI.ok (s, e) (by simp)
      simp only at hse
      simp only [pops, List.map_cons, List.sum_cons] at hf
      unfold lasrtLoop
      split
      · rename_i hc
        simp only [wp_bind]
        refine wp_conseq (wp_insertionSort (before_asym has asc) hx hse.1 (by omega) h) ?_
        rintro _ ν ⟨g', h1, h2, h3⟩
        refine ih stack ν g' h1 hn0 (hp.trans (h2.mono (by omega) (by omega))) ?_
          (by simp only [pops]; omega)
        exact hI.step (news := []) h2 (by simp) (by simp)
          (fun ht p q a b c => Or.inr (h3 ht p q a b c))
      · rename_i hc
        split
        · rename_i hc'
          simp only [wp_bind, wp_vget]
          refine ⟨by omega, by omega, by omega, ?_⟩
          rw [h.val s (by omega), h.val e (by omega), h.val ((s + e) / 2) (by omega)]
          have hm1 : s < (s + e) / 2 := by omega
          have hm2 : (s + e) / 2 < e := by omega
          generalize hmid : (s + e) / 2 = m at hm1 hm2
          have hdown : ∃ k, s ≤ k ∧ k ≤ e ∧
              before lt asc (median3 lt (g s) (g e) (g m)) (g k) = false := by
            unfold median3
            have irr : ∀ y, before lt asc y y = false := by intro y; cases asc <;> exact hirr y
            split
            · split
              · exact ⟨s, by omega, by omega, irr _⟩
              · split
                · exact ⟨m, by omega, by omega, irr _⟩
                · exact ⟨e, by omega, by omega, irr _⟩
            · split
              · exact ⟨e, by omega, by omega, irr _⟩
              · split
                · exact ⟨m, by omega, by omega, irr _⟩
                · exact ⟨s, by omega, by omega, irr _⟩
          have hup : ∃ k, s ≤ k ∧ k < e ∧
              before lt asc (g k) (median3 lt (g s) (g e) (g m)) = false := by
            unfold median3
            have irr : ∀ y, before lt asc y y = false := by intro y; cases asc <;> exact hirr y
            split
            · rename_i c1
              split
              · exact ⟨s, by omega, by omega, irr _⟩
              · split
                · exact ⟨m, by omega, by omega, irr _⟩
                · rename_i c3
                  have c3 : lt (g m) (g e) = false := by simpa using c3
                  cases asc
                  · exact ⟨s, by omega, by omega, has _ _ c1⟩
                  · exact ⟨m, by omega, by omega, c3⟩
            · rename_i c1
              have c1 : lt (g s) (g e) = false := by simpa using c1
              split
              · rename_i c2
                cases asc
                · exact ⟨m, by omega, by omega, has _ _ c2⟩
                · exact ⟨s, by omega, by omega, c1⟩
              · split
                · exact ⟨m, by omega, by omega, irr _⟩
                · exact ⟨s, by omega, by omega, irr _⟩
          refine wp_conseq (wp_partLoop (before_asym has asc) hx _ (by omega) (e + 1 - s) s e μ g h
            (le_refl _) (le_refl _) (by omega) (by omega) (by omega) (fun k a b => by omega)
            (fun k a b => by omega) hdown (Or.inr hup)) ?_
          rintro j ν ⟨g', h1, h2, h3, h4, h5, h6⟩
          have hsort : NegTrans (before lt asc) → ∀ p q, s ≤ p → p < q → q ≤ e →
              ((s ≤ p ∧ q ≤ j) ∨ (j + 1 ≤ p ∧ q ≤ e)) ∨ before lt asc (g' q) (g' p) = false := by
            intro ht p q a b c
            by_cases hq : q ≤ j
            · exact Or.inl (Or.inl ⟨a, hq⟩)
            · by_cases hpj : j + 1 ≤ p
              · exact Or.inl (Or.inr ⟨hpj, c⟩)
              · exact Or.inr (ht _ _ _ (h5 p a (by omega)) (h6 q (by omega) c))
          split
          · refine ih _ ν g' h1 hn0 (hp.trans (h2.mono (by omega) (by omega)))
              (hI.step (news := [(j + 1, e), (s, j)]) h2 ?_ ?_ ?_) ?_
            · intro I hI
              simp only [List.mem_cons, List.not_mem_nil, or_false] at hI
              rcases hI with rfl | rfl <;> simp only <;> omega
            · simp only [List.pairwise_cons, List.mem_cons, List.not_mem_nil, or_false, forall_eq,
                List.Pairwise.nil, and_true, IsEmpty.forall_iff, implies_true]
              omega
            · intro ht p q a b c
              rcases hsort ht p q a b c with (hh | hh) | hh
              · exact Or.inl ⟨(s, j), by simp, hh⟩
              · exact Or.inl ⟨(j + 1, e), by simp, hh⟩
              · exact Or.inr hh
            · simp only [pops, List.map_cons, List.sum_cons]; omega
          · refine ih _ ν g' h1 hn0 (hp.trans (h2.mono (by omega) (by omega)))
              (hI.step (news := [(s, j), (j + 1, e)]) h2 ?_ ?_ ?_) ?_
            · intro I hI
              simp only [List.mem_cons, List.not_mem_nil, or_false] at hI
              rcases hI with rfl | rfl <;> simp only <;> omega
            · simp only [List.pairwise_cons, List.mem_cons, List.not_mem_nil, or_false, forall_eq,
                List.Pairwise.nil, and_true, IsEmpty.forall_iff, implies_true]
              omega
            · intro ht p q a b c
              rcases hsort ht p q a b c with (hh | hh) | hh
              · exact Or.inl ⟨(s, j), by simp, hh⟩
              · exact Or.inl ⟨(j + 1, e), by simp, hh⟩
              · exact Or.inr hh
            · simp only [pops, List.map_cons, List.sum_cons]; omega
        · rename_i hc'
          refine ih stack μ g h hn0 hp ?_ (by simp only [pops]; omega)
          exact hI.step (news := []) (PermOn.refl _ _ _) (by simp) (by simp)
            (fun ht p q a b c => by omega)

end TLA
