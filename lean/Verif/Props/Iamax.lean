import Verif.Model.Auxil
import Verif.Wp
import Mathlib.Algebra.Order.Group.Unbundled.Int
import Mathlib.Algebra.Order.Ring.Int

/-! # C20: iamax -/

namespace TLA

variable {L T K : Type} [LinearOrder K]

/-- What the scalar operations given to iamax must satisfy.  On an entry that is neither NaN nor
Inf, `absf` is a number above `-1` unless it overflows (only possible for complex entries), and
`absf` of a quarter of it is a number; entries that overflow are at least as large as those
that do not; on NaN entries both are NaN. -/
structure IamaxLaws (o : IamaxOps T K) (mag quarter : T → K) (overflows : T → Prop) : Prop where
  nan_abs : ∀ x, o.isnan x = true → o.isinf x = false → o.absf x = .nan ∧ o.absQ x = .nan
  inf_abs : ∀ x, o.isnan x = false → o.isinf x = false → overflows x → o.absf x = .inf
  fin_abs : ∀ x, o.isnan x = false → o.isinf x = false → ¬ overflows x →
    o.absf x = .fin (mag x) ∧ o.minusOne < mag x
  quarter_abs : ∀ x, o.isnan x = false → o.isinf x = false → o.absQ x = .fin (quarter x)
  real_no_overflow : ∀ x, o.isReal = true → ¬ overflows x
  mono : ∀ x y, o.isnan x = false → o.isnan y = false → o.isinf x = false → o.isinf y = false →
    ¬ overflows x → overflows y → quarter x ≤ quarter y

/-- `k` is the first index below `n` at which `p` holds. -/
def FirstIdx (n : Nat) (p : Nat → Prop) (k : Nat) : Prop := k < n ∧ p k ∧ ∀ i, i < k → ¬ p i

/-- `k` is the first index below `n` satisfying `p` with the largest key. -/
def FirstMax (n : Nat) (p : Nat → Prop) (key : Nat → K) (k : Nat) : Prop :=
  k < n ∧ p k ∧ (∀ i, i < n → p i → key i ≤ key k) ∧ ∀ i, i < k → p i → key i < key k

variable {o : IamaxOps T K} {mag quarter : T → K} {overflows : T → Prop}

/-- State reached after the entries `f 0 .. f (i-1)`, none of which is Inf. -/
def IamaxInv (o : IamaxOps T K) (mag quarter : T → K) (overflows : T → Prop) (f : Nat → T) (i : Nat)
    (st : IamaxSt K) : Prop :=
  (st.scaled = false ∧ (∀ j, j < i → o.isnan (f j) = false → ¬ overflows (f j)) ∧
    ((st.index = none ∧ st.smax = .fin o.minusOne ∧ ∀ j, j < i → o.isnan (f j) = true) ∨
     ∃ k, st.index = some k ∧ st.smax = .fin (mag (f k)) ∧
      FirstMax i (fun j => o.isnan (f j) = false) (fun j => mag (f j)) k)) ∨
  (st.scaled = true ∧ ∃ k, st.index = some k ∧ st.smax = .fin (quarter (f k)) ∧
      FirstMax i (fun j => o.isnan (f j) = false ∧ overflows (f j)) (fun j => quarter (f j)) k)

theorem FirstMax.mono {i : Nat} {p : Nat → Prop} {key : Nat → K} {k : Nat}
    (h : FirstMax i p key k) (hi : p i → key i ≤ key k) : FirstMax (i + 1) p key k := by
  obtain ⟨h1, h2, h3, h4⟩ := h
  refine ⟨by omega, h2, fun j hj hp => ?_, h4⟩
  rcases Nat.lt_succ_iff_lt_or_eq.1 hj with h | rfl
  · exact h3 j h hp
  · exact hi hp

theorem FirstMax.new {i : Nat} {p : Nat → Prop} {key : Nat → K} (hp : p i)
    (h : ∀ j, j < i → p j → key j < key i) : FirstMax (i + 1) p key i := by
  refine ⟨by omega, hp, fun j hj hpj => ?_, h⟩
  rcases Nat.lt_succ_iff_lt_or_eq.1 hj with h' | rfl
  · exact (h j h' hpj).le
  · exact le_refl _

theorem iamaxStep_inv (hl : IamaxLaws o mag quarter overflows) (f : Nat → T) (i : Nat) (st : IamaxSt K)
    (hinfs : ∀ j, j < i → o.isinf (f j) = false)
    (hinf : o.isinf (f i) = false) (h : IamaxInv o mag quarter overflows f i st) :
    IamaxInv o mag quarter overflows f (i + 1) (iamaxStep o i (f i) st) := by
  cases hn : o.isnan (f i) with
  | true =>
    obtain ⟨h1, h2⟩ := hl.nan_abs _ hn hinf
    have : iamaxStep o i (f i) st = st := by
      unfold iamaxStep
      rw [h1, h2]
      cases o.isReal <;> cases st.scaled <;> simp [Fl.gt]
    rw [this]
    rcases h with ⟨hs, hno, h⟩ | ⟨hs, k, hk, hm, hF⟩
    · refine Or.inl ⟨hs, fun j hj hj' => ?_, ?_⟩
      · rcases Nat.lt_succ_iff_lt_or_eq.1 hj with h' | rfl
        · exact hno j h' hj'
        · rw [hn] at hj'; cases hj'
      · rcases h with ⟨a, b, c⟩ | ⟨k, a, b, c⟩
        · refine Or.inl ⟨a, b, fun j hj => ?_⟩
          rcases Nat.lt_succ_iff_lt_or_eq.1 hj with h' | rfl
          · exact c j h'
          · exact hn
        · exact Or.inr ⟨k, a, b, c.mono (fun hp => by rw [hn] at hp; cases hp)⟩
    · exact Or.inr ⟨hs, k, hk, hm, hF.mono (fun hp => by rw [hn] at hp; cases hp.1)⟩
  | false =>
    have hq := hl.quarter_abs _ hn hinf
    rcases h with ⟨hs, hno, h⟩ | ⟨hs, k, hk, hm, hF⟩
    · by_cases hov : overflows (f i)
      · have ha := hl.inf_abs _ hn hinf hov
        have hr : o.isReal = false := by
          cases hr : o.isReal
          · rfl
          · exact absurd hov (hl.real_no_overflow _ hr)
        have e : iamaxStep o i (f i) st = ⟨true, .fin (quarter (f i)), some i⟩ := by
          unfold iamaxStep
          simp [hr, hs, ha, hq]
        rw [e]
        refine Or.inr ⟨rfl, i, rfl, rfl, FirstMax.new ⟨hn, hov⟩ (fun j hj hp => ?_)⟩
        exact absurd hp.2 (hno j hj hp.1)
      · obtain ⟨ha, hm1⟩ := hl.fin_abs _ hn hinf hov
        have hno' : ∀ j, j < i + 1 → o.isnan (f j) = false → ¬ overflows (f j) := by
          intro j hj hj'
          rcases Nat.lt_succ_iff_lt_or_eq.1 hj with h' | rfl
          · exact hno j h' hj'
          · exact hov
        have e : iamaxStep o i (f i) st =
            if (Fl.fin (mag (f i))).gt st.smax then ⟨st.scaled, .fin (mag (f i)), some i⟩ else st := by
          unfold iamaxStep
          cases o.isReal <;> simp [hs, ha]
        rw [e]
        rcases h with ⟨a, b, c⟩ | ⟨k, a, b, c⟩
        · rw [b]
          simp only [Fl.gt, hm1, decide_true, if_true]
          exact Or.inl ⟨hs, hno', Or.inr ⟨i, rfl, rfl, FirstMax.new hn (fun j hj hp => by
            rw [c j hj] at hp; cases hp)⟩⟩
        · rw [b]
          by_cases hlt : mag (f k) < mag (f i)
          · simp only [Fl.gt, hlt, decide_true, if_true]
            exact Or.inl ⟨hs, hno', Or.inr ⟨i, rfl, rfl, FirstMax.new hn (fun j hj hp =>
              lt_of_le_of_lt (c.2.2.1 j hj hp) hlt)⟩⟩
          · simp only [Fl.gt, hlt, decide_false, Bool.false_eq_true, if_false]
            exact Or.inl ⟨hs, hno', Or.inr ⟨k, a, b, c.mono (fun _ => not_lt.1 hlt)⟩⟩
    · have hr : o.isReal = false := by
        cases hr : o.isReal
        · rfl
        · exact absurd hF.2.1.2 (hl.real_no_overflow _ hr)
      have e : iamaxStep o i (f i) st =
          if (Fl.fin (quarter (f i))).gt st.smax then ⟨st.scaled, .fin (quarter (f i)), some i⟩ else st := by
        unfold iamaxStep
        simp [hr, hs, hq]
      rw [e, hm]
      by_cases hlt : quarter (f k) < quarter (f i)
      · simp only [Fl.gt, hlt, decide_true, if_true]
        refine Or.inr ⟨hs, i, rfl, rfl, FirstMax.new ⟨hn, ?_⟩ (fun j hj hp =>
          lt_of_le_of_lt (hF.2.2.1 j hj hp) hlt)⟩
        by_contra hov
        exact absurd hlt (not_lt.2 (hl.mono _ _ hn hF.2.1.1 hinf (hinfs k hF.1) hov hF.2.1.2))
      · simp only [Fl.gt, hlt, decide_false, Bool.false_eq_true, if_false]
        exact Or.inr ⟨hs, k, hk, hm, hF.mono (fun _ => not_lt.1 hlt)⟩

theorem iamaxInv_zero (f : Nat → T) :
    IamaxInv o mag quarter overflows f 0 ⟨false, .fin o.minusOne, none⟩ :=
  Or.inl ⟨rfl, fun _ h => absurd h (Nat.not_lt_zero _),
    Or.inl ⟨rfl, rfl, fun _ h => absurd h (Nat.not_lt_zero _)⟩⟩

/-- The documented result of iamax with NaN checks, for the entries `f 0 .. f (n-1)`. -/
inductive IamaxSpec (o : IamaxOps T K) (mag quarter : T → K) (overflows : T → Prop)
    (n : Nat) (f : Nat → T) : Nat → Prop
  /-- 0 if the vector is empty -/
  | empty : n = 0 → IamaxSpec o mag quarter overflows n f 0
  /-- the first NaN if there is one -/
  | nan (k) : FirstIdx n (fun i => o.isnan (f i) = true) k → IamaxSpec o mag quarter overflows n f k
  /-- else the first Inf if there is one -/
  | inf (k) : (∀ i, i < n → o.isnan (f i) = false) → FirstIdx n (fun i => o.isinf (f i) = true) k →
      IamaxSpec o mag quarter overflows n f k
  /-- else, if some absolute value overflows, the first of those with the largest quarter -/
  | overflow (k) : (∀ i, i < n → o.isnan (f i) = false ∧ o.isinf (f i) = false) →
      FirstMax n (fun i => overflows (f i)) (fun i => quarter (f i)) k →
      IamaxSpec o mag quarter overflows n f k
  /-- else the first entry of largest absolute value -/
  | finite (k) : (∀ i, i < n → o.isnan (f i) = false ∧ o.isinf (f i) = false ∧ ¬ overflows (f i)) →
      FirstMax n (fun _ => True) (fun i => mag (f i)) k →
      IamaxSpec o mag quarter overflows n f k

/-- **C20** iamax with NaN checks returns the documented index, never `idx_t(-1)`, without
touching memory or reading out of range. -/
theorem C20_iamax_ec (hl : IamaxLaws o mag quarter overflows) (x : VecV L) (μ : Store L T) :
    ∃ k, iamaxEc o x μ = (.ok (some k), μ) ∧
      IamaxSpec o mag quarter overflows x.n (ventry μ x) k ∧ (0 < x.n → k < x.n) := by
  have main : wp (iamaxEc o x) μ (fun r ν => ν = μ ∧ ∃ k, r = some k ∧
      IamaxSpec o mag quarter overflows x.n (ventry μ x) k ∧ (0 < x.n → k < x.n)) := by
    unfold iamaxEc
    split
    · rename_i h
      exact ⟨rfl, 0, rfl, .empty h, by omega⟩
    rename_i hn
    simp only [wp_bind]
    refine wp_forRet (Q := fun r ν => wp (match r with
        | Sum.inr k => pure (some k)
        | Sum.inl st => pure st.index) ν (fun r ν => ν = μ ∧ ∃ k, r = some k ∧
          IamaxSpec o mag quarter overflows x.n (ventry μ x) k ∧ (0 < x.n → k < x.n)))
      (fun i st ν => ν = μ ∧
        (∀ j, j < i → o.isnan (ventry μ x j) = false ∧ o.isinf (ventry μ x j) = false) ∧
        IamaxInv o mag quarter overflows (ventry μ x) i st) (Nat.zero_le _) ?_ ?_ ?_
    · exact ⟨rfl, fun _ h => absurd h (Nat.not_lt_zero _), iamaxInv_zero _⟩
    · rintro i st ν _ hi ⟨rfl, hok, hinv⟩
      simp only [wp_bind, wp_vget]
      refine ⟨hi, ?_⟩
      rw [show ν (x.cell i) = ventry ν x i from rfl]
      split
      · rename_i hnan
        simp only [wp_pure]
        exact ⟨trivial, i, rfl, .nan i ⟨hi, hnan, fun j hj h => Bool.noConfusion ((hok j hj).1.symm.trans h)⟩,
          fun _ => hi⟩
      · rename_i hnan
        have hnan : o.isnan (ventry ν x i) = false := by simpa using hnan
        split
        · rename_i hinf
          simp only [wp_bind]
          refine wp_forRet (Q := fun r ν' => wp _ ν' _ _)
            (fun k _ ν' => ν' = ν ∧ ∀ j, i < j → j < k → o.isnan (ventry ν x j) = false)
            (by omega) ⟨rfl, fun j h1 h2 => by omega⟩ ?_ ?_
          · rintro k _ ν' h1 h2 ⟨rfl, hk⟩
            simp only [wp_bind, wp_vget]
            refine ⟨h2, ?_⟩
            rw [show ν' (x.cell k) = ventry ν' x k from rfl]
            split
            · rename_i hkn
              simp only [wp_pure]
              refine ⟨trivial, k, rfl, .nan k ⟨h2, hkn, fun j hj h => ?_⟩, fun _ => h2⟩
              rcases Nat.lt_trichotomy j i with h' | h' | h'
              · exact Bool.noConfusion ((hok j h').1.symm.trans h)
              · subst h'; exact Bool.noConfusion (hnan.symm.trans h)
              · exact Bool.noConfusion ((hk j h' hj).symm.trans h)
            · rename_i hkn
              simp only [wp_pure]
              refine ⟨trivial, fun j h3 h4 => ?_⟩
              rcases Nat.lt_succ_iff_lt_or_eq.1 h4 with h' | rfl
              · exact hk j h3 h'
              · simpa using hkn
          · rintro _ ν' ⟨rfl, hk⟩
            simp only [wp_pure]
            refine ⟨trivial, i, rfl, .inf i (fun j hj => ?_) ⟨hi, hinf, fun j hj h => ?_⟩, fun _ => hi⟩
            · rcases Nat.lt_trichotomy j i with h' | h' | h'
              · exact (hok j h').1
              · rw [h']; exact hnan
              · exact hk j h' hj
            · exact Bool.noConfusion ((hok j hj).2.symm.trans h)
        · rename_i hinf
          have hinf : o.isinf (ventry ν x i) = false := by simpa using hinf
          simp only [wp_pure]
          refine ⟨trivial, fun j hj => ?_,
            iamaxStep_inv hl _ i st (fun j hj => (hok j hj).2) hinf hinv⟩
          rcases Nat.lt_succ_iff_lt_or_eq.1 hj with h' | rfl
          · exact hok j h'
          · exact ⟨hnan, hinf⟩
    · rintro st ν ⟨rfl, hok, hinv⟩
      simp only [wp_pure]
      refine ⟨trivial, ?_⟩
      rcases hinv with ⟨_, hno, ⟨_, _, h⟩ | ⟨k, h1, _, h2⟩⟩ | ⟨_, k, h1, _, h2⟩
      · have := h 0 (by omega)
        rw [(hok 0 (by omega)).1] at this; cases this
      · refine ⟨k, h1, .finite k (fun i hi => ⟨(hok i hi).1, (hok i hi).2, hno i hi (hok i hi).1⟩)
          ⟨h2.1, trivial, fun i hi _ => h2.2.2.1 i hi (hok i hi).1,
            fun i hi _ => h2.2.2.2 i hi (hok i (Nat.lt_trans hi h2.1)).1⟩, fun _ => h2.1⟩
      · refine ⟨k, h1, .overflow k hok
          ⟨h2.1, h2.2.1.2, fun i hi ho => h2.2.2.1 i hi ⟨(hok i hi).1, ho⟩,
            fun i hi ho => h2.2.2.2 i hi ⟨(hok i (Nat.lt_trans hi h2.1)).1, ho⟩⟩, fun _ => h2.1⟩
  obtain ⟨r, ν, h1, rfl, k, rfl, h2, h3⟩ := wp_iff.1 main
  exact ⟨k, h1, h2, h3⟩

/-- The documented result of iamax without NaN checks. -/
inductive IamaxNcSpec (o : IamaxOps T K) (mag quarter : T → K) (overflows : T → Prop)
    (n : Nat) (f : Nat → T) : Nat → Prop
  /-- 0 if there is nothing but NaNs -/
  | none : (∀ i, i < n → o.isnan (f i) = true) → IamaxNcSpec o mag quarter overflows n f 0
  /-- the first Inf if there is one -/
  | inf (k) : FirstIdx n (fun i => o.isinf (f i) = true) k → IamaxNcSpec o mag quarter overflows n f k
  /-- else, if some absolute value overflows, the first of those with the largest quarter -/
  | overflow (k) : (∀ i, i < n → o.isinf (f i) = false) →
      FirstMax n (fun i => o.isnan (f i) = false ∧ overflows (f i)) (fun i => quarter (f i)) k →
      IamaxNcSpec o mag quarter overflows n f k
  /-- else the first entry of largest absolute value among those that are not NaN -/
  | finite (k) : (∀ i, i < n → o.isinf (f i) = false) →
      (∀ i, i < n → o.isnan (f i) = false → ¬ overflows (f i)) →
      FirstMax n (fun i => o.isnan (f i) = false) (fun i => mag (f i)) k →
      IamaxNcSpec o mag quarter overflows n f k

/-- **C20** iamax without NaN checks skips NaNs. -/
theorem C20_iamax_nc (hl : IamaxLaws o mag quarter overflows) (x : VecV L) (μ : Store L T) :
    ∃ k, iamaxNc o x μ = (.ok k, μ) ∧
      IamaxNcSpec o mag quarter overflows x.n (ventry μ x) k ∧ (0 < x.n → k < x.n) := by
  have main : wp (iamaxNc o x) μ (fun k ν => ν = μ ∧
      IamaxNcSpec o mag quarter overflows x.n (ventry μ x) k ∧ (0 < x.n → k < x.n)) := by
    unfold iamaxNc
    split
    · rename_i h
      exact ⟨rfl, .none (fun i hi => by omega), by omega⟩
    rename_i hn
    simp only [wp_bind]
    refine wp_forRet (Q := fun r ν => wp (match r with
        | Sum.inr k => pure k
        | Sum.inl st => pure (match st.index with | some k => k | Option.none => 0)) ν
          (fun k ν => ν = μ ∧
          IamaxNcSpec o mag quarter overflows x.n (ventry μ x) k ∧ (0 < x.n → k < x.n)))
      (fun i st ν => ν = μ ∧
        (∀ j, j < i → o.isinf (ventry μ x j) = false) ∧
        IamaxInv o mag quarter overflows (ventry μ x) i st) (Nat.zero_le _) ?_ ?_ ?_
    · exact ⟨rfl, fun _ h => absurd h (Nat.not_lt_zero _), iamaxInv_zero _⟩
    · rintro i st ν _ hi ⟨rfl, hok, hinv⟩
      simp only [wp_bind, wp_vget]
      refine ⟨hi, ?_⟩
      rw [show ν (x.cell i) = ventry ν x i from rfl]
      split
      · rename_i hinf
        simp only [wp_pure]
        exact ⟨trivial, .inf i ⟨hi, hinf, fun j hj h => Bool.noConfusion ((hok j hj).symm.trans h)⟩, fun _ => hi⟩
      · rename_i hinf
        have hinf : o.isinf (ventry ν x i) = false := by simpa using hinf
        simp only [wp_pure]
        refine ⟨trivial, fun j hj => ?_, iamaxStep_inv hl _ i st hok hinf hinv⟩
        rcases Nat.lt_succ_iff_lt_or_eq.1 hj with h' | rfl
        · exact hok j h'
        · exact hinf
    · rintro st ν ⟨rfl, hok, hinv⟩
      simp only [wp_pure]
      refine ⟨trivial, ?_⟩
      rcases hinv with ⟨_, hno, ⟨h0, _, h⟩ | ⟨k, h1, _, h2⟩⟩ | ⟨_, k, h1, _, h2⟩
      · rw [h0]; exact ⟨.none h, fun h => h⟩
      · rw [h1]; exact ⟨.finite k hok hno h2, fun _ => h2.1⟩
      · rw [h1]; exact ⟨.overflow k hok h2, fun _ => h2.1⟩
  obtain ⟨r, ν, h1, rfl, h2, h3⟩ := wp_iff.1 main
  exact ⟨r, h1, h2, h3⟩

/-- The laws are met by extended integers whose "absolute value" overflows from 100 on. -/
example : IamaxLaws (T := Fl Int) (K := Int)
    { isReal := false
      isnan := fun x => decide (x = .nan)
      isinf := fun x => decide (x = .inf)
      absf := fun x => match x with
        | .fin k => if |k| < 100 then .fin |k| else .inf
        | y => y
      absQ := fun x => match x with
        | .fin k => .fin (|k| / 4)
        | y => y
      minusOne := -1 }
    (fun x => match x with | .fin k => |k| | _ => 0)
    (fun x => match x with | .fin k => |k| / 4 | _ => 0)
    (fun x => match x with | .fin k => 100 ≤ |k| | _ => False) where
  nan_abs x h _ := by simp at h; subst h; simp
  inf_abs x h h' ho := by
    cases x <;> simp_all
  fin_abs x h h' ho := by
    cases x with
    | fin k =>
      simp only [not_le] at ho
      simp only [ho, if_true, true_and]
      have := abs_nonneg k
      omega
    | nan => simp at h
    | inf => simp at h'
  quarter_abs x h h' := by cases x <;> simp_all
  real_no_overflow x h := by simp at h
  mono x y hx hy hx' hy' h1 h2 := by
    cases x <;> cases y <;> simp_all <;> omega

end TLA
