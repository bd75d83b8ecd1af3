import Verif.Model.Wrap
import Verif.Wp

/-! # C19: loops over unsigned indices -/

namespace TLA

variable {L T σ : Type} {w : Nat}

theorem bv_pred {k : Nat} : BitVec.ofNat w (k + 1) - 1 = BitVec.ofNat w k := by
  apply BitVec.eq_of_toNat_eq
  rcases w with _ | w
  · simp [BitVec.toNat_of_zero_length]
  · have : (1 : Nat) % 2 ^ (w + 1) = 1 := Nat.mod_eq_of_lt (Nat.one_lt_two_pow (by omega))
    rw [show (1 : BitVec (w + 1)) = BitVec.ofNat (w + 1) 1 from rfl]
    simp only [BitVec.toNat_sub, BitVec.toNat_ofNat, this]
    have h2 : 1 < 2 ^ (w + 1) := Nat.one_lt_two_pow (by omega)
    rw [Nat.add_mod_mod, show 2 ^ (w + 1) - 1 + (k + 1) = k + 2 ^ (w + 1) by omega,
      Nat.add_mod_right]

theorem bv_zero_pred : BitVec.ofNat w 0 - 1 = -1 := by
  simp

theorem bv_toNat_neg_one : (-1 : BitVec w).toNat = 2 ^ w - 1 := by
  rw [show (-1 : BitVec w) = -1#w from rfl, BitVec.neg_one_eq_allOnes, BitVec.toNat_allOnes]

theorem bv_ne_neg_one {k : Nat} (h : k + 1 < 2 ^ w) : BitVec.ofNat w k ≠ -1 := by
  intro e
  have := congrArg BitVec.toNat e
  rw [bv_toNat_neg_one, BitVec.toNat_ofNat, Nat.mod_eq_of_lt (by omega)] at this
  omega

/-- Core step: a countdown through `lo + c - 1, .., lo` whose test holds on these values and fails
on the value reached after `lo`. -/
theorem forLoop_down (test : BitVec w → Bool) (body : Nat → σ → M L T σ) (lo c : Nat)
    (hw : lo + c ≤ 2 ^ w)
    (ht : ∀ k, lo ≤ k → k < lo + c → test (BitVec.ofNat w k) = true)
    (hf : test (BitVec.ofNat w lo - 1) = false) (s : σ) (μ : Store L T)
    (r : Except Err σ × Store L T) :
    ForLoop test (· - 1) body (BitVec.ofNat w (lo + c) - 1) s μ r ↔
      r = forDownN lo c s body μ := by
  induction c generalizing s μ with
  | zero =>
    simp only [Nat.add_zero, forDownN]
    constructor
    · intro h
      cases h with
      | done _ => rfl
      | next h => rw [hf] at h; cases h
      | throw h => rw [hf] at h; cases h
    · rintro rfl
      exact .done hf
  | succ c ih =>
    have hpos := Nat.two_pow_pos w
    rw [show lo + (c + 1) = (lo + c) + 1 by omega, bv_pred]
    have t := ht (lo + c) (by omega) (by omega)
    have tn : (BitVec.ofNat w (lo + c)).toNat = lo + c := by
      rw [BitVec.toNat_ofNat, Nat.mod_eq_of_lt (by omega)]
    have ih := fun s μ => ih (by omega) (fun k h1 h2 => ht k h1 (by omega)) s μ
    have unf : forDownN lo (c + 1) s body μ =
        match body (lo + c) s μ with
        | (.ok a, ν) => forDownN lo c a body ν
        | (.error e, ν) => (.error e, ν) := rfl
    rw [unf]
    constructor
    · intro h
      cases h with
      | done h => rw [t] at h; cases h
      | next _ hb h =>
        rw [tn] at hb
        rw [hb]
        exact (ih _ _).1 h
      | throw _ hb =>
        rw [tn] at hb
        rw [hb]
    · intro h
      rcases hb : body (lo + c) s μ with ⟨x, ν⟩
      rw [hb] at h
      cases x with
      | ok a => exact .next t (by rw [tn]; exact hb) ((ih a ν).2 h)
      | error e =>
        simp only at h
        subst h
        exact .throw t (by rw [tn]; exact hb)

/-- **C19** `for (i = n-1; i != idx_t(-1); --i)` is the countdown `n-1, .., 0`, for every `n` an
index can hold, `n = 0` included: it always terminates, with exactly this result. -/
theorem C19_ne_minus_one (body : Nat → σ → M L T σ) (n : Nat) (hn : n < 2 ^ w) (s : σ)
    (μ : Store L T) (r : Except Err σ × Store L T) :
    ForLoop (fun i => decide (i ≠ -1)) (· - 1) body (BitVec.ofNat w n - 1) s μ r ↔
      r = forDown 0 n s body μ := by
  have := forLoop_down (w := w) (fun i => decide (i ≠ -1)) body 0 n (by omega)
    (fun k _ h => decide_eq_true (bv_ne_neg_one (by omega)))
    (by simp) s μ r
  simpa [forDown] using this

/-- **C19** `for (j = n; j-- > 0;)` is the same countdown. -/
theorem C19_post_decrement (body : Nat → σ → M L T σ) (n : Nat) (hn : n < 2 ^ w) (s : σ)
    (μ : Store L T) (r : Except Err σ × Store L T) :
    ForPostDec body (BitVec.ofNat w n) s μ r ↔ r = forDown 0 n s body μ := by
  unfold forDown
  rw [Nat.sub_zero]
  induction n generalizing s μ with
  | zero =>
    simp only [forDownN]
    constructor
    · intro h
      cases h with
      | done _ => rfl
      | next h => simp at h
      | throw h => simp at h
    · rintro rfl
      exact .done (by simp)
  | succ c ih =>
    have t : BitVec.ofNat w (c + 1) > 0 := by
      show 0 < BitVec.ofNat w (c + 1)
      rw [BitVec.lt_def, BitVec.toNat_ofNat, Nat.mod_eq_of_lt hn]
      simp
    have tn : (BitVec.ofNat w (c + 1) - 1).toNat = c := by
      rw [bv_pred, BitVec.toNat_ofNat, Nat.mod_eq_of_lt (by omega)]
    have ih := fun s μ => ih (by omega) s μ
    have unf : forDownN 0 (c + 1) s body μ =
        match body c s μ with
        | (.ok a, ν) => forDownN 0 c a body ν
        | (.error e, ν) => (.error e, ν) := by
      have : forDownN 0 (c + 1) s body μ =
        match body (0 + c) s μ with
        | (.ok a, ν) => forDownN 0 c a body ν
        | (.error e, ν) => (.error e, ν) := rfl
      rw [this, Nat.zero_add]
    rw [unf]
    constructor
    · intro h
      cases h with
      | done h => exact absurd t h
      | next _ hb h =>
        rw [tn] at hb
        rw [hb]
        rw [bv_pred] at h
        exact (ih _ _).1 h
      | throw _ hb =>
        rw [tn] at hb
        rw [hb]
    · intro h
      rcases hb : body c s μ with ⟨x, ν⟩
      rw [hb] at h
      cases x with
      | ok a => exact .next t (by rw [tn]; exact hb) (by rw [bv_pred]; exact (ih a ν).2 h)
      | error e =>
        simp only at h
        subst h
        exact .throw t (by rw [tn]; exact hb)

/-- **C19** `for (i = hi-1; i > lo; --i)` is the countdown `hi-1, .., lo+1`, provided `hi > 0`. -/
theorem C19_greater (body : Nat → σ → M L T σ) (lo hi : Nat) (h0 : 0 < hi) (hhi : hi < 2 ^ w)
    (hlo : lo < hi) (s : σ) (μ : Store L T) (r : Except Err σ × Store L T) :
    ForLoop (fun i => decide (i > BitVec.ofNat w lo)) (· - 1) body (BitVec.ofNat w hi - 1) s μ r ↔
      r = forDown (lo + 1) hi s body μ := by
  have := forLoop_down (w := w) (fun i => decide (i > BitVec.ofNat w lo)) body (lo + 1)
    (hi - (lo + 1)) (by omega)
    (fun k h1 h2 => decide_eq_true (by
      show BitVec.ofNat w lo < BitVec.ofNat w k
      rw [BitVec.lt_def, BitVec.toNat_ofNat, BitVec.toNat_ofNat, Nat.mod_eq_of_lt (by omega),
        Nat.mod_eq_of_lt (by omega)]
      omega))
    (by
      rw [bv_pred]
      simp [BitVec.lt_def]) s μ r
  rw [show lo + 1 + (hi - (lo + 1)) = hi by omega] at this
  exact this

/-- **C19** `for (i = hi-1; i >= lo; --i)` is the countdown `hi-1, .., lo`, provided `lo > 0`
and `hi > 0`. -/
theorem C19_greater_equal (body : Nat → σ → M L T σ) (lo hi : Nat) (h0 : 0 < lo) (hhi : hi < 2 ^ w)
    (hlo : lo ≤ hi) (s : σ) (μ : Store L T) (r : Except Err σ × Store L T) :
    ForLoop (fun i => decide (i ≥ BitVec.ofNat w lo)) (· - 1) body (BitVec.ofNat w hi - 1) s μ r ↔
      r = forDown lo hi s body μ := by
  have := forLoop_down (w := w) (fun i => decide (i ≥ BitVec.ofNat w lo)) body lo
    (hi - lo) (by omega)
    (fun k h1 h2 => decide_eq_true (by
      show BitVec.ofNat w lo ≤ BitVec.ofNat w k
      rw [BitVec.le_def, BitVec.toNat_ofNat, BitVec.toNat_ofNat, Nat.mod_eq_of_lt (by omega),
        Nat.mod_eq_of_lt (by omega)]
      omega))
    (by
      obtain ⟨k, rfl⟩ : ∃ k, lo = k + 1 := ⟨lo - 1, by omega⟩
      rw [bv_pred]
      apply decide_eq_false
      show ¬ BitVec.ofNat w (k + 1) ≤ BitVec.ofNat w k
      rw [BitVec.le_def, BitVec.toNat_ofNat, BitVec.toNat_ofNat, Nat.mod_eq_of_lt (by omega),
        Nat.mod_eq_of_lt (by omega)]
      omega) s μ r
  rw [show lo + (hi - lo) = hi by omega] at this
  exact this

/-- **C19** `for (i = lo; i < hi; ++i)` counts `lo, .., hi-1` for all bounds an index can hold. -/
theorem C19_ascending (body : Nat → σ → M L T σ) (lo hi : Nat) (hlo : lo ≤ hi) (hhi : hi < 2 ^ w)
    (s : σ) (μ : Store L T) (r : Except Err σ × Store L T) :
    ForLoop (fun i => decide (i < BitVec.ofNat w hi)) (· + 1) body (BitVec.ofNat w lo) s μ r ↔
      r = forUp lo hi s body μ := by
  unfold forUp
  obtain ⟨c, rfl⟩ : ∃ c, hi = lo + c := ⟨hi - lo, by omega⟩
  rw [Nat.add_sub_cancel_left]
  induction c generalizing lo s μ with
  | zero =>
    simp only [forUpN, Nat.add_zero]
    constructor
    · intro h
      cases h with
      | done _ => rfl
      | next h => simp [BitVec.lt_def] at h
      | throw h => simp [BitVec.lt_def] at h
    · rintro rfl
      exact .done (by simp [BitVec.lt_def])
  | succ c ih =>
    have ih := fun s μ => ih (lo + 1) s μ (by omega) (by omega)
    have t : decide (BitVec.ofNat w lo < BitVec.ofNat w (lo + (c + 1))) = true := by
      apply decide_eq_true
      rw [BitVec.lt_def, BitVec.toNat_ofNat, BitVec.toNat_ofNat, Nat.mod_eq_of_lt (by omega),
        Nat.mod_eq_of_lt (by omega)]
      omega
    have tn : (BitVec.ofNat w lo).toNat = lo := by
      rw [BitVec.toNat_ofNat, Nat.mod_eq_of_lt (by omega)]
    have hsucc : BitVec.ofNat w lo + 1 = BitVec.ofNat w (lo + 1) := by
      apply BitVec.eq_of_toNat_eq
      simp [BitVec.toNat_add]
    rw [show lo + 1 + c = lo + (c + 1) by omega] at ih
    have unf : forUpN lo (c + 1) s body μ =
        match body lo s μ with
        | (.ok a, ν) => forUpN (lo + 1) c a body ν
        | (.error e, ν) => (.error e, ν) := rfl
    rw [unf]
    constructor
    · intro h
      cases h with
      | done h => rw [t] at h; cases h
      | next _ hb h =>
        rw [tn] at hb
        rw [hb]
        simp only [hsucc] at h
        exact (ih _ _).1 h
      | throw _ hb =>
        rw [tn] at hb
        rw [hb]
    · intro h
      rcases hb : body lo s μ with ⟨x, ν⟩
      rw [hb] at h
      cases x with
      | ok a =>
        refine .next t (by rw [tn]; exact hb) ?_
        simp only [hsucc]
        exact (ih a ν).2 h
      | error e =>
        simp only at h
        subst h
        exact .throw t (by rw [tn]; exact hb)

/-! ### Where the idioms go wrong -/

/-- **C19** deviation: a countdown with test `i >= 0` never finishes, whatever the start
(this is why the library must not use `>=` with a zero bound). -/
theorem C19_ge_zero_never_ends (body : Nat → σ → M L T σ) (i : BitVec w) (s : σ)
    (μ : Store L T) (s' : σ) (ν : Store L T) :
    ¬ ForLoop (fun i => decide (i ≥ BitVec.ofNat w 0)) (· - 1) body i s μ (.ok s', ν) := by
  intro h
  generalize hr : ((Except.ok s', ν) : Except Err σ × Store L T) = r at h
  induction h with
  | done h => simp [BitVec.le_def] at h
  | next _ _ _ ih => exact ih hr
  | throw _ _ => cases hr

/-- **C19** deviation: hetd2 of a 0-by-0 matrix is rejected by its own size check (so the quick
return for `n <= 0` after it is unreachable), because `n - 1` wraps to the largest index:
for every `tau` shorter than that. -/
theorem C19_hetd2_empty_rejected (sizeTau : BitVec w) (h : sizeTau.toNat < 2 ^ w - 1) :
    hetd2Check sizeTau (BitVec.ofNat w 0) = false := by
  unfold hetd2Check
  apply decide_eq_false
  intro hc
  rw [bv_zero_pred, ge_iff_le, BitVec.le_def, bv_toNat_neg_one] at hc
  omega

/-- **C19** and for `n > 0` the check is the documented `size(tau) >= n-1`. -/
theorem C19_hetd2_check (t n : Nat) (ht : t < 2 ^ w) (hn : n < 2 ^ w) (h0 : 0 < n) :
    hetd2Check (BitVec.ofNat w t) (BitVec.ofNat w n) = true ↔ n - 1 ≤ t := by
  obtain ⟨k, rfl⟩ : ∃ k, n = k + 1 := ⟨n - 1, by omega⟩
  unfold hetd2Check
  rw [decide_eq_true_iff, bv_pred, ge_iff_le, BitVec.le_def, BitVec.toNat_ofNat,
    BitVec.toNat_ofNat, Nat.mod_eq_of_lt (by omega), Nat.mod_eq_of_lt ht]
  omega

/-- **C19** deviation: hessenberg_rq of a 0-by-0 matrix does not take its quick return and starts
its first loop at index `2^w - 2`. -/
theorem C19_hessenberg_rq_empty (hw : 2 ≤ w) :
    hessenbergRqQuick (BitVec.ofNat w 0) = false ∧
    (BitVec.ofNat w 0 - 2).toNat = 2 ^ w - 2 ∧ (BitVec.ofNat w 0 - 2) ≠ (-1 : BitVec w) := by
  have h4 : 4 ≤ 2 ^ w := by
    calc 4 = 2 ^ 2 := rfl
      _ ≤ 2 ^ w := Nat.pow_le_pow_right (by omega) hw
  have e1 : (1 : BitVec w).toNat = 1 := by
    rw [show (1 : BitVec w) = BitVec.ofNat w 1 from rfl, BitVec.toNat_ofNat,
      Nat.mod_eq_of_lt (by omega)]
  have e2 : (2 : BitVec w).toNat = 2 := by
    rw [show (2 : BitVec w) = BitVec.ofNat w 2 from rfl, BitVec.toNat_ofNat,
      Nat.mod_eq_of_lt (by omega)]
  have e3 : (BitVec.ofNat w 0 - 2).toNat = 2 ^ w - 2 := by
    rw [BitVec.toNat_sub, e2, BitVec.toNat_ofNat, Nat.zero_mod, Nat.add_zero,
      Nat.mod_eq_of_lt (by omega)]
  refine ⟨?_, e3, ?_⟩
  · unfold hessenbergRqQuick
    apply decide_eq_false
    intro hc
    rw [bv_zero_pred, BitVec.lt_def, bv_toNat_neg_one, e1] at hc
    omega
  · intro h
    have := congrArg BitVec.toNat h
    rw [e3, bv_toNat_neg_one] at this
    omega

/-- The bounds are met by ordinary sizes. -/
example : (5 : Nat) < 2 ^ 64 ∧ (0 : Nat) < 2 ^ 64 := by decide

end TLA
