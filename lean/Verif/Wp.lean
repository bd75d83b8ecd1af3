import Verif.Spec
import Mathlib.Tactic.Tauto

/-!
# Proof framework: weakest preconditions, loop rules, view predicates
(no model of code in this file)
-/

namespace TLA

variable {L T α β σ : Type}

/-- `wp x μ Q E`: running `x` from `μ` ends normally in `(a, ν)` with `Q a ν`, or throws `e`
leaving the store `ν` with `E e ν`. -/
def wp (x : M L T α) (μ : Store L T) (Q : α → Store L T → Prop)
    (E : Err → Store L T → Prop := fun _ _ => False) : Prop :=
  match x μ with
  | (.ok a, ν) => Q a ν
  | (.error e, ν) => E e ν

theorem wp_iff {x : M L T α} {μ : Store L T} {Q : α → Store L T → Prop} :
    wp x μ Q ↔ ∃ a ν, x μ = (.ok a, ν) ∧ Q a ν := by
  unfold wp
  rcases h : x μ with ⟨r, ν⟩
  cases r <;> simp

theorem wp_unit {x : M L T Unit} {μ : Store L T} {Q : Unit → Store L T → Prop} (h : wp x μ Q) :
    ∃ ν, x μ = (.ok (), ν) ∧ Q () ν := by
  obtain ⟨_, ν, h1, h2⟩ := wp_iff.1 h
  exact ⟨ν, h1, h2⟩

theorem wp_of_eq {x : M L T α} {μ ν : Store L T} {a : α} {Q : α → Store L T → Prop}
    {E : Err → Store L T → Prop} (h : x μ = (.ok a, ν)) (hQ : Q a ν) : wp x μ Q E := by
  unfold wp; rw [h]; exact hQ

@[simp] theorem wp_pure {a : α} {μ : Store L T} {Q E} :
    wp (pure a : M L T α) μ Q E ↔ Q a μ := Iff.rfl

@[simp] theorem wp_fail {e : Err} {μ : Store L T} {Q : α → Store L T → Prop} {E} :
    wp (M.fail e : M L T α) μ Q E ↔ E e μ := Iff.rfl

@[simp] theorem wp_error {k : Nat} {μ : Store L T} {Q : α → Store L T → Prop} {E} :
    wp (error k : M L T α) μ Q E ↔ E (.runtime k) μ := Iff.rfl

@[simp] theorem wp_bind {x : M L T α} {f : α → M L T β} {μ : Store L T} {Q E} :
    wp (x >>= f) μ Q E ↔ wp x μ (fun a ν => wp (f a) ν Q E) E := by
  show wp (M.bind x f) μ Q E ↔ _
  unfold wp M.bind
  rcases x μ with ⟨r, ν⟩
  cases r <;> simp

@[simp] theorem wp_map {x : M L T α} {f : α → β} {μ : Store L T} {Q E} :
    wp (f <$> x) μ Q E ↔ wp x μ (fun a ν => Q (f a) ν) E := by
  show wp (M.bind x (fun a => M.pure (f a))) μ Q E ↔ _
  unfold wp M.bind M.pure
  rcases x μ with ⟨r, ν⟩
  cases r <;> simp

@[simp] theorem wp_check {c : Bool} {μ : Store L T} {Q E} :
    wp (check c : M L T Unit) μ Q E ↔ (if c = true then Q () μ else E .check μ) := by
  unfold check; split <;> simp_all

theorem wp_ite {c : Prop} [Decidable c] {x y : M L T α} {μ : Store L T} {Q E} :
    wp (if c then x else y) μ Q E ↔ (if c then wp x μ Q E else wp y μ Q E) := by
  split <;> rfl

/-- An optional two-step prefix whose continuation the `do` notation duplicated. -/
theorem wp_optStep {γ : Type} {c : Prop} [Decidable c] {x : M L T α} {y : α → M L T γ} {r : M L T β}
    {μ : Store L T} {Q E} :
    wp (if c then (x >>= fun a => (y a >>= fun _ => r)) else r) μ Q E ↔
      wp (if c then (x >>= fun a => (y a >>= fun _ => pure ())) else pure ()) μ
        (fun _ ν => wp r ν Q E) E := by
  split <;> simp

/-- An optional one-step prefix whose continuation the `do` notation duplicated. -/
theorem wp_optStep1 {c : Prop} [Decidable c] {x : M L T α} {r : M L T β} {μ : Store L T} {Q E} :
    wp (if c then (x >>= fun _ => r) else r) μ Q E ↔
      wp (if c then (x >>= fun _ => pure ()) else pure ()) μ (fun _ ν => wp r ν Q E) E := by
  split <;> simp

theorem wp_optStep1' {c : Prop} [Decidable c] {x : M L T Unit} {r : M L T β} {μ : Store L T} {Q E} :
    wp (if c then (x >>= fun _ => r) else r) μ Q E ↔
      wp (if c then x else pure ()) μ (fun _ ν => wp r ν Q E) E := by
  split <;> simp

/-- A branching prefix whose continuation the `do` notation duplicated. -/
theorem wp_iteBind {c : Prop} [Decidable c] {x y : M L T Unit} {r : M L T β} {μ : Store L T} {Q E} :
    wp (if c then (x >>= fun _ => r) else (y >>= fun _ => r)) μ Q E ↔
      wp (if c then x else y) μ (fun _ ν => wp r ν Q E) E := by
  split <;> simp

/-- An optional value computation whose continuation the `do` notation duplicated. -/
theorem wp_optVal {γ : Type} {c : Prop} [Decidable c] {x : M L T α} {y : α → γ} {v : γ}
    {r : γ → M L T β} {μ : Store L T} {Q E} :
    wp (if c then (x >>= fun a => (pure (y a) >>= r)) else (pure v >>= r)) μ Q E ↔
      wp (if c then (x >>= fun a => pure (y a)) else pure v) μ
        (fun t ν => wp (r t) ν Q E) E := by
  split <;> simp

theorem wp_mono {x : M L T α} {μ : Store L T} {Q Q' : α → Store L T → Prop} {E E'}
    (h : wp x μ Q E) (hQ : ∀ a ν, Q a ν → Q' a ν) (hE : ∀ e ν, E e ν → E' e ν) :
    wp x μ Q' E' := by
  unfold wp at *
  rcases hx : x μ with ⟨r, ν⟩
  rw [hx] at h
  cases r <;> simp_all

/-- Postcondition weakening, the usual form. -/
theorem wp_conseq {x : M L T α} {μ : Store L T} {Q Q' : α → Store L T → Prop} {E}
    (h : wp x μ Q (fun _ _ => False)) (hQ : ∀ a ν, Q a ν → Q' a ν) : wp x μ Q' E :=
  wp_mono h hQ (fun _ _ h => h.elim)

@[simp] theorem wp_get {A : MatV L} {i j : Nat} {μ : Store L T} {Q} :
    wp (A.get i j) μ Q ↔ (i < A.m ∧ j < A.n) ∧ Q (μ (A.cell i j)) μ := by
  unfold wp MatV.get; by_cases h : i < A.m ∧ j < A.n <;> simp [h]

theorem wp_getE {A : MatV L} {i j : Nat} {μ : Store L T} {Q E} (h : i < A.m ∧ j < A.n)
    (hQ : Q (μ (A.cell i j)) μ) : wp (A.get i j) μ Q E := by
  unfold wp MatV.get; simp [h, hQ]

@[simp] theorem wp_set [DecidableEq L] {A : MatV L} {i j : Nat} {v : T} {μ : Store L T} {Q} :
    wp (A.set i j v) μ Q ↔ (i < A.m ∧ j < A.n) ∧ Q () (upd μ (A.cell i j) v) := by
  unfold wp MatV.set; by_cases h : i < A.m ∧ j < A.n <;> simp [h]

@[simp] theorem wp_vget {x : VecV L} {i : Nat} {μ : Store L T} {Q} :
    wp (x.get i) μ Q ↔ i < x.n ∧ Q (μ (x.cell i)) μ := by
  unfold wp VecV.get; by_cases h : i < x.n <;> simp [h]

@[simp] theorem wp_vset [DecidableEq L] {x : VecV L} {i : Nat} {v : T} {μ : Store L T} {Q} :
    wp (x.set i v) μ Q ↔ i < x.n ∧ Q () (upd μ (x.cell i) v) := by
  unfold wp VecV.set; by_cases h : i < x.n <;> simp [h]

@[simp] theorem wp_modify [DecidableEq L] {A : MatV L} {i j : Nat} {f : T → T} {μ : Store L T}
    {Q} : wp (A.modify i j f) μ Q ↔
      (i < A.m ∧ j < A.n) ∧ Q () (upd μ (A.cell i j) (f (μ (A.cell i j)))) := by
  unfold MatV.modify; simp only [wp_bind, wp_get, wp_set]; tauto

@[simp] theorem wp_vmodify [DecidableEq L] {x : VecV L} {i : Nat} {f : T → T} {μ : Store L T}
    {Q} : wp (x.modify i f) μ Q ↔
      i < x.n ∧ Q () (upd μ (x.cell i) (f (μ (x.cell i)))) := by
  unfold VecV.modify; simp only [wp_bind, wp_vget, wp_vset]; tauto

theorem wp_slice {A : MatV L} {r0 r1 c0 c1 : Nat} {μ : Store L T} {Q E}
    (hr : r0 ≤ r1) (hr1 : r1 ≤ A.m) (hc : c0 ≤ c1) (hc1 : c1 ≤ A.n)
    (h : Q (A.sub r0 r1 c0 c1) μ) : wp (A.slice r0 r1 c0 c1) μ Q E := by
  unfold MatV.slice
  rw [if_pos ⟨⟨by omega, hr1, hr⟩, ⟨by omega, hc1, hc⟩⟩]
  exact h

theorem wp_sliceChk {A : MatV L} {r0 r1 c0 c1 : Nat} {μ : Store L T} {Q E}
    (hr : r0 ≤ r1) (hr1 : r1 ≤ A.m) (hc : c0 ≤ c1) (hc1 : c1 ≤ A.n)
    (h : Q () μ) : wp (A.sliceChk r0 r1 c0 c1) μ Q E := by
  unfold MatV.sliceChk
  rw [if_pos ⟨⟨by omega, hr1, hr⟩, ⟨by omega, hc1, hc⟩⟩]
  exact h

theorem wp_sliceRow {A : MatV L} {i c0 c1 : Nat} {μ : Store L T} {Q E}
    (hr : i < A.m) (hc : c0 ≤ c1) (hc1 : c1 ≤ A.n)
    (h : Q (A.rowv i c0 c1) μ) : wp (A.sliceRow i c0 c1) μ Q E := by
  unfold MatV.sliceRow
  rw [if_pos ⟨⟨by omega, hc1, hc⟩, hr⟩]
  exact h

theorem wp_sliceCol {A : MatV L} {r0 r1 j : Nat} {μ : Store L T} {Q E}
    (hr : r0 ≤ r1) (hr1 : r1 ≤ A.m) (hc : j < A.n)
    (h : Q (A.colv r0 r1 j) μ) : wp (A.sliceCol r0 r1 j) μ Q E := by
  unfold MatV.sliceCol
  rw [if_pos ⟨⟨by omega, hr1, hr⟩, hc⟩]
  exact h

theorem wp_vslice {x : VecV L} {a b : Nat} {μ : Store L T} {Q E}
    (hab : a ≤ b) (hb : b ≤ x.n)
    (h : Q (x.sub a b) μ) : wp (x.slice a b) μ Q E := by
  unfold VecV.slice
  rw [if_pos ⟨by omega, hb, hab⟩]
  exact h

/-! ### Loop rules -/

theorem wp_forUpN {body : Nat → σ → M L T σ} {E} (I : Nat → σ → Store L T → Prop)
    (cnt lo : Nat) (s : σ) (μ : Store L T)
    (h0 : I lo s μ)
    (hs : ∀ i s μ, lo ≤ i → i < lo + cnt → I i s μ → wp (body i s) μ (I (i + 1)) E) :
    wp (forUpN lo cnt s body) μ (I (lo + cnt)) E := by
  induction cnt generalizing lo s μ with
  | zero => simpa [forUpN] using h0
  | succ c ih =>
    simp only [forUpN, wp_bind]
    refine wp_mono (hs lo s μ (Nat.le_refl _) (by omega) h0) (fun s' ν h => ?_) (fun _ _ h => h)
    have := ih (lo + 1) s' ν h (fun i s μ h1 h2 h3 => hs i s μ (by omega) (by omega) h3)
    rwa [show lo + (c + 1) = lo + 1 + c by omega]

/-- Invariant rule for ascending loops. -/
theorem wp_forUp {body : Nat → σ → M L T σ} {E} {lo hi : Nat} {s : σ} {μ : Store L T}
    {Q : σ → Store L T → Prop}
    (I : Nat → σ → Store L T → Prop) (hle : lo ≤ hi)
    (h0 : I lo s μ)
    (hs : ∀ i s μ, lo ≤ i → i < hi → I i s μ → wp (body i s) μ (I (i + 1)) E)
    (hQ : ∀ s μ, I hi s μ → Q s μ) :
    wp (forUp lo hi s body) μ Q E := by
  unfold forUp
  refine wp_mono (wp_forUpN I (hi - lo) lo s μ h0
    (fun i s μ h1 h2 h3 => hs i s μ h1 (by omega) h3)) (fun s ν h => ?_) (fun _ _ h => h)
  rw [show lo + (hi - lo) = hi by omega] at h
  exact hQ s ν h

theorem wp_forUp_ {body : Nat → M L T Unit} {E} {lo hi : Nat} {μ : Store L T}
    {Q : Unit → Store L T → Prop}
    (I : Nat → Store L T → Prop) (hle : lo ≤ hi)
    (h0 : I lo μ)
    (hs : ∀ i μ, lo ≤ i → i < hi → I i μ → wp (body i) μ (fun _ => I (i + 1)) E)
    (hQ : ∀ μ, I hi μ → Q () μ) :
    wp (forUp_ lo hi body) μ Q E :=
  wp_forUp (fun i _ μ => I i μ) hle h0 (fun i _ μ h1 h2 h3 => hs i μ h1 h2 h3)
    (fun _ μ h => hQ μ h)

theorem wp_forDownN {body : Nat → σ → M L T σ} {E} (I : Nat → σ → Store L T → Prop)
    (cnt lo : Nat) (s : σ) (μ : Store L T)
    (h0 : I (lo + cnt) s μ)
    (hs : ∀ i s μ, lo ≤ i → i < lo + cnt → I (i + 1) s μ → wp (body i s) μ (I i) E) :
    wp (forDownN lo cnt s body) μ (I lo) E := by
  induction cnt generalizing s μ with
  | zero => simpa [forDownN] using h0
  | succ c ih =>
    simp only [forDownN, wp_bind]
    refine wp_mono (hs (lo + c) s μ (by omega) (by omega) h0) (fun s' ν h => ?_) (fun _ _ h => h)
    exact ih s' ν h (fun i s μ h1 h2 h3 => hs i s μ (by omega) (by omega) h3)

/-- Invariant rule for descending loops: `I i` holds when indices `≥ i` have been visited. -/
theorem wp_forDown {body : Nat → σ → M L T σ} {E} {lo hi : Nat} {s : σ} {μ : Store L T}
    {Q : σ → Store L T → Prop}
    (I : Nat → σ → Store L T → Prop) (hle : lo ≤ hi)
    (h0 : I hi s μ)
    (hs : ∀ i s μ, lo ≤ i → i < hi → I (i + 1) s μ → wp (body i s) μ (I i) E)
    (hQ : ∀ s μ, I lo s μ → Q s μ) :
    wp (forDown lo hi s body) μ Q E := by
  unfold forDown
  refine wp_mono (wp_forDownN I (hi - lo) lo s μ ?_
    (fun i s μ h1 h2 h3 => hs i s μ h1 (by omega) h3)) (fun s ν h => hQ s ν h) (fun _ _ h => h)
  rw [show lo + (hi - lo) = hi by omega]; exact h0

theorem wp_forDown_ {body : Nat → M L T Unit} {E} {lo hi : Nat} {μ : Store L T}
    {Q : Unit → Store L T → Prop}
    (I : Nat → Store L T → Prop) (hle : lo ≤ hi)
    (h0 : I hi μ)
    (hs : ∀ i μ, lo ≤ i → i < hi → I (i + 1) μ → wp (body i) μ (fun _ => I i) E)
    (hQ : ∀ μ, I lo μ → Q () μ) :
    wp (forDown_ lo hi body) μ Q E :=
  wp_forDown (fun i _ μ => I i μ) hle h0 (fun i _ μ h1 h2 h3 => hs i μ h1 h2 h3)
    (fun _ μ h => hQ μ h)

theorem wp_forRetN {ρ : Type} {body : Nat → σ → M L T (σ ⊕ ρ)} {E}
    {Q : σ ⊕ ρ → Store L T → Prop}
    (I : Nat → σ → Store L T → Prop)
    (cnt lo : Nat) (s : σ) (μ : Store L T)
    (h0 : I lo s μ)
    (hs : ∀ i s μ, lo ≤ i → i < lo + cnt → I i s μ →
      wp (body i s) μ (fun r ν => match r with | .inl s' => I (i + 1) s' ν | .inr r => Q (.inr r) ν) E)
    (hQ : ∀ s μ, I (lo + cnt) s μ → Q (.inl s) μ) :
    wp (forRetN lo cnt s body) μ Q E := by
  induction cnt generalizing lo s μ with
  | zero => simpa [forRetN] using hQ s μ h0
  | succ c ih =>
    simp only [forRetN, wp_bind]
    refine wp_mono (hs lo s μ (Nat.le_refl _) (by omega) h0) (fun r ν h => ?_) (fun _ _ h => h)
    cases r with
    | inl s' =>
      exact ih (lo + 1) s' ν h (fun i s μ h1 h2 h3 => hs i s μ (by omega) (by omega) h3)
        (fun s μ h => hQ s μ (by rwa [show lo + (c + 1) = lo + 1 + c by omega]))
    | inr r => simpa using h

/-- Invariant rule for ascending loops with early return. -/
theorem wp_forRet {ρ : Type} {body : Nat → σ → M L T (σ ⊕ ρ)} {E} {lo hi : Nat} {s : σ}
    {μ : Store L T} {Q : σ ⊕ ρ → Store L T → Prop}
    (I : Nat → σ → Store L T → Prop) (hle : lo ≤ hi)
    (h0 : I lo s μ)
    (hs : ∀ i s μ, lo ≤ i → i < hi → I i s μ →
      wp (body i s) μ (fun r ν => match r with | .inl s' => I (i + 1) s' ν | .inr r => Q (.inr r) ν) E)
    (hQ : ∀ s μ, I hi s μ → Q (.inl s) μ) :
    wp (forRet lo hi s body) μ Q E := by
  unfold forRet
  exact wp_forRetN I (hi - lo) lo s μ h0
    (fun i s μ h1 h2 h3 => hs i s μ h1 (by omega) h3)
    (fun s μ h => hQ s μ (by rwa [show lo + (hi - lo) = hi by omega] at h))

/-! ### Pure folds -/

theorem foldUpN_succ (lo c : Nat) (s : σ) (f : Nat → σ → σ) :
    foldUpN lo (c + 1) s f = f (lo + c) (foldUpN lo c s f) := by
  induction c generalizing lo s with
  | zero => simp [foldUpN]
  | succ c ih =>
    rw [foldUpN, ih (lo + 1) (f lo s), foldUpN, show lo + 1 + c = lo + (c + 1) by omega]

@[simp] theorem foldUp_self (lo : Nat) (s : σ) (f : Nat → σ → σ) : foldUp lo lo s f = s := by
  simp [foldUp, foldUpN]

theorem foldUp_succ {lo hi : Nat} (h : lo ≤ hi) (s : σ) (f : Nat → σ → σ) :
    foldUp lo (hi + 1) s f = f hi (foldUp lo hi s f) := by
  unfold foldUp
  rw [show hi + 1 - lo = (hi - lo) + 1 by omega, foldUpN_succ, show lo + (hi - lo) = hi by omega]

theorem foldDownN_bot (lo c : Nat) (s : σ) (f : Nat → σ → σ) :
    foldDownN lo (c + 1) s f = f lo (foldDownN (lo + 1) c s f) := by
  induction c generalizing s with
  | zero => simp [foldDownN]
  | succ c ih =>
    rw [foldDownN, ih, foldDownN, show lo + 1 + c = lo + (c + 1) by omega]

@[simp] theorem foldDown_self (lo : Nat) (s : σ) (f : Nat → σ → σ) : foldDown lo lo s f = s := by
  simp [foldDown, foldDownN]

theorem foldDown_bot {lo hi : Nat} (h : lo < hi) (s : σ) (f : Nat → σ → σ) :
    foldDown lo hi s f = f lo (foldDown (lo + 1) hi s f) := by
  unfold foldDown
  rw [show hi - lo = (hi - (lo + 1)) + 1 by omega, foldDownN_bot]

theorem foldUpN_congr {lo c : Nat} {s : σ} {f g : Nat → σ → σ}
    (h : ∀ i s, lo ≤ i → i < lo + c → f i s = g i s) : foldUpN lo c s f = foldUpN lo c s g := by
  induction c with
  | zero => rfl
  | succ c ih =>
    rw [foldUpN_succ, foldUpN_succ, ih (fun i s h1 h2 => h i s h1 (by omega)),
      h _ _ (by omega) (by omega)]

theorem foldUp_congr {lo hi : Nat} {s : σ} {f g : Nat → σ → σ}
    (h : ∀ i s, lo ≤ i → i < hi → f i s = g i s) : foldUp lo hi s f = foldUp lo hi s g :=
  foldUpN_congr (fun i s h1 h2 => h i s h1 (by omega))

/-! ### Views: separation predicates and described states -/

/-- The store `μ` is `μ0` with the in-range entries of `C` replaced by `G`. -/
structure MState (C : MatV L) (μ0 : Store L T) (G : Nat → Nat → T) (μ : Store L T) : Prop where
  val : ∀ i j, i < C.m → j < C.n → μ (C.cell i j) = G i j
  frame : ∀ l, ¬ C.Owns l → μ l = μ0 l

theorem MState.init (C : MatV L) (μ : Store L T) (G : Nat → Nat → T)
    (h : ∀ i j, i < C.m → j < C.n → μ (C.cell i j) = G i j) : MState C μ G μ :=
  ⟨h, fun _ _ => rfl⟩

theorem MState.congr {C : MatV L} {μ0 μ : Store L T} {G G' : Nat → Nat → T}
    (h : MState C μ0 G μ) (hG : ∀ i j, i < C.m → j < C.n → G' i j = G i j) :
    MState C μ0 G' μ :=
  ⟨fun i j hi hj => (h.val i j hi hj).trans (hG i j hi hj).symm, h.frame⟩

theorem MState.upd [DecidableEq L] {C : MatV L} {μ0 μ : Store L T} {G G' : Nat → Nat → T}
    (h : MState C μ0 G μ) (hC : C.Inj) {i j : Nat} {v : T} (hi : i < C.m) (hj : j < C.n)
    (hG : ∀ i' j', i' < C.m → j' < C.n → G' i' j' = if i' = i ∧ j' = j then v else G i' j') :
    MState C μ0 G' (upd μ (C.cell i j) v) := by
  refine ⟨fun i' j' hi' hj' => ?_, fun l hl => ?_⟩
  · rw [hG i' j' hi' hj']
    unfold TLA.upd
    by_cases hc : C.cell i' j' = C.cell i j
    · obtain ⟨rfl, rfl⟩ := hC _ _ _ _ hi' hj' hi hj hc
      simp
    · rw [if_neg hc, if_neg, h.val i' j' hi' hj']
      rintro ⟨rfl, rfl⟩; exact hc rfl
  · unfold TLA.upd
    rw [if_neg (fun e => hl ⟨i, j, hi, hj, e.symm⟩), h.frame l hl]

/-- The store `μ` is `μ0` with the in-range entries of `x` replaced by `g`. -/
structure VState (x : VecV L) (μ0 : Store L T) (g : Nat → T) (μ : Store L T) : Prop where
  val : ∀ i, i < x.n → μ (x.cell i) = g i
  frame : ∀ l, ¬ x.Owns l → μ l = μ0 l

theorem VState.init (x : VecV L) (μ : Store L T) (g : Nat → T)
    (h : ∀ i, i < x.n → μ (x.cell i) = g i) : VState x μ g μ :=
  ⟨h, fun _ _ => rfl⟩

theorem VState.congr {x : VecV L} {μ0 μ : Store L T} {g g' : Nat → T}
    (h : VState x μ0 g μ) (hG : ∀ i, i < x.n → g' i = g i) : VState x μ0 g' μ :=
  ⟨fun i hi => (h.val i hi).trans (hG i hi).symm, h.frame⟩

theorem VState.upd [DecidableEq L] {x : VecV L} {μ0 μ : Store L T} {g g' : Nat → T}
    (h : VState x μ0 g μ) (hx : x.Inj) {i : Nat} {v : T} (hi : i < x.n)
    (hG : ∀ i', i' < x.n → g' i' = if i' = i then v else g i') :
    VState x μ0 g' (upd μ (x.cell i) v) := by
  refine ⟨fun i' hi' => ?_, fun l hl => ?_⟩
  · rw [hG i' hi']
    unfold TLA.upd
    by_cases hc : x.cell i' = x.cell i
    · obtain rfl := hx _ _ hi' hi hc
      simp
    · rw [if_neg hc, if_neg, h.val i' hi']
      rintro rfl; exact hc rfl
  · unfold TLA.upd
    rw [if_neg (fun e => hl ⟨i, hi, e.symm⟩), h.frame l hl]

theorem MState.read {A C : MatV L} {μ0 μ : Store L T} {G : Nat → Nat → T}
    (h : MState C μ0 G μ) (hd : A.Disj C) {i j : Nat} (hi : i < A.m) (hj : j < A.n) :
    μ (A.cell i j) = μ0 (A.cell i j) := h.frame _ (hd i j hi hj)

theorem MState.readV {x : VecV L} {C : MatV L} {μ0 μ : Store L T} {G : Nat → Nat → T}
    (h : MState C μ0 G μ) (hd : x.DisjM C) {i : Nat} (hi : i < x.n) :
    μ (x.cell i) = μ0 (x.cell i) := h.frame _ (hd i hi)

theorem VState.read {A : MatV L} {y : VecV L} {μ0 μ : Store L T} {g : Nat → T}
    (h : VState y μ0 g μ) (hd : A.DisjV y) {i j : Nat} (hi : i < A.m) (hj : j < A.n) :
    μ (A.cell i j) = μ0 (A.cell i j) := h.frame _ (hd i j hi hj)

theorem VState.readV {x y : VecV L} {μ0 μ : Store L T} {g : Nat → T}
    (h : VState y μ0 g μ) (hd : x.Disj y) {i : Nat} (hi : i < x.n) :
    μ (x.cell i) = μ0 (x.cell i) := h.frame _ (hd i hi)

end TLA
