import Verif.Proofs.Rot3Wp

/-! rot_sequence3: the two loop nests, the blocks and the routine. -/

set_option linter.unusedTactic false
set_option linter.unusedSectionVars false
set_option linter.unusedVariables false
set_option linter.unreachableTactic false
set_option linter.unusedSimpArgs false

namespace TLA
open Matrix Finset
variable {L T : Type} [DecidableEq L] [Field T] [StarRing T] [DecidableEq T]

/-- What is known of line `j` with content `y` after `q t` rotations of number `t`. -/
structure R3Fam (k l : Nat) (O : Nat → Nat → (Nat → T) → Nat → T) (P : Nat → (Nat → Nat) → (Nat → T) → Prop) : Prop where
  congr : ∀ j q q' y, (∀ t, t < k → q t = q' t) → P j q y → P j q' y
  step : ∀ j q y i t, i < l → R3En k q i t → P j q y → P j (Function.update q t (i + 1)) (O i t y)

theorem R3Fam.stepT {k l : Nat} {O : Nat → Nat → (Nat → T) → Nat → T} {P} (F : R3Fam k l O P) {j q y i t} (hi : i < l)
    (en : R3EnT k q i t) (h : P j q y) : P j (r3T q i t) (O i (t + 1) (O i t y)) := by
  obtain ⟨h1, h2, h3, h4, h5⟩ := en
  refine F.step j _ _ i (t + 1) hi ⟨by omega, ?_, ?_, ?_⟩ (F.step j q y i t hi ⟨by omega, h2, h3, .inr h4⟩ h)
  · rw [Function.update_of_ne (by omega)]; exact h4
  · right; simp
  · rcases h5 with h5 | h5
    · exact .inl (by omega)
    · right; rw [Function.update_of_ne (by omega)]; exact h5

theorem R3Fam.stepK {k l : Nat} {O : Nat → Nat → (Nat → T) → Nat → T} {P} (F : R3Fam k l O P) {j q y i t} (hi : i + 1 < l)
    (en : R3EnK k q i t) (h : P j q y) :
    P j (r3K q i t) (O (i + 1) t (O (i + 1) (t - 1) (O i (t + 1) (O i t y)))) := by
  obtain ⟨h0, h1, h2, h3, h4, h5, h6⟩ := en
  have a := F.stepT (by omega) ⟨h1, h2, .inr h3, h4, h6⟩ h
  have b := F.step j _ _ (i + 1) (t - 1) hi ⟨by omega, ?_, ?_, ?_⟩ a
  · refine F.step j _ _ (i + 1) t hi ⟨by omega, ?_, ?_, ?_⟩ b
    · rw [Function.update_of_ne (by omega), Function.update_of_ne (by omega)]; simp
    · right; simp
    · right; rw [Function.update_of_ne (by omega)]; simp
  · rw [r3T, Function.update_of_ne (by omega), Function.update_of_ne (by omega)]; exact h3
  · rcases h5 with h5 | h5
    · exact .inl (by omega)
    · right; rw [r3T, Function.update_of_ne (by omega), Function.update_of_ne (by omega)]
      rw [show t - 1 - 1 = t - 2 by omega]; exact h5
  · right
    rw [show t - 1 + 1 = t by omega, r3T, Function.update_of_ne (by omega)]; simp

/-- State of all lines. -/
def R3S (X : MatV L) (μ0 : Store L T) (P : Nat → (Nat → Nat) → (Nat → T) → Prop) (Q : Nat → Nat → Nat) (ν : Store L T) : Prop :=
  ∃ G, MState X μ0 G ν ∧ ∀ j, j < X.n → P j (Q j) (fun r => G r j)

section lay
variable {X C S : MatV L} {μ0 : Store L T} {f : T → T} {dir : Direction} {k l : Nat}
  {P : Nat → (Nat → Nat) → (Nat → T) → Prop}

theorem R3S.at {Q : Nat → Nat → Nat} {ν' : Store L T} {j : Nat} {q' : Nat → Nat} {g : (Nat → T) → Nat → T}
    {G : Nat → Nat → T} (hj : j < X.n) (hG : ∀ j, j < X.n → P j (Q j) (fun r => G r j)) (h' : MState X μ0 (colAt j g G) ν')
    (hp : P j q' (g fun r => G r j)) : R3S X μ0 P (Function.update Q j q') ν' := by
  refine ⟨_, h', fun j' hj' => ?_⟩
  by_cases e : j' = j
  · subst e
    rw [Function.update_self]
    convert hp using 1
    funext r
    simp [colAt]
  · rw [Function.update_of_ne e]
    convert hG j' hj' using 1
    funext r
    simp [colAt, e]

/-- All lines from `lo` to `hi - 1`, one after the other. -/
theorem wp_r3Lines {body : Nat → M L T Unit} {lo hi : Nat} (hlh : lo ≤ hi) {q0 q1 : Nat → Nat} {Q : Nat → Nat → Nat}
    (hQ : ∀ j, lo ≤ j → j < hi → Q j = q0)
    (hb : ∀ j Q' ν, lo ≤ j → j < hi → Q' j = q0 → R3S X μ0 P Q' ν → wp (body j) ν (fun _ ν' => R3S X μ0 P (Function.update Q' j q1) ν'))
    {μ : Store L T} (h : R3S X μ0 P Q μ) :
    wp (forUp_ lo hi body) μ (fun _ ν => R3S X μ0 P (fun j => if lo ≤ j ∧ j < hi then q1 else Q j) ν) := by
  refine wp_forUp_ (fun i ν => R3S X μ0 P (fun j => if lo ≤ j ∧ j < i then q1 else Q j) ν) hlh ?_ ?_ (fun _ h => h)
  · convert h using 2
    rw [if_neg (by omega)]
  · intro i ν h1 h2 hν
    refine wp_conseq (hb i _ ν h1 h2 (by rw [if_neg (by omega)]; exact hQ i h1 h2) hν) fun _ ν' hν' => ?_
    convert hν' using 2
    rename_i j
    by_cases e : j = i
    · subst e; rw [if_pos (by omega), Function.update_self]
    · rw [Function.update_of_ne e]
      by_cases h3 : lo ≤ j ∧ j < i
      · rw [if_pos h3, if_pos (by omega)]
      · rw [if_neg h3, if_neg (by omega)]

variable (F : R3Fam k l (r3O dir X.m (entry μ0 C) (fun a b => f (entry μ0 S a b))) P)
  (hX : X.Inj) (hC : C.Disj X) (hS : S.Disj X) (hk : k + 1 = X.m) (hCm : C.m = k) (hSm : S.m = k) (hCn : C.n = l) (hSn : S.n = l)
include F hX hC hS hk hCm hSm hCn hSn

theorem r3_one {i t j : Nat} {Q : Nat → Nat → Nat} {ν : Store L T} (hi : i < l) (hj : j < X.n) (en : R3En k (Q j) i t)
    (h : R3S X μ0 P Q ν) :
    wp (r3One f dir X C S i t j) ν (fun _ ν' => R3S X μ0 P (Function.update Q j (Function.update (Q j) t (i + 1))) ν') := by
  obtain ⟨G, hG, hP⟩ := h
  refine wp_conseq (wp_r3One f hX hC hS hk hCm hSm hCn hSn hG en.hlt hi hj) fun _ ν' hν' => ?_
  exact R3S.at hj hP hν' (F.step j _ _ i t hi en (hP j hj))

theorem r3_kern {i t j : Nat} {Q : Nat → Nat → Nat} {ν : Store L T} (hi : i + 1 < l) (hj : j < X.n) (en : R3EnK k (Q j) i t)
    (h : R3S X μ0 P Q ν) :
    wp (r3Kern f dir X C S i t j) ν (fun _ ν' => R3S X μ0 P (Function.update Q j (r3K (Q j) i t)) ν') := by
  obtain ⟨G, hG, hP⟩ := h
  refine wp_conseq (wp_r3Kern f hX hC hS hk hCm hSm hCn hSn hG en.t0 en.t1 hi hj) fun _ ν' hν' => ?_
  exact R3S.at hj hP hν' (F.stepK hi en (hP j hj))

theorem r3_tail {i t j : Nat} {Q : Nat → Nat → Nat} {ν : Store L T} (hi : i < l) (hj : j < X.n) (en : R3EnT k (Q j) i t)
    (h : R3S X μ0 P Q ν) :
    wp (r3Tail f dir X C S i t j) ν (fun _ ν' => R3S X μ0 P (Function.update Q j (r3T (Q j) i t)) ν') := by
  obtain ⟨G, hG, hP⟩ := h
  refine wp_conseq (wp_r3Tail f hX hC hS hk hCm hSm hCn hSn hG en.t1 hi hj) fun _ ν' hν' => ?_
  exact R3S.at hj hP hν' (F.stepT hi en (hP j hj))

omit hX hC hS hk hCm hSm hCn hSn in
theorem R3S.congrQ {Q Q' : Nat → Nat → Nat} {ν : Store L T} (e : ∀ j, j < X.n → ∀ t, t < k → Q j t = Q' j t)
    (h : R3S X μ0 P Q ν) : R3S X μ0 P Q' ν := by
  obtain ⟨G, hG, hP⟩ := h
  exact ⟨G, hG, fun j hj => F.congr j _ _ _ (e j hj) (hP j hj)⟩

/-- Invariant of one line. -/
theorem r3_congr1 {j : Nat} {Q : Nat → Nat → Nat} (q q' : Nat → Nat) (ν : Store L T) (e : ∀ t, t < k → q t = q' t)
    (h : R3S X μ0 P (Function.update Q j q) ν) : R3S X μ0 P (Function.update Q j q') ν :=
  R3S.congrQ F (fun j' _ t ht => by
    by_cases e1 : j' = j
    · subst e1; simp [e t ht]
    · simp [Function.update_of_ne e1]) h

/-- Invariant of a range of lines. -/
theorem r3_congr2 {lo hi : Nat} {Q : Nat → Nat → Nat} (q q' : Nat → Nat) (ν : Store L T) (e : ∀ t, t < k → q t = q' t)
    (h : R3S X μ0 P (fun j => if lo ≤ j ∧ j < hi then q else Q j) ν) : R3S X μ0 P (fun j => if lo ≤ j ∧ j < hi then q' else Q j) ν :=
  R3S.congrQ F (fun j' _ t ht => by
    split
    · exact e t ht
    · rfl) h

variable {lo hi : Nat} (hlh : lo ≤ hi) (hhi : hi ≤ X.n) {Q : Nat → Nat → Nat}

theorem update_self_self {Q : Nat → Nat → Nat} {j : Nat} {q q' : Nat → Nat} :
    Function.update (Function.update Q j q) j q' = Function.update Q j q' := by simp

omit F hX hC hS hk hCm hSm hCn hSn in
theorem r3_range {body : Nat → M L T Unit} {Q : Nat → Nat → Nat} {q0 q1 : Nat → Nat} {ν : Store L T} (hlh : lo ≤ hi)
    (hb : ∀ j Q' ν, lo ≤ j → j < hi → Q' j = q0 → R3S X μ0 P Q' ν → wp (body j) ν (fun _ ν' => R3S X μ0 P (Function.update Q' j q1) ν'))
    (h : R3S X μ0 P (fun j => if lo ≤ j ∧ j < hi then q0 else Q j) ν) :
    wp (forUp_ lo hi body) ν (fun _ ν' => R3S X μ0 P (fun j => if lo ≤ j ∧ j < hi then q1 else Q j) ν') := by
  refine wp_conseq (wp_r3Lines hlh (fun j h1 h2 => by rw [if_pos ⟨h1, h2⟩]) hb h) fun _ ν' hν' => ?_
  convert hν' using 2
  split <;> rfl

include hlh hhi

theorem r3_start (lines : Bool) (hl : l ≤ k) (hQ : ∀ j, lo ≤ j → j < hi → Q j = fun _ => 0) {ν : Store L T} (h : R3S X μ0 P Q ν) :
    wp (if lines then forUp_ lo hi fun i1 => r3Start l fun i t => r3One f dir X C S i t i1
      else r3Start l fun i t => forUp_ lo hi fun i1 => r3One f dir X C S i t i1) ν
      (fun _ ν' => R3S X μ0 P (fun j => if lo ≤ j ∧ j < hi then (fun t => l - 1 - t) else Q j) ν') := by
  cases lines
  · simp only [Bool.false_eq_true, if_false]
    refine wp_r3Start (Inv := fun q ν => R3S X μ0 P (fun j => if lo ≤ j ∧ j < hi then q else Q j) ν) hl
      (r3_congr2 F hX hC hS hk hCm hSm hCn hSn) ?_ ?_
    · intro i t q ν hi en h
      exact r3_range hlh (fun j Q' ν h1 h2 e h => by
        have := r3_one F hX hC hS hk hCm hSm hCn hSn (j := j) (i := i) (t := t) (Q := Q') hi (by omega) (by rw [e]; exact en) h
        rwa [e] at this) h
    · convert h using 2
      split
      · next hh => exact (hQ _ hh.1 hh.2).symm
      · rfl
  · simp only [if_true]
    refine wp_r3Lines hlh hQ (fun j Q' ν h1 h2 e h => ?_) h
    refine wp_r3Start (Inv := fun q ν => R3S X μ0 P (Function.update Q' j q) ν) hl (r3_congr1 F hX hC hS hk hCm hSm hCn hSn) ?_ ?_
    · intro i t q ν hi en h
      have := r3_one F hX hC hS hk hCm hSm hCn hSn (j := j) hi (by omega) (Q := Function.update Q' j q) (by simpa using en) h
      simpa using this
    · rw [← e]; simpa using h

theorem r3_pipe (lines : Bool) (hl2 : 2 ≤ l) (hl : l ≤ k) (hQ : ∀ j, lo ≤ j → j < hi → Q j = fun t => l - 1 - t) {ν : Store L T} (h : R3S X μ0 P Q ν) :
    wp (if lines then forUp_ lo hi fun i1 => r3Pipe X.m l (fun i t => r3Kern f dir X C S i t i1) (fun i t => r3Tail f dir X C S i t i1)
      else r3Pipe X.m l (fun i t => forUp_ lo hi fun i1 => r3Kern f dir X C S i t i1) (fun i t => forUp_ lo hi fun i1 => r3Tail f dir X C S i t i1)) ν
      (fun _ ν' => R3S X μ0 P (fun j => if lo ≤ j ∧ j < hi then (fun t => min l (k - 1 + (X.m - l + 1) % 2 - t)) else Q j) ν') := by
  cases lines
  · simp only [Bool.false_eq_true, if_false]
    refine wp_r3Pipe (Inv := fun q ν => R3S X μ0 P (fun j => if lo ≤ j ∧ j < hi then q else Q j) ν) hl2 hl hk
      (r3_congr2 F hX hC hS hk hCm hSm hCn hSn) ?_ ?_ ?_
    · intro i t q ν hi en h
      exact r3_range hlh (fun j Q' ν h1 h2 e h => by
        have := r3_kern F hX hC hS hk hCm hSm hCn hSn (j := j) (i := i) (t := t) (Q := Q') hi (by omega) (by rw [e]; exact en) h
        rwa [e] at this) h
    · intro i t q ν hi en h
      exact r3_range hlh (fun j Q' ν h1 h2 e h => by
        have := r3_tail F hX hC hS hk hCm hSm hCn hSn (j := j) (i := i) (t := t) (Q := Q') hi (by omega) (by rw [e]; exact en) h
        rwa [e] at this) h
    · convert h using 2
      split
      · next hh => exact (hQ _ hh.1 hh.2).symm
      · rfl
  · simp only [if_true]
    refine wp_r3Lines hlh hQ (fun j Q' ν h1 h2 e h => ?_) h
    refine wp_r3Pipe (Inv := fun q ν => R3S X μ0 P (Function.update Q' j q) ν) hl2 hl hk (r3_congr1 F hX hC hS hk hCm hSm hCn hSn) ?_ ?_ ?_
    · intro i t q ν hi en h
      have := r3_kern F hX hC hS hk hCm hSm hCn hSn (j := j) hi (by omega) (Q := Function.update Q' j q) (by simpa using en) h
      simpa using this
    · intro i t q ν hi en h
      have := r3_tail F hX hC hS hk hCm hSm hCn hSn (j := j) hi (by omega) (Q := Function.update Q' j q) (by simpa using en) h
      simpa using this
    · rw [← e]; simpa using h

theorem r3_end (lines : Bool) (hl2 : 2 ≤ l) (hl : l ≤ k) (hQ : ∀ j, lo ≤ j → j < hi → Q j = fun t => min l (k - 1 + (X.m - l + 1) % 2 - t)) {ν : Store L T} (h : R3S X μ0 P Q ν) :
    wp (if lines then forUp_ lo hi fun i1 => r3End X.m l fun i t => r3One f dir X C S i t i1
      else r3End X.m l fun i t => forUp_ lo hi fun i1 => r3One f dir X C S i t i1) ν
      (fun _ ν' => R3S X μ0 P (fun j => if lo ≤ j ∧ j < hi then (fun _ => l) else Q j) ν') := by
  cases lines
  · simp only [Bool.false_eq_true, if_false]
    refine wp_r3End (Inv := fun q ν => R3S X μ0 P (fun j => if lo ≤ j ∧ j < hi then q else Q j) ν) hl hk
      (r3_congr2 F hX hC hS hk hCm hSm hCn hSn) ?_ rfl (by omega) ?_
    · intro i t q ν hi en h
      exact r3_range hlh (fun j Q' ν h1 h2 e h => by
        have := r3_one F hX hC hS hk hCm hSm hCn hSn (j := j) (i := i) (t := t) (Q := Q') hi (by omega) (by rw [e]; exact en) h
        rwa [e] at this) h
    · convert h using 2
      split
      · next hh => exact (hQ _ hh.1 hh.2).symm
      · rfl
  · simp only [if_true]
    refine wp_r3Lines hlh hQ (fun j Q' ν h1 h2 e h => ?_) h
    refine wp_r3End (Inv := fun q ν => R3S X μ0 P (Function.update Q' j q) ν) hl hk (r3_congr1 F hX hC hS hk hCm hSm hCn hSn) ?_ rfl (by omega) ?_
    · intro i t q ν hi en h
      have := r3_one F hX hC hS hk hCm hSm hCn hSn (j := j) hi (by omega) (Q := Function.update Q' j q) (by simpa using en) h
      simpa using this
    · rw [← e]; simpa using h

omit hlh hhi in
/-- One block, when the start-up phase runs over the lines of the block. -/
theorem wp_r3Block (lines sa : Bool) (hl2 : 2 ≤ l) (hl : l ≤ k) {ib : Nat} (hib : ib < X.n) (hsa : sa = true → ib = 0 ∧ X.n ≤ 256)
    (hQ : ∀ j, ib ≤ j → j < ib + 256 → Q j = fun _ => 0) {ν : Store L T} (h : R3S X μ0 P Q ν) :
    wp (r3Block lines sa f dir X C S l ib) ν
      (fun _ ν' => R3S X μ0 P (fun j => if ib ≤ j ∧ j < ib + 256 then (fun _ => l) else Q j) ν') := by
  have e : r3Block lines sa f dir X C S l ib = (do
      (if lines then forUp_ ib (min (ib + 256) X.n) fun i1 => r3Start l fun i t => r3One f dir X C S i t i1
        else r3Start l fun i t => forUp_ ib (min (ib + 256) X.n) fun i1 => r3One f dir X C S i t i1)
      (if lines then forUp_ ib (min (ib + 256) X.n) fun i1 => r3Pipe X.m l (fun i t => r3Kern f dir X C S i t i1) (fun i t => r3Tail f dir X C S i t i1)
        else r3Pipe X.m l (fun i t => forUp_ ib (min (ib + 256) X.n) fun i1 => r3Kern f dir X C S i t i1) (fun i t => forUp_ ib (min (ib + 256) X.n) fun i1 => r3Tail f dir X C S i t i1))
      (if lines then forUp_ ib (min (ib + 256) X.n) fun i1 => r3End X.m l fun i t => r3One f dir X C S i t i1
        else r3End X.m l fun i t => forUp_ ib (min (ib + 256) X.n) fun i1 => r3One f dir X C S i t i1)) := by
    unfold r3Block
    have e1 : (if sa = true then 0 else ib) = ib := by
      split
      · next hh => exact (hsa hh).1.symm
      · rfl
    have e2 : (if sa = true then X.n else min (ib + 256) X.n) = min (ib + 256) X.n := by
      split
      · next hh => have := hsa hh; omega
      · rfl
    dsimp only
    rw [e1, e2]
    cases lines <;> rfl
  rw [e]
  simp only [wp_bind]
  refine wp_conseq (r3_start F hX hC hS hk hCm hSm hCn hSn (by omega) (by omega) lines hl (fun j h1 h2 => hQ j h1 (by omega)) h) fun _ ν1 h1 => ?_
  refine wp_conseq (r3_pipe F hX hC hS hk hCm hSm hCn hSn (by omega) (by omega) lines hl2 hl (fun j g1 g2 => by rw [if_pos ⟨g1, g2⟩]) h1) fun _ ν2 h2 => ?_
  refine wp_conseq (r3_end F hX hC hS hk hCm hSm hCn hSn (by omega) (by omega) lines hl2 hl (fun j g1 g2 => by rw [if_pos ⟨g1, g2⟩]) h2) fun _ ν3 h3 => ?_
  refine R3S.congrQ F (fun j hj t ht => ?_) h3
  by_cases g : ib ≤ j ∧ j < min (ib + 256) X.n
  · rw [if_pos g, if_pos (by omega)]
  · rw [if_neg g, if_neg g, if_neg g, if_neg (by omega)]

omit hlh hhi in
theorem wp_r3Blocks (lines sa : Bool) (hl2 : 2 ≤ l) (hl : l ≤ k) (hsa : sa = true → X.n ≤ 256)
    {ν : Store L T} (h : R3S X μ0 P (fun _ _ => 0) ν) :
    wp (forBy_ 256 X.n (r3Block lines sa f dir X C S l) 0) ν (fun _ ν' => R3S X μ0 P (fun _ _ => l) ν') := by
  refine wp_forBy_ (fun ib ν => (sa = true → ib = 0 ∨ X.n ≤ ib) ∧ R3S X μ0 P (fun j => if j < ib then (fun _ => l) else fun _ => 0) ν) (by omega) ?_ ?_ _ _
    ⟨fun _ => .inl rfl, by simpa using h⟩
  · rintro ib ν hib ⟨g, hν⟩
    refine wp_conseq (wp_r3Block F hX hC hS hk hCm hSm hCn hSn lines sa hl2 hl hib (fun e => ⟨?_, hsa e⟩)
      (fun j h1 h2 => by rw [if_neg (by omega)]) hν) fun _ ν' hν' => ⟨fun e => .inr ?_, ?_⟩
    · rcases g e with g | g
      · exact g
      · omega
    · have := hsa e; omega
    · refine R3S.congrQ F (fun j hj t ht => ?_) hν'
      by_cases g : ib ≤ j ∧ j < ib + 256
      · rw [if_pos g, if_pos (by omega)]
      · rw [if_neg g]
        by_cases g2 : j < ib
        · rw [if_pos g2, if_pos (by omega)]
        · rw [if_neg g2, if_neg (by omega)]
  · rintro ib ν hib ⟨g, hν⟩
    refine R3S.congrQ F (fun j hj t ht => ?_) hν
    rw [if_pos (by omega)]

end lay
end TLA
