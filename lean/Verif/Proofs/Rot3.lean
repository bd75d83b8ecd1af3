import Verif.Proofs.RotSeq
import Verif.Model.Rot3

/-! rot_sequence3: the wavefront order gives the same result as the sequential order. -/

set_option linter.unusedTactic false
set_option linter.unusedSectionVars false
set_option linter.unusedVariables false
set_option linter.unreachableTactic false
set_option linter.unusedSimpArgs false

namespace TLA
open Matrix Finset
variable {L T : Type} [DecidableEq L] [Field T] [StarRing T] [DecidableEq T]

theorem wp_forBy_ {d n : Nat} {body : Nat → M L T Unit} {Q : Unit → Store L T → Prop} {E}
    (I : Nat → Store L T → Prop) (hd : 0 < d)
    (hs : ∀ j ν, j < n → I j ν → wp (body j) ν (fun _ ν' => I (j + d) ν') E)
    (hQ : ∀ j ν, n ≤ j → I j ν → Q () ν) :
    ∀ j μ, I j μ → wp (forBy_ d n body j) μ Q E := by
  intro j
  induction hk : n - j using Nat.strong_induction_on generalizing j with
  | _ k ih =>
    intro μ h0
    rw [forBy_]
    split
    · next h =>
      rw [wp_bind]
      refine wp_mono (hs j μ h h0) (fun _ ν hν => ?_) (fun _ _ h => h)
      rw [dif_neg (by omega)]
      exact ih (n - (j + d)) (by omega) (j + d) rfl ν hν
    · next h => exact hQ j μ (by omega) h0

/-! ### The order of the rotations -/

section alg
variable (dir : Direction) (m k : Nat) (c s : Nat → Nat → T)

/-- Row of wave position `r`. -/
def r3row (r : Nat) : Nat := if dir = .Forward then m - 1 - r else r

/-- Rotation `t` of sequence `i`. -/
def r3O (i t : Nat) (x : Nat → T) : Nat → T :=
  pairRot (r3g dir m t) (r3g dir m t + 1) (c (r3g dir m t) i) (s (r3g dir m t) i) x

/-- `t` rotations of sequence `i`. -/
def r3Z (i t : Nat) (x : Nat → T) : Nat → T := foldUp 0 t x fun t x => r3O dir m c s i t x

/-- `i` complete sequences. -/
def r3X (x : Nat → T) : Nat → Nat → T
  | 0 => x
  | i + 1 => r3Z dir m c s i k (r3X x i)

/-- Content of wave position `r` when `q t` rotations of number `t` have been applied. -/
def r3val (x : Nat → T) (q : Nat → Nat) (r : Nat) : T :=
  if r = k then r3X dir m k c s x (q (k - 1)) (r3row dir m r)
  else if 0 < r ∧ q (r - 1) = q r + 1 then r3Z dir m c s (q r) r (r3X dir m k c s x (q r)) (r3row dir m r)
  else r3X dir m k c s x (q r) (r3row dir m r)

def r3P (x : Nat → T) (q : Nat → Nat) (y : Nat → T) : Prop := ∀ r, r ≤ k → y (r3row dir m r) = r3val dir m k c s x q r
end alg

variable {dir : Direction} {m k : Nat} {c s : Nat → Nat → T}

theorem r3O_out {i t r : Nat} (hm : k + 1 = m) (ht : t < k) (hr : r ≤ k) (h1 : r ≠ t) (h2 : r ≠ t + 1) (y : Nat → T) :
    r3O dir m c s i t y (r3row dir m r) = y (r3row dir m r) := by
  unfold r3O pairRot r3g r3row
  cases dir <;> simp only [if_true, reduceCtorEq, if_false]
  · rw [if_neg (by omega), if_neg (by omega)]
  · rw [if_neg (by omega), if_neg (by omega)]

theorem r3O_congr {i t r : Nat} (hm : k + 1 = m) (ht : t < k) {y z : Nat → T} (h1 : y (r3row dir m t) = z (r3row dir m t))
    (h2 : y (r3row dir m (t + 1)) = z (r3row dir m (t + 1))) (hr : r = t ∨ r = t + 1) :
    r3O dir m c s i t y (r3row dir m r) = r3O dir m c s i t z (r3row dir m r) := by
  unfold r3O pairRot r3g
  unfold r3row at *
  cases dir <;> simp only [if_true, reduceCtorEq, if_false] at h1 h2 ⊢
  · have e : m - 2 - t + 1 = m - 1 - t := by omega
    have e2 : m - 2 - t = m - 1 - (t + 1) := by omega
    rw [e, e2, h1, h2]
    rcases hr with rfl | rfl
    · rw [if_neg (by omega), if_pos rfl, if_neg (by omega), if_pos rfl]
    · rw [if_pos rfl, if_pos rfl]
  · rw [h1, h2]
    rcases hr with rfl | rfl
    · rw [if_pos rfl, if_pos rfl]
    · rw [if_neg (by omega), if_pos rfl, if_neg (by omega), if_pos rfl]

theorem r3Z_succ (i t : Nat) (x : Nat → T) : r3Z dir m c s i (t + 1) x = r3O dir m c s i t (r3Z dir m c s i t x) := by
  unfold r3Z
  rw [foldUp_succ (by omega)]

theorem r3Z_hi (hm : k + 1 = m) (i : Nat) (x : Nat → T) {r : Nat} (hr : r ≤ k) : ∀ t, t < r →
    r3Z dir m c s i t x (r3row dir m r) = x (r3row dir m r) := by
  intro t
  induction t with
  | zero => intro _; simp [r3Z]
  | succ t ih =>
    intro h
    rw [r3Z_succ, r3O_out hm (by omega) hr (by omega) (by omega), ih (by omega)]

theorem r3Z_lo (hm : k + 1 = m) (i : Nat) (x : Nat → T) {r t : Nat} (hr : r < t) : ∀ d, t + d ≤ k →
    r3Z dir m c s i (t + d) x (r3row dir m r) = r3Z dir m c s i t x (r3row dir m r) := by
  intro d
  induction d with
  | zero => intro _; rfl
  | succ d ih =>
    intro h
    rw [← Nat.add_assoc, r3Z_succ, r3O_out hm (by omega) (by omega) (by omega) (by omega), ih (by omega)]

theorem r3P.step (hm : k + 1 = m) {x y : Nat → T} {q : Nat → Nat} {i t : Nat} (h : r3P dir m k c s x q y) (ht : t < k)
    (h0 : q t = i) (h1 : t = 0 ∨ q (t - 1) = i + 1) (h2 : t + 1 = k ∨ q (t + 1) = i) :
    r3P dir m k c s x (Function.update q t (i + 1)) (r3O dir m c s i t y) := by
  set X := r3X dir m k c s x i with hX
  have ya : y (r3row dir m t) = r3Z dir m c s i t X (r3row dir m t) := by
    rw [h t (by omega)]
    unfold r3val
    rw [if_neg (by omega), h0]
    rcases h1 with rfl | h1
    · rw [if_neg (by omega)]; simp [r3Z, hX]
    · by_cases h3 : 0 < t
      · rw [if_pos ⟨h3, h1⟩]
      · obtain rfl : t = 0 := by omega
        rw [if_neg (by omega)]; simp [r3Z, hX]
  have yb : y (r3row dir m (t + 1)) = r3Z dir m c s i t X (r3row dir m (t + 1)) := by
    rw [h (t + 1) (by omega), r3Z_hi hm i X (by omega) t (by omega)]
    unfold r3val
    by_cases h3 : t + 1 = k
    · rw [if_pos h3, show k - 1 = t by omega, h0]
    · have h4 : q (t + 1) = i := h2.resolve_left h3
      rw [if_neg h3, Nat.add_sub_cancel, if_neg (by omega), h4]
  intro r hr
  by_cases e1 : r = t
  · subst e1
    rw [r3O_congr hm ht ya yb (.inl rfl), ← r3Z_succ]
    have e : r3X dir m k c s x (i + 1) (r3row dir m r) = r3Z dir m c s i (r + 1) X (r3row dir m r) := by
      show r3Z dir m c s i k _ _ = _
      obtain ⟨d, hd⟩ : ∃ d, k = r + 1 + d := ⟨k - (r + 1), by omega⟩
      have := r3Z_lo (dir := dir) (c := c) (s := s) hm i X (show r < r + 1 by omega) d (by omega)
      rw [← hd] at this
      exact this
    rw [← e]
    unfold r3val
    rw [if_neg (by omega), if_neg, Function.update_self]
    rintro ⟨h3, h4⟩
    rw [Function.update_self, Function.update_of_ne (by omega)] at h4
    omega
  · by_cases e2 : r = t + 1
    · subst e2
      rw [r3O_congr hm ht ya yb (.inr rfl), ← r3Z_succ]
      unfold r3val
      by_cases h3 : t + 1 = k
      · rw [if_pos h3, show k - 1 = t by omega, Function.update_self]
        show _ = r3Z dir m c s i k X _
        rw [← h3]
      · rw [if_neg h3, Nat.add_sub_cancel, Function.update_self, Function.update_of_ne (by omega), h2.resolve_left h3,
          if_pos ⟨by omega, rfl⟩]
    · rw [r3O_out hm ht hr e1 e2, h r hr]
      unfold r3val
      split
      · rw [Function.update_of_ne (by omega)]
      · rw [Function.update_of_ne e1]
        by_cases h3 : 0 < r
        · rw [Function.update_of_ne (show r - 1 ≠ t by omega)]
        · simp [h3]

theorem r3P.congr {x y : Nat → T} {q q' : Nat → Nat} (h : r3P dir m k c s x q y) (hk : 0 < k) (e : ∀ t, t < k → q t = q' t) :
    r3P dir m k c s x q' y := by
  intro r hr
  rw [h r hr]
  unfold r3val
  split
  · rw [e _ (by omega)]
  · rw [e r (by omega)]
    by_cases h3 : 0 < r
    · rw [e (r - 1) (by omega)]
    · simp [h3]

theorem r3P.start {x : Nat → T} : r3P dir m k c s x (fun _ => 0) x := by
  intro r hr
  unfold r3val
  simp [r3X]

theorem r3P.done (hm : k + 1 = m) {x y : Nat → T} {l : Nat} (h : r3P dir m k c s x (fun _ => l) y) {r : Nat} (hr : r < m) :
    y r = r3X dir m k c s x l r := by
  have key : ∀ r, r ≤ k → y (r3row dir m r) = r3X dir m k c s x l (r3row dir m r) := by
    intro r hr
    rw [h r hr]
    unfold r3val
    simp
  unfold r3row at key
  cases dir
  · have := key (m - 1 - r) (by omega)
    simp only [if_true] at this
    rwa [show m - 1 - (m - 1 - r) = r by omega] at this
  · have := key r (by omega)
    simpa using this

/-! ### The schedules -/

/-- A rotation may be applied: its predecessors have been. -/
structure R3En (k : Nat) (q : Nat → Nat) (i t : Nat) : Prop where
  hlt : t < k
  q0 : q t = i
  q1 : t = 0 ∨ q (t - 1) = i + 1
  q2 : t + 1 = k ∨ q (t + 1) = i

section sched
variable {Inv : (Nat → Nat) → Store L T → Prop} {l : Nat}

theorem wp_r3Start {op : Nat → Nat → M L T Unit} (hl : l ≤ k)
    (hcong : ∀ q q' ν, (∀ t, t < k → q t = q' t) → Inv q ν → Inv q' ν)
    (hop : ∀ i t q ν, i < l → R3En k q i t → Inv q ν → wp (op i t) ν (fun _ ν' => Inv (Function.update q t (i + 1)) ν'))
    {μ : Store L T} (h : Inv (fun _ => 0) μ) :
    wp (r3Start l op) μ (fun _ ν => Inv (fun t => l - 1 - t) ν) := by
  unfold r3Start
  refine wp_forUp_ (fun j ν => Inv (fun t => j - t) ν) (Nat.zero_le _) (hcong _ _ _ (fun t _ => by simp) h) ?_ (fun _ h => h)
  intro j ν _ hj hν
  refine wp_forUp_ (fun i ν => Inv (fun t => if t ≤ j ∧ j < t + i then j - t + 1 else j - t) ν) (Nat.zero_le _)
    (hcong _ _ _ (fun t _ => by split_ifs <;> omega) hν) ?_ ?_
  · intro i ν _ hi hν
    refine wp_conseq (hop i (j - i) _ ν (by omega) ?_ hν) fun _ ν' hν' => hcong _ _ _ (fun t ht => ?_) hν'
    · constructor
      · omega
      · split_ifs <;> omega
      · by_cases h0 : j - i = 0
        · exact .inl h0
        · right; split_ifs <;> omega
      · right; split_ifs <;> omega
    · simp only [Function.update_apply]
      split_ifs <;> omega
  · intro ν hν
    exact hcong _ _ _ (fun t ht => by split_ifs <;> omega) hν

theorem wp_r3End {op : Nat → Nat → M L T Unit} (hl : l ≤ k) (hk : k + 1 = m)
    (hcong : ∀ q q' ν, (∀ t, t < k → q t = q' t) → Inv q ν → Inv q' ν)
    (hop : ∀ i t q ν, i < l → R3En k q i t → Inv q ν → wp (op i t) ν (fun _ ν' => Inv (Function.update q t (i + 1)) ν'))
    {μ : Store L T} {j0 : Nat} (hj0 : j0 = (m - l + 1) % 2) (hjl : j0 ≤ l) (h : Inv (fun t => min l (k - 1 + j0 - t)) μ) :
    wp (r3End m l op) μ (fun _ ν => Inv (fun _ => l) ν) := by
  unfold r3End
  rw [← hj0]
  refine wp_forUp_ (fun j ν => Inv (fun t => min l (k - 1 + j - t)) ν) hjl h ?_ ?_
  · intro j ν _ hj hν
    refine wp_forUp_ (fun i ν => Inv (fun t => if k - 1 + j < t + i then k - 1 + j - t + 1 else min l (k - 1 + j - t)) ν) (by omega)
      (hcong _ _ _ (fun t _ => by split_ifs <;> omega) hν) ?_ ?_
    · intro i ν _ hi hν
      have e : m - 2 - (i - j) = k - 1 - (i - j) := by omega
      rw [e]
      refine wp_conseq (hop i (k - 1 - (i - j)) _ ν (by omega) ?_ hν) fun _ ν' hν' => hcong _ _ _ (fun t ht => ?_) hν'
      · constructor
        · omega
        · split_ifs <;> omega
        · by_cases h0 : k - 1 - (i - j) = 0
          · exact .inl h0
          · right; split_ifs <;> omega
        · by_cases h0 : k - 1 - (i - j) + 1 = k
          · exact .inl h0
          · right; split_ifs <;> omega
      · simp only [Function.update_apply]
        split_ifs <;> omega
    · intro ν hν
      exact hcong _ _ _ (fun t ht => by split_ifs <;> omega) hν
  · intro ν hν
    exact hcong _ _ _ (fun t ht => by omega) hν

/-- A fused block of four rotations may be applied. -/
structure R3EnK (k : Nat) (q : Nat → Nat) (i t : Nat) : Prop where
  t0 : 0 < t
  t1 : t + 1 < k
  q0 : q t = i
  qm : q (t - 1) = i + 1
  qp : q (t + 1) = i
  qmm : t = 1 ∨ q (t - 2) = i + 2
  qpp : t + 2 = k ∨ q (t + 2) = i

/-- The two rotations of the last, odd, sequence may be applied. -/
structure R3EnT (k : Nat) (q : Nat → Nat) (i t : Nat) : Prop where
  t1 : t + 1 < k
  q0 : q t = i
  qm : t = 0 ∨ q (t - 1) = i + 1
  qp : q (t + 1) = i
  qpp : t + 2 = k ∨ q (t + 2) = i

def r3K (q : Nat → Nat) (i t : Nat) : Nat → Nat :=
  Function.update (Function.update (Function.update (Function.update q t (i + 1)) (t + 1) (i + 1)) (t - 1) (i + 2)) t (i + 2)

def r3T (q : Nat → Nat) (i t : Nat) : Nat → Nat := Function.update (Function.update q t (i + 1)) (t + 1) (i + 1)

theorem wp_r3Pipe {kern tail : Nat → Nat → M L T Unit} (hl1 : 2 ≤ l) (hl : l ≤ k) (hk : k + 1 = m)
    (hcong : ∀ q q' ν, (∀ t, t < k → q t = q' t) → Inv q ν → Inv q' ν)
    (hkern : ∀ i t q ν, i + 1 < l → R3EnK k q i t → Inv q ν → wp (kern i t) ν (fun _ ν' => Inv (r3K q i t) ν'))
    (htail : ∀ i t q ν, i < l → R3EnT k q i t → Inv q ν → wp (tail i t) ν (fun _ ν' => Inv (r3T q i t) ν'))
    {μ : Store L T} (h : Inv (fun t => l - 1 - t) μ) :
    wp (r3Pipe m l kern tail) μ (fun _ ν => Inv (fun t => min l (k - 1 + (m - l + 1) % 2 - t)) ν) := by
  unfold r3Pipe
  refine wp_forBy_ (fun j ν => l - 1 ≤ j ∧ j ≤ k ∧ (j - (l - 1)) % 2 = 0 ∧ Inv (fun t => min l (j - t)) ν) (by omega) ?_ ?_ _ _
    ⟨le_refl _, by omega, by simp, hcong _ _ _ (fun t _ => by omega) h⟩
  · rintro j ν hj ⟨g1, g1', g2, hν⟩
    rw [wp_bind]
    refine wp_forBy_ (fun i ν => i % 2 = 0 ∧ i ≤ l ∧ Inv (fun t => if t ≤ j + 1 ∧ j + 1 < t + i then j + 2 - t else
      if t ≤ j ∧ j < t + i then j + 1 - t else min l (j - t)) ν) (by omega) ?_ ?_ _ _
      ⟨by simp, by omega, hcong _ _ _ (fun t _ => by split_ifs <;> omega) hν⟩
    · rintro i ν hi ⟨g3, g4, hν⟩
      refine wp_conseq (hkern i (j - i) _ ν (by omega) ?_ hν) fun _ ν' hν' => ⟨by omega, by omega, hcong _ _ _ (fun t ht => ?_) hν'⟩
      · constructor
        · omega
        · omega
        · split_ifs <;> omega
        · split_ifs <;> omega
        · split_ifs <;> omega
        · by_cases h0 : j - i = 1
          · exact .inl h0
          · right; split_ifs <;> omega
        · by_cases h0 : j - i + 2 = k
          · exact .inl h0
          · right; split_ifs <;> omega
      · simp only [r3K, Function.update_apply]
        split_ifs <;> omega
    · rintro i ν hi ⟨g3, g4, hν⟩
      split
      · next hodd =>
        obtain rfl : i = l - 1 := by omega
        refine wp_conseq (htail (l - 1) (j - (l - 1)) _ ν (by omega) ?_ hν) fun _ ν' hν' =>
          ⟨by omega, by omega, by omega, hcong _ _ _ (fun t ht => ?_) hν'⟩
        · constructor
          · omega
          · split_ifs <;> omega
          · by_cases h0 : j - (l - 1) = 0
            · exact .inl h0
            · right; split_ifs <;> omega
          · split_ifs <;> omega
          · by_cases h0 : j - (l - 1) + 2 = k
            · exact .inl h0
            · right; split_ifs <;> omega
        · simp only [r3T, Function.update_apply]
          split_ifs <;> omega
      · next hodd =>
        obtain rfl : i = l := by omega
        rw [wp_pure]
        exact ⟨by omega, by omega, by omega, hcong _ _ _ (fun t ht => by split_ifs <;> omega) hν⟩
  · rintro j ν hj ⟨g1, g1', g2, hν⟩
    refine hcong _ _ _ (fun t ht => ?_) hν
    have : j = k - 1 + (m - l + 1) % 2 := by omega
    rw [this]

end sched
end TLA
