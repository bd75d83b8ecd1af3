import Verif.Proofs.Trevc
set_option linter.unusedTactic false
set_option linter.unusedVariables false
set_option linter.unusedSimpArgs false
set_option linter.unreachableTactic false
set_option linter.unusedSectionVars false

/-! # trevc: the forward substitution -/

namespace TLA
open Finset Matrix Kernel
variable {L : Type} [DecidableEq L] {n k : Nat} {t : Nat → Nat → ℂ}
variable {isReal : Bool} {isinf : ℝ → Bool} {smin smax sfmin sfmax : ℝ} {pr : DivPar}

/-- Invariant of the forward substitution: the entries before `i` are found. -/
structure FInv (t : Nat → Nat → ℂ) (n k i : Nat) (sc : ℝ) (x : Nat → ℂ) : Prop where
  pos : 0 < sc
  done : ∀ j, k < j → j < i → star (t j j - t k k) * x j + ∑ s ∈ Ico (k + 1) j, star (t s j) * x s + (sc : ℂ) * star (t k j) = 0
  todo : ∀ j, k < j → i ≤ j → j < n → x j = -((sc : ℂ) * star (t k j))
  one : x k = 1
  zero : ∀ j, j < k → x j = 0

theorem FInv.scale {i : Nat} {sc : ℝ} {x x' : Nat → ℂ} (h : FInv t n k i sc x) {s : ℝ} (hs : 0 < s) (hi : i ≤ n) (h1 : ∀ j, k < j → j < n → x' j = (s : ℂ) * x j)
    (h2 : ∀ j, j ≤ k → x' j = x j) : FInv t n k i (sc * s) x' := by
  refine ⟨mul_pos h.pos hs, fun j hj1 hj2 => ?_, fun j hj1 hj2 hj3 => ?_, by rw [h2 k le_rfl, h.one], fun j hj => by rw [h2 j (by omega), h.zero j hj]⟩
  · have hsum : ∑ r ∈ Ico (k + 1) j, star (t r j) * x' r = s * ∑ r ∈ Ico (k + 1) j, star (t r j) * x r := by
      rw [mul_sum]
      refine sum_congr rfl fun r hr => ?_
      have := mem_Ico.1 hr
      rw [h1 r (by omega) (by omega)]; ring
    rw [hsum, h1 j hj1 (by omega)]
    have := h.done j hj1 hj2
    push_cast
    linear_combination (s : ℂ) * this
  · rw [h1 j hj1 hj3, h.todo j hj1 hj2 hj3]; push_cast; ring

theorem FInv.step {i : Nat} {sc : ℝ} {x x' : Nat → ℂ} (h : FInv t n k i sc x) (hk : k < i) (hi : i < n) (hd : star (t i i - t k k) ≠ 0)
    (h1 : x' i = (x i - ∑ s ∈ Ico (k + 1) i, star (t s i) * x s) / star (t i i - t k k)) (h2 : ∀ j, j ≠ i → x' j = x j) : FInv t n k (i + 1) sc x' := by
  have hsum : ∀ j, j ≤ i → ∑ r ∈ Ico (k + 1) j, star (t r j) * x' r = ∑ r ∈ Ico (k + 1) j, star (t r j) * x r := by
    intro j hj
    refine sum_congr rfl fun r hr => ?_
    rw [h2 r (by have := mem_Ico.1 hr; omega)]
  refine ⟨h.pos, fun j hj1 hj2 => ?_, fun j hj1 hj2 hj3 => ?_, by rw [h2 k (by omega), h.one], fun j hj => by rw [h2 j (by omega), h.zero j hj]⟩
  · rw [hsum j (by omega)]
    by_cases c : j = i
    · subst c
      rw [h1, mul_div_cancel₀ _ hd, h.todo j hj1 le_rfl hi]; ring
    · rw [h2 j c]; exact h.done j hj1 (by omega)
  · rw [h2 j (by omega)]; exact h.todo j hj1 (by omega) hj3

theorem FInv.ev {sc : ℝ} {x z : Nat → ℂ} (h : FInv t n k n sc x) (hk : k < n) (h1 : z k = (sc : ℂ)) (h2 : ∀ j, j < n → j ≠ k → z j = x j) : IsLeftEv n t k z := by
  have zz : ∀ j, j < k → z j = 0 := fun j hj => by rw [h2 j (by omega) (by omega), h.zero j hj]
  refine ⟨⟨sc, h.pos, h1⟩, zz, ?_⟩
  funext ⟨r, hr⟩
  show ∑ c : Fin n, star (z c) * triF .Upper .NonUnit t c r = t k k * star (z r)
  rw [Fin.sum_univ_eq_sum_range (fun c => star (z c) * triF .Upper .NonUnit t c r) n]
  have tri : ∀ c, c < r → triF .Upper .NonUnit t c r = t c r := fun c hc => by
    unfold triF; rw [if_neg (by omega), if_pos (show inTri .Upper c r from by unfold inTri; simp; omega)]
  have low : ∀ c, r < c → triF .Upper .NonUnit t c r = 0 := fun c hc => by
    unfold triF; rw [if_neg (by omega), if_neg (show ¬ inTri .Upper c r from by unfold inTri; simp; omega)]
  have dia : triF .Upper .NonUnit t r r = t r r := by unfold triF; rw [if_pos rfl]
  rw [range_eq_Ico, ← sum_Ico_consecutive _ (Nat.zero_le r) hr.le, sum_eq_sum_Ico_succ_bot hr, dia]
  rw [sum_eq_zero (s := Ico (r + 1) n) (fun c hc => by rw [low c (by have := mem_Ico.1 hc; omega), mul_zero]), add_zero]
  by_cases q : r < k
  · rw [zz r q, star_zero, zero_mul, mul_zero, add_zero]
    refine sum_eq_zero fun c hc => ?_
    have := mem_Ico.1 hc
    rw [zz c (by omega), star_zero, zero_mul]
  · rcases Nat.lt_or_eq_of_le (not_lt.1 q) with q | rfl
    · rw [← sum_Ico_consecutive _ (Nat.zero_le k) q.le, sum_eq_sum_Ico_succ_bot q]
      rw [sum_eq_zero (s := Ico 0 k) (fun c hc => by have := mem_Ico.1 hc; rw [zz c (by omega), star_zero, zero_mul]), zero_add, h1, tri k q,
        sum_congr rfl (fun c hc => by
          have := mem_Ico.1 hc
          rw [tri c (by omega), h2 c (by omega) (by omega)] :
          ∀ c ∈ Ico (k + 1) r, star (z c) * triF .Upper .NonUnit t c r = star (x c) * t c r), h2 r hr (by omega)]
      have := congrArg star (h.done r q hr)
      rw [star_add, star_add, star_mul', star_mul', star_star, star_star, star_zero, star_sum] at this
      simp only [star_mul', star_star] at this
      rw [sum_congr rfl (fun c _ => mul_comm (star (x c)) (t c r))]
      linear_combination this
    · rw [sum_eq_zero (fun c hc => by have := mem_Ico.1 hc; rw [zz c (by omega), star_zero, zero_mul]), zero_add, mul_comm]

set_option maxHeartbeats 1000000 in
/-- A step up to the division. -/
theorem wp_trevcFwdStep_gen (hsf : 0 < sfmax) {T : MatV L} {v : VecV L} {colN : RArr} (ok : SubstOK n T v colN) {i : Nat} (hk : k < i) (hi : i < n) {sc : ℝ} {x : Nat → ℂ}
    {μ ν : Store L ℂ} (h : VState v μ x ν) (hb : FInv (entry μ T) n k i sc x) {Q E}
    (hrest : ∀ sc' ν' x' y, VState v μ (fun j => if j = i then y else x' j) ν' → FInv (entry μ T) n k i sc' x' →
      y = x' i - ∑ s ∈ Ico (k + 1) i, star (entry μ T s i) * x' s →
      wp (do
        let s2 ← liftO (protDivC y (star (entry μ T i i - entry μ T k k)) sfmin sfmax)
        let y ← liftO (ladivC pr ((s2 : ℂ) * y) (star (entry μ T i i - entry μ T k k)))
        v.set i y
        if s2 ≠ 1 then do
          trevcScal v s2 (k + 1) i
          trevcScal v s2 (i + 1) n
          pure (sc' * s2)
        else pure sc' : M L ℂ ℝ) ν' Q E) :
    wp (trevcFwdStep (hetOps isReal isinf smin smax) pr sfmin sfmax T v k colN (entry μ T k k) i sc) ν Q E := by
  obtain ⟨hv, hd, tm, tn, vn, cn⟩ := ok
  unfold trevcFwdStep
  simp only [wp_bind, tm]
  refine wp_vslice (by omega) (by omega) ?_
  refine wp_mono (wp_iamaxD (isReal := isReal) (isinf := isinf) (safeMin := smin) (safeMax := smax) (x := v.sub (k + 1) n) (by show 0 < n - (k + 1); omega)) ?_ (fun _ _ h => h.elim)
  rintro ivm _ ⟨rfl, hivm, -⟩
  have hivm : ivm < n - (k + 1) := hivm
  refine wp_vgetE (by omega) ?_
  simp only [RArr.get]
  rw [if_pos (by omega)]
  simp only [wp_pure]
  refine wp_vgetE (by omega) ?_
  obtain ⟨s1, e1, p1⟩ := protUpd_pos (cabs1 (ν (v.cell i))) (colN.f i) (cabs1 (ν (v.cell (k + 1 + ivm)))) sfmax
  refine wp_liftO_some e1 ?_
  have g1 : wp (if s1 ≠ 1 then do
        trevcScal v s1 (k + 1) n
        pure (sc * s1)
      else pure sc : M L ℂ ℝ) ν (fun r ν2 => r = sc * s1 ∧ VState v μ (fun j => if k + 1 ≤ j ∧ j < n then (s1 : ℂ) * x j else x j) ν2) := by
    by_cases q : s1 ≠ 1
    · rw [if_pos q]
      simp only [wp_bind]
      exact wp_conseq (wp_trevcScal hv (by omega) (by omega) h) fun _ ν2 h2 => ⟨rfl, h2⟩
    · rw [if_neg q]
      have : s1 = 1 := not_not.1 q
      subst this
      refine ⟨by ring, h.congr fun j _ => ?_⟩
      split_ifs <;> simp
  refine wp_mono g1 ?_ (fun _ _ h => h.elim)
  rintro _ ν2 ⟨rfl, h2⟩
  have b1 := hb.scale (x' := fun j => if k + 1 ≤ j ∧ j < n then (s1 : ℂ) * x j else x j) p1 hi.le (fun j h1 h2 => if_pos (by omega)) fun j hj => if_neg (by omega)
  obtain ⟨y, hy⟩ : ∃ y, y = fun j => if k + 1 ≤ j ∧ j < n then (s1 : ℂ) * x j else x j := ⟨_, rfl⟩
  rw [← hy] at h2 b1
  have g2 : wp (forUp_ (k + 1) i fun j => do
        let y ← v.get i
        let t ← T.get j i
        let x ← v.get j
        v.set i (y - star t * x) : M L ℂ Unit) ν2 (fun _ ν' => VState v μ (fun j => if j = i then y i - ∑ s ∈ Ico (k + 1) i, star (entry μ T s i) * y s else y j) ν') := by
    refine wp_forUp_ (fun c ν' => VState v μ (fun j => if j = i then y i - ∑ s ∈ Ico (k + 1) c, star (entry μ T s i) * y s else y j) ν') (by omega) ?_ ?_ fun _ h => h
    · refine h2.congr fun j _ => ?_
      by_cases c : j = i
      · rw [if_pos c, Ico_self, sum_empty, sub_zero, c]
      · rw [if_neg c]
    · intro c ν' h1 h2 h3
      simp only [wp_bind, wp_vget, wp_get, wp_vset]
      refine ⟨by omega, ⟨by omega, by omega⟩, by omega, by omega, h3.upd hv (by omega) fun j hj => ?_⟩
      rw [h3.val i (by omega), h3.val c (by omega), h3.read hd (by omega) (by omega)]
      by_cases q : j = i
      · rw [if_pos q, if_pos q, if_pos rfl, if_neg (by omega), sum_Ico_succ_top h1]
        show _ = _ - star (entry μ T c i) * _
        ring
      · rw [if_neg q, if_neg q, if_neg q]
  refine wp_mono g2 ?_ (fun _ _ h => h.elim)
  intro _ ν3 h3
  refine wp_getE ⟨by omega, by omega⟩ ?_
  refine wp_vgetE (by omega) ?_
  rw [h3.val i (by omega), h3.read hd (by omega) (by omega), if_pos rfl]
  have := hrest (sc * s1) ν3 y _ h3 b1 rfl
  simp only [wp_bind] at this
  exact this

theorem wp_trevcFwdStep (hu : pr.u ≠ 0) (hsf : 0 < sfmax) {T : MatV L} {v : VecV L} {colN : RArr} (ok : SubstOK n T v colN) {i : Nat} (hk : k < i) (hi : i < n) {sc : ℝ} {x : Nat → ℂ}
    {μ ν : Store L ℂ} (hne : entry μ T i i ≠ entry μ T k k) (h : VState v μ x ν) (hb : FInv (entry μ T) n k i sc x) :
    wp (trevcFwdStep (hetOps isReal isinf smin smax) pr sfmin sfmax T v k colN (entry μ T k k) i sc) ν (fun sc' ν' => ∃ x', VState v μ x' ν' ∧ FInv (entry μ T) n k (i + 1) sc' x') := by
  refine wp_trevcFwdStep_gen hsf ok hk hi h hb fun sc' ν' x' y h' b' ey => ?_
  obtain ⟨hv, hd, tm, tn, vn, cn⟩ := ok
  have hdn : star (entry μ T i i - entry μ T k k) ≠ 0 := star_ne_zero.2 (sub_ne_zero.2 hne)
  obtain ⟨d, hd'⟩ : ∃ d, d = star (entry μ T i i - entry μ T k k) := ⟨_, rfl⟩
  rw [← hd'] at hdn ⊢
  simp only [wp_bind]
  obtain ⟨s2, e2, p2⟩ := protDivC_pos (a := y) (sfmin := sfmin) hsf hdn
  refine wp_liftO_some e2 ?_
  refine wp_liftO_some (C50_ladiv hu _ hdn) ?_
  simp only [wp_vset]
  refine ⟨by omega, ?_⟩
  have h1 := h'.upd hv (i := i) (v := (s2 : ℂ) * y / d) (g' := fun j => if j = i then (s2 : ℂ) * y / d else x' j) (by omega) fun j _ => by
    by_cases c : j = i
    · rw [if_pos c, if_pos c]
    · rw [if_neg c, if_neg c, if_neg c]
  have b1 : FInv (entry μ T) n k (i + 1) sc' (fun j => if j = i then y / d else x' j) := b'.step hk hi (hd' ▸ hdn) (by beta_reduce; rw [if_pos rfl, ey, hd']) fun j hj => if_neg hj
  have b2 : FInv (entry μ T) n k (i + 1) (sc' * s2) (fun j => if j = i then (s2 : ℂ) * y / d else if k < j ∧ j < n then (s2 : ℂ) * x' j else x' j) := by
    refine b1.scale p2 (by omega) (fun j h1 h2 => ?_) fun j hj => ?_
    · beta_reduce
      by_cases c : j = i
      · rw [if_pos c, if_pos c, mul_div_assoc]
      · rw [if_neg c, if_neg c, if_pos ⟨h1, h2⟩]
    · beta_reduce
      rw [if_neg (by omega), if_neg (by omega), if_neg (by omega)]
  by_cases q : s2 ≠ 1
  · rw [if_pos q]
    simp only [wp_bind]
    refine wp_conseq (wp_trevcScal hv (by omega) (by omega) h1) ?_
    intro _ ν2 h2
    refine wp_conseq (wp_trevcScal hv (by omega) (by omega) h2) ?_
    intro _ ν3 h3
    refine ⟨_, h3.congr (g' := fun j => if j = i then (s2 : ℂ) * y / d else if k < j ∧ j < n then (s2 : ℂ) * x' j else x' j) fun j hj => ?_, b2⟩
    by_cases c : j = i
    · subst c; rw [if_pos rfl, if_neg (by omega), if_neg (by omega), if_pos rfl]
    · rw [if_neg c]
      by_cases c2 : k < j ∧ j < n
      · rw [if_pos c2]
        by_cases c3 : j < i
        · rw [if_neg (by omega), if_pos (by omega), if_neg c]
        · rw [if_pos (by omega), if_neg (by omega), if_neg c]
      · rw [if_neg c2, if_neg (by omega), if_neg (by omega), if_neg c]
  · rw [if_neg q]
    have : s2 = 1 := not_not.1 q
    subst this
    refine ⟨_, h1, ?_⟩
    simpa using b1

/-- The forward substitution up to its loop. -/
theorem wp_trevcFwd_gen (I : ℝ → (Nat → ℂ) → Prop) {T : MatV L} {v : VecV L} {colN : RArr} (ok : SubstOK n T v colN) (hk : k < n) {μ : Store L ℂ} {Q E}
    (hloop : ∀ ν x, VState v μ x ν → FInv (entry μ T) n k (k + 1) 1 x → wp (forUp (k + 1) n (1 : ℝ) fun i scale =>
      trevcFwdStep (hetOps isReal isinf smin smax) pr sfmin sfmax T v k colN (entry μ T k k) i scale) ν
        (fun sc ν' => ∃ x', VState v μ x' ν' ∧ FInv (entry μ T) n k n sc x' ∧ I sc x') E)
    (hQ : ∀ ν z sc x, I sc x → VState v μ z ν → IsLeftEv n (entry μ T) k z → Q () ν) :
    wp (trevcFwd (hetOps isReal isinf smin smax) pr sfmin sfmax T v k colN) μ Q E := by
  obtain ⟨hv, hd, tm, tn, vn, cn⟩ := ok
  unfold trevcFwd
  simp only [wp_bind, wp_check, tm, tn, vn]
  simp only [hk, decide_true, if_true]
  refine wp_mono (wp_vzero hv (Nat.zero_le k) (by omega) (VState.start v μ)) ?_ (fun _ _ h => h.elim)
  intro _ ν1 h1
  refine wp_vsetE (by omega) ?_
  have h2 := h1.upd hv (i := k) (v := 1) (g' := fun j => if j = k then 1 else if 0 ≤ j ∧ j < k then 0 else ventry μ v j) (by omega) fun _ _ => rfl
  refine wp_mono (wp_vfill (val := fun _ => 0) hv hd (show k + 1 ≤ n by omega) (by omega) (r := fun _ => k) (c := fun i => i) (f := fun t => -star t) (fun j _ h => ⟨by omega, by omega⟩) h2)
    ?_ (fun _ _ h => h.elim)
  intro _ ν3 h3
  refine wp_getE ⟨by omega, by omega⟩ ?_
  rw [h3.read hd (by omega) (by omega)]
  have b0 : FInv (entry μ T) n k (k + 1) 1 (fun j => if k < j then -star (entry μ T k j) else if j = k then 1 else 0) := by
    refine ⟨one_pos, fun j h1 h2 => by omega, fun j hj _ _ => ?_, ?_, fun j hj => ?_⟩
    · beta_reduce; rw [if_pos hj]; simp
    · beta_reduce; rw [if_neg (lt_irrefl k), if_pos rfl]
    · beta_reduce; rw [if_neg (by omega), if_neg (by omega)]
  refine wp_mono (hloop ν3 (fun j => if k < j then -star (entry μ T k j) else if j = k then 1 else 0) (h3.congr fun j hj => ?_) b0) ?_ (fun _ _ h => h)
  · have hj' : j < n := by omega
    by_cases c : k < j
    · simp only [c, if_true, show k + 1 ≤ j ∧ j < n from ⟨c, hj'⟩, and_self]
    · by_cases c2 : j = k
      · simp only [c, c2, if_true, if_false, show ¬ (k + 1 ≤ k ∧ k < n) by omega, lt_irrefl]
      · simp only [c, c2, if_true, if_false, show ¬ (k + 1 ≤ j ∧ j < n) by omega, show 0 ≤ j ∧ j < k by omega, and_self]
  · rintro sc ν4 ⟨x, h4, b4, hI⟩
    refine wp_vgetE (by omega) ?_
    rw [h4.val k (by omega), b4.one, mul_one]
    refine wp_vsetE (by omega) (hQ _ _ sc x hI (h4.upd hv (g' := fun j => if j = k then (sc : ℂ) else x j) (by omega) fun _ _ => rfl) ?_)
    exact b4.ev hk (if_pos rfl) fun j _ hj => if_neg hj

theorem wp_trevcFwd (hu : pr.u ≠ 0) (hsf : 0 < sfmax) {T : MatV L} {v : VecV L} {colN : RArr} (ok : SubstOK n T v colN) (hk : k < n) {μ : Store L ℂ}
    (hne : ∀ i, k < i → i < n → entry μ T i i ≠ entry μ T k k) :
    wp (trevcFwd (hetOps isReal isinf smin smax) pr sfmin sfmax T v k colN) μ (fun _ ν => ∃ z, VState v μ z ν ∧ IsLeftEv n (entry μ T) k z) := by
  refine wp_trevcFwd_gen (fun _ _ => True) ok hk (fun ν x h hb => ?_) fun ν z _ _ _ h hz => ⟨z, h, hz⟩
  refine wp_forUp (fun i sc ν' => ∃ x', VState v μ x' ν' ∧ FInv (entry μ T) n k i sc x') (by omega) ⟨x, h, hb⟩ ?_ fun sc ν' ⟨x', h1, h2⟩ => ⟨x', h1, h2, trivial⟩
  rintro i sc ν' hi1 hi2 ⟨x', h', b'⟩
  exact wp_trevcFwdStep hu hsf ok (by omega) hi2 (hne _ (by omega) hi2) h' b'

/-- With a repeated eigenvalue the forward substitution divides by zero. -/
theorem wp_trevcFwd_fail (hu : pr.u ≠ 0) (hsf : 0 < sfmax) {T : MatV L} {v : VecV L} {colN : RArr} (ok : SubstOK n T v colN) (hk : k < n) {μ : Store L ℂ}
    {i0 : Nat} (h0 : k < i0) (h0n : i0 < n) (he : entry μ T i0 i0 = entry μ T k k) (hmin : ∀ i, k < i → i < i0 → entry μ T i i ≠ entry μ T k k) :
    wp (trevcFwd (hetOps isReal isinf smin smax) pr sfmin sfmax T v k colN) μ (fun _ _ => False) (fun e _ => e = .divz) := by
  refine wp_trevcFwd_gen (fun _ _ => False) ok hk (fun ν x h hb => ?_) fun _ _ _ _ h => h.elim
  refine wp_forUp (fun i sc ν' => i ≤ i0 ∧ ∃ x', VState v μ x' ν' ∧ FInv (entry μ T) n k i sc x') (by omega) ⟨by omega, x, h, hb⟩ ?_ fun sc ν' h => by have := h.1; omega
  rintro i sc ν' hi1 hi2 ⟨hi3, x', h', b'⟩
  by_cases c : i = i0
  · subst c
    refine wp_trevcFwdStep_gen hsf ok (by omega) hi2 h' b' fun sc' ν2 x2 y h2 b2 ey => ?_
    rw [sub_eq_zero.2 he, star_zero]
    simp only [wp_bind]
    obtain ⟨s1, e1⟩ := protDivC_some (a := y) (b := 0) (sfmin := sfmin) hsf
    refine wp_liftO_some e1 ?_
    rw [C50_ladiv_zero]
    rfl
  · refine wp_mono (wp_trevcFwdStep hu hsf ok (by omega) hi2 (hmin _ (by omega) (by omega)) h' b') ?_ (fun _ _ h => h.elim)
    rintro sc' ν2 ⟨x2, h2, b2⟩
    exact ⟨by omega, x2, h2, b2⟩

end TLA
