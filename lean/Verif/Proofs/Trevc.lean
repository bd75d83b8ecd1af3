import Verif.Model.Trevc
import Verif.SpecTrevc
import Verif.Proofs.HetPiv
import Verif.Proofs.Steqr
import Verif.Proofs.Block
import Verif.Props.Kernel
set_option linter.unusedTactic false
set_option linter.unusedVariables false
set_option linter.unusedSimpArgs false
set_option linter.unreachableTactic false
set_option linter.unusedSectionVars false

/-! # trevc: the substitutions -/

namespace TLA
open Finset Matrix Kernel
variable {L : Type} [DecidableEq L] {n k : Nat} {t : Nat → Nat → ℂ}

theorem cabs1_nonneg (z : ℂ) : 0 ≤ cabs1 z := add_nonneg (abs_nonneg _) (abs_nonneg _)

theorem cabs1_pos {z : ℂ} (h : z ≠ 0) : 0 < cabs1 z := by
  rcases lt_or_eq_of_le (cabs1_nonneg z) with q | q
  · exact q
  · exfalso
    unfold cabs1 at q
    have h1 := abs_nonneg z.re; have h2 := abs_nonneg z.im
    exact h (Complex.ext (abs_eq_zero.1 (by linarith)) (abs_eq_zero.1 (by linarith)))

theorem protDivC_pos {a b : ℂ} {sfmin sfmax : ℝ} (h : 0 < sfmax) (hb : b ≠ 0) : ∃ s, protDivC a b sfmin sfmax = some s ∧ 0 < s := by
  have hb := cabs1_pos hb
  unfold protDivC protDiv
  rw [abs_of_pos hb]
  have key : |2 * cabs1 a| > cabs1 b * sfmax → 0 < |2 * cabs1 a| := fun h' => lt_trans (mul_pos hb h) h'
  split_ifs with c1 c2 c3 c4
  · have := key c2
    exact ⟨_, by unfold dv; rw [if_neg this.ne'], div_pos (mul_pos hb h) this⟩
  · exact ⟨1, rfl, one_pos⟩
  · have := key c4
    exact ⟨_, by unfold dv; rw [if_neg this.ne'], div_pos one_pos this⟩
  · exact ⟨1, rfl, one_pos⟩
  · exact ⟨1, rfl, one_pos⟩

/-- For a zero divisor the scaling itself may be anything; it never fails. -/
theorem protDivC_some {a b : ℂ} {sfmin sfmax : ℝ} (h : 0 < sfmax) : ∃ s, protDivC a b sfmin sfmax = some s := by
  by_cases hb : b = 0
  · subst hb
    have h0 : cabs1 0 = 0 := by simp [cabs1]
    unfold protDivC protDiv
    rw [h0, abs_zero, zero_mul]
    have key : |2 * cabs1 a| > 0 → |2 * cabs1 a| ≠ 0 := fun h' => h'.ne'
    split_ifs with c1 c2 c3 c4
    · exact ⟨_, by unfold dv; rw [if_neg (key c2)]⟩
    · exact ⟨1, rfl⟩
    · exact ⟨_, by unfold dv; rw [if_neg (key c4)]⟩
    · exact ⟨1, rfl⟩
    · exact ⟨1, rfl⟩
  · obtain ⟨s, e, _⟩ := protDivC_pos (a := a) (sfmin := sfmin) h hb
    exact ⟨s, e⟩

theorem protUpd_pos (y t x sfmax : ℝ) : ∃ s, protUpd y t x sfmax = some s ∧ 0 < s := by
  unfold protUpd
  split_ifs with c1 c2
  · exact ⟨_, rfl, by norm_num⟩
  · exact ⟨_, rfl, by norm_num⟩
  · have hx : x ≠ 0 := by intro h; rw [h] at c1; exact c1 zero_le_one
    have hx2 : 2 * x ≠ 0 := mul_ne_zero two_ne_zero hx
    unfold dv
    rw [if_neg hx]
    simp only [Option.bind_eq_bind, Option.bind_some]
    split_ifs with c3
    · exact ⟨_, rfl, div_pos one_pos (by linarith [not_le.1 c1])⟩
    · exact ⟨1, rfl, one_pos⟩

/-- Invariant of the back substitution: rows from `i` on are solved. -/
structure BackInv (t : Nat → Nat → ℂ) (k i : Nat) (sc : ℝ) (x : Nat → ℂ) : Prop where
  pos : 0 < sc
  todo : ∀ j, j < i → x j = -((sc : ℂ) * t j k) - ∑ s ∈ Ico i k, t j s * x s
  done : ∀ j, i ≤ j → j < k → (t j j - t k k) * x j + ∑ s ∈ Ico (j + 1) k, t j s * x s + (sc : ℂ) * t j k = 0
  one : x k = 1
  zero : ∀ j, k < j → x j = 0

theorem BackInv.scale {i : Nat} {sc : ℝ} {x x' : Nat → ℂ} (h : BackInv t k i sc x) {s : ℝ} (hs : 0 < s) (hi : i ≤ k) (h1 : ∀ j, j < k → x' j = (s : ℂ) * x j) (h2 : ∀ j, k ≤ j → x' j = x j) :
    BackInv t k i (sc * s) x' := by
  have hsum : ∀ a j, ∑ r ∈ Ico a k, t j r * x' r = s * ∑ r ∈ Ico a k, t j r * x r := by
    intro a j
    rw [mul_sum]
    refine sum_congr rfl fun r hr => ?_
    rw [h1 r (mem_Ico.1 hr).2]; ring
  refine ⟨mul_pos h.pos hs, fun j hj => ?_, fun j hj1 hj2 => ?_, by rw [h2 k le_rfl, h.one], fun j hj => by rw [h2 j (by omega), h.zero j hj]⟩
  · rw [h1 j (by omega), h.todo j hj, hsum]; push_cast; ring
  · rw [hsum, h1 j hj2]
    have := h.done j hj1 hj2
    push_cast
    linear_combination (s : ℂ) * this

theorem BackInv.step {i : Nat} {sc : ℝ} {x x' : Nat → ℂ} (h : BackInv t k (i + 1) sc x) (hi : i < k) (hd : t i i - t k k ≠ 0)
    (h1 : x' i = x i / (t i i - t k k)) (h2 : ∀ j, j < i → x' j = x j - t j i * x' i) (h3 : ∀ j, i < j → x' j = x j) : BackInv t k i sc x' := by
  have hsum : ∀ a j, i < a → ∑ r ∈ Ico a k, t j r * x' r = ∑ r ∈ Ico a k, t j r * x r := by
    intro a j ha
    refine sum_congr rfl fun r hr => ?_
    rw [h3 r (by have := (mem_Ico.1 hr).1; omega)]
  refine ⟨h.pos, fun j hj => ?_, fun j hj1 hj2 => ?_, by rw [h3 k hi, h.one], fun j hj => by rw [h3 j (by omega), h.zero j hj]⟩
  · rw [h2 j hj, h.todo j (by omega), sum_eq_sum_Ico_succ_bot hi, hsum (i + 1) j (by omega)]; ring
  · rw [hsum (j + 1) j (by omega)]
    rcases Nat.eq_or_lt_of_le hj1 with rfl | q
    · rw [h1, mul_div_cancel₀ _ hd, h.todo i (by omega)]; ring
    · rw [h3 j q]; exact h.done j q hj2

theorem BackInv.ev {sc : ℝ} {x z : Nat → ℂ} (h : BackInv t k 0 sc x) (hk : k < n) (h1 : z k = (sc : ℂ)) (h2 : ∀ j, j < n → j ≠ k → z j = x j) : IsRightEv n t k z := by
  have zz : ∀ j, k < j → j < n → z j = 0 := fun j hj hjn => by rw [h2 j hjn (by omega), h.zero j hj]
  refine ⟨⟨sc, h.pos, h1⟩, zz, ?_⟩
  funext ⟨r, hr⟩
  show ∑ c : Fin n, triF .Upper .NonUnit t r c * z c = t k k * z r
  rw [Fin.sum_univ_eq_sum_range (fun c => triF .Upper .NonUnit t r c * z c) n]
  have tri : ∀ c, r < c → triF .Upper .NonUnit t r c = t r c := fun c hc => by
    unfold triF; rw [if_neg (by omega), if_pos (show inTri .Upper r c from by unfold inTri; simp; omega)]
  have low : ∀ c, c < r → triF .Upper .NonUnit t r c = 0 := fun c hc => by
    unfold triF; rw [if_neg (by omega), if_neg (show ¬ inTri .Upper r c from by unfold inTri; simp; omega)]
  have dia : triF .Upper .NonUnit t r r = t r r := by unfold triF; rw [if_pos rfl]
  rw [range_eq_Ico, ← sum_Ico_consecutive _ (Nat.zero_le r) hr.le]
  rw [sum_eq_zero (fun c hc => by rw [low c (mem_Ico.1 hc).2, zero_mul]), zero_add, sum_eq_sum_Ico_succ_bot hr, dia]
  by_cases q : k < r
  · rw [zz r q hr, mul_zero, mul_zero, zero_add]
    refine sum_eq_zero fun c hc => ?_
    have := mem_Ico.1 hc
    rw [zz c (by omega) (by omega), mul_zero]
  · rcases Nat.lt_or_eq_of_le (not_lt.1 q) with q | rfl
    · rw [← sum_Ico_consecutive _ (show r + 1 ≤ k by omega) hk.le, sum_eq_sum_Ico_succ_bot hk]
      rw [sum_eq_zero (s := Ico (k + 1) n) (fun c hc => by have := mem_Ico.1 hc; rw [zz c (by omega) (by omega), mul_zero]), add_zero, h1, tri k q,
        sum_congr rfl (fun c hc => by
          have := mem_Ico.1 hc
          rw [tri c (by omega), h2 c (by omega) (by omega)] :
          ∀ c ∈ Ico (r + 1) k, triF .Upper .NonUnit t r c * z c = t r c * x c), h2 r hr (by omega)]
      have := h.done r (Nat.zero_le _) q
      linear_combination this
    · rw [sum_eq_zero (fun c hc => by have := mem_Ico.1 hc; rw [zz c (by omega) (by omega), mul_zero]), add_zero]

/-! ## Loops over a vector -/

theorem wp_vloop {v : VecV L} {lo hi : Nat} (hle : lo ≤ hi) {g val : Nat → ℂ} {μ ν : Store L ℂ} {body : Nat → M L ℂ Unit} (h : VState v μ g ν)
    (hb : ∀ j ν', lo ≤ j → j < hi → VState v μ (fun i => if lo ≤ i ∧ i < j then val i else g i) ν' →
      wp (body j) ν' (fun _ => VState v μ (fun i => if lo ≤ i ∧ i < j + 1 then val i else g i))) :
    wp (forUp_ lo hi body) ν (fun _ => VState v μ (fun i => if lo ≤ i ∧ i < hi then val i else g i)) := by
  refine wp_forUp_ (fun j ν' => VState v μ (fun i => if lo ≤ i ∧ i < j then val i else g i) ν') hle ?_ (fun j ν' h1 h2 h3 => hb j ν' h1 h2 h3) fun _ h => h
  exact h.congr fun i _ => if_neg (by omega)

theorem wp_trevcScal {v : VecV L} (hv : v.Inj) {s : ℝ} {lo hi : Nat} (hle : lo ≤ hi) (hn : hi ≤ v.n) {g : Nat → ℂ} {μ ν : Store L ℂ} (h : VState v μ g ν) :
    wp (trevcScal v s lo hi) ν (fun _ => VState v μ (fun i => if lo ≤ i ∧ i < hi then (s : ℂ) * g i else g i)) := by
  unfold trevcScal
  refine wp_vloop hle h fun j ν' h1 h2 h3 => ?_
  simp only [wp_bind, wp_vget, wp_vset]
  refine ⟨by omega, by omega, h3.upd hv (by omega) fun i hi' => ?_⟩
  rw [h3.val j (by omega)]
  by_cases c : i = j
  · subst c; rw [if_pos (by omega), if_pos rfl, if_neg (by omega)]
  · rw [if_neg c]
    by_cases c2 : lo ≤ i ∧ i < j
    · rw [if_pos (by omega), if_pos c2]
    · rw [if_neg (by omega), if_neg c2]

theorem wp_trevcAxpy {T : MatV L} {v : VecV L} (hv : v.Inj) (hd : T.DisjV v) {a : ℂ → ℂ → ℂ → ℂ} {i : Nat} (hm : i ≤ T.m) (hc : i < T.n) (hn : i < v.n) {g : Nat → ℂ}
    {μ ν : Store L ℂ} (h : VState v μ g ν) :
    wp (forUp_ 0 i fun j => do
        let x ← v.get j
        let t ← T.get j i
        let xi ← v.get i
        v.set j (a x t xi) : M L ℂ Unit) ν (fun _ => VState v μ (fun j => if j < i then a (g j) (entry μ T j i) (g i) else g j)) := by
  refine wp_conseq (wp_vloop (val := fun j => a (g j) (entry μ T j i) (g i)) (Nat.zero_le i) h fun j ν' h1 h2 h3 => ?_) fun _ ν' h' => h'.congr fun j _ => by
    by_cases q : j < i
    · rw [if_pos q, if_pos (by omega)]
    · rw [if_neg q, if_neg (by omega)]
  simp only [wp_bind, wp_vget, wp_vset, wp_get]
  refine ⟨by omega, ⟨by omega, by omega⟩, by omega, by omega, h3.upd hv (by omega) fun i' hi' => ?_⟩
  rw [h3.val j (by omega), h3.val i (by omega), h3.read hd (by omega) (by omega)]
  by_cases c : i' = j
  · subst c; rw [if_pos (by omega), if_pos rfl, if_neg (by omega), if_neg (by omega)]; rfl
  · rw [if_neg c]
    by_cases c2 : 0 ≤ i' ∧ i' < j
    · rw [if_pos (by omega), if_pos c2]
    · rw [if_neg (by omega), if_neg c2]

variable {isReal : Bool} {isinf : ℝ → Bool} {smin smax sfmin sfmax : ℝ} {pr : DivPar}

theorem ventry_vs {v : VecV L} {g : Nat → ℂ} {μ ν : Store L ℂ} (h : VState v μ g ν) {i : Nat} (hi : i < v.n) : ν (v.cell i) = g i := h.val i hi

set_option maxHeartbeats 1000000 in
theorem wp_trevcBackStep (hu : pr.u ≠ 0) (hsf : 0 < sfmax) {T : MatV L} {v : VecV L} {colN : RArr} (hv : v.Inj) (hd : T.DisjV v) (tm : T.m = n) (tn : T.n = n) (vn : v.n = n)
    (cn : colN.n = n) (hk : k < n) {i : Nat} (hi : i < k) {sc : ℝ} {x : Nat → ℂ} {μ ν : Store L ℂ} (hne : entry μ T i i ≠ entry μ T k k) (h : VState v μ x ν)
    (hb : BackInv (entry μ T) k (i + 1) sc x) :
    wp (trevcBackStep (hetOps isReal isinf smin smax) pr sfmin sfmax T v k colN (entry μ T k k) i sc) ν (fun sc' ν' => ∃ x', VState v μ x' ν' ∧ BackInv (entry μ T) k i sc' x') := by
  obtain ⟨t, ht⟩ : ∃ t, t = entry μ T := ⟨_, rfl⟩
  have hdn : t i i - t k k ≠ 0 := by rw [ht]; exact sub_ne_zero.2 hne
  unfold trevcBackStep
  simp only [wp_bind, wp_get, wp_vget, wp_vset]
  refine ⟨⟨by omega, by omega⟩, by omega, ?_⟩
  rw [h.read hd (by omega) (by omega), h.val i (by omega)]
  have rt : μ (T.cell i i) = t i i := by rw [ht]; rfl
  rw [← ht] at hb ⊢
  rw [rt]
  obtain ⟨s1, e1, p1⟩ := protDivC_pos (a := x i) (sfmin := sfmin) hsf hdn
  refine wp_liftO_some e1 ?_
  refine wp_liftO_some (C50_ladiv hu _ hdn) ?_
  refine ⟨by omega, ?_⟩
  have g0 := h.upd hv (i := i) (v := (s1 : ℂ) * x i / (t i i - t k k)) (g' := fun j => if j = i then (s1 : ℂ) * x i / (t i i - t k k) else x j) (by omega) fun _ _ => rfl
  -- after the first scaling
  have g1 : ∀ ν', VState v μ (fun j => if j = i then (s1 : ℂ) * x i / (t i i - t k k) else x j) ν' →
      wp (if s1 ≠ 1 then do
          trevcScal v s1 0 i
          trevcScal v s1 (i + 1) k
          pure (sc * s1)
        else pure sc : M L ℂ ℝ) ν' (fun r ν2 => r = sc * s1 ∧ VState v μ (fun j => if j = i then (s1 : ℂ) * x i / (t i i - t k k) else if j < k then (s1 : ℂ) * x j else x j) ν2) := by
    intro ν' h'
    by_cases q : s1 ≠ 1
    · rw [if_pos q]
      simp only [wp_bind]
      refine wp_conseq (wp_trevcScal hv (Nat.zero_le _) (by omega) h') ?_
      intro _ ν2 h2
      refine wp_conseq (wp_trevcScal hv (by omega) (by omega) h2) ?_
      intro _ ν3 h3
      refine ⟨rfl, h3.congr fun j hj => ?_⟩
      by_cases c : j = i
      · subst c; rw [if_pos rfl, if_neg (by omega), if_neg (by omega), if_pos rfl]
      · rw [if_neg c]
        by_cases c2 : j < k
        · rw [if_pos c2]
          by_cases c3 : j < i
          · rw [if_neg (by omega), if_pos (by omega), if_neg c]
          · rw [if_pos (by omega), if_neg (by omega), if_neg c]
        · rw [if_neg c2, if_neg (by omega), if_neg (by omega), if_neg c]
    · rw [if_neg q]
      have : s1 = 1 := not_not.1 q
      subst this
      refine ⟨by ring, h'.congr fun j _ => ?_⟩
      by_cases c : j = i
      · rw [if_pos c, if_pos c]
      · rw [if_neg c, if_neg c]; split_ifs <;> simp
  refine wp_conseq (g1 _ g0) ?_
  rintro _ ν2 ⟨rfl, h2⟩
  obtain ⟨y, hy⟩ : ∃ y, y = fun j => if j = i then (s1 : ℂ) * x i / (t i i - t k k) else if j < k then (s1 : ℂ) * x j else x j := ⟨_, rfl⟩
  rw [← hy] at h2
  have b1 : BackInv t k (i + 1) (sc * s1) (fun j => if j < k then (s1 : ℂ) * x j else x j) :=
    hb.scale p1 (by omega) (fun j hj => if_pos hj) fun j hj => if_neg (by omega)
  have b2 : BackInv t k i (sc * s1) (fun j => if j < i then y j - t j i * y i else y j) := by
    have yi : y i = (s1 : ℂ) * x i / (t i i - t k k) := by rw [hy]; exact if_pos rfl
    have yj : ∀ j, j ≠ i → y j = if j < k then (s1 : ℂ) * x j else x j := fun j hj => by rw [hy]; exact if_neg hj
    refine b1.step hi hdn ?_ (fun j hj => ?_) fun j hj => ?_
    · beta_reduce; rw [if_neg (by omega), if_pos (by omega), yi]
    · beta_reduce; rw [if_pos hj, if_neg (lt_irrefl i), yj j (by omega)]
    · beta_reduce; rw [if_neg (by omega), yj j (by omega)]
  by_cases ci : 0 < i
  · rw [if_pos ci]
    simp only [wp_bind]
    refine wp_vslice (by omega) (by omega) ?_
    refine wp_conseq (wp_iamaxD (isReal := isReal) (isinf := isinf) (safeMin := smin) (safeMax := smax) (x := v.sub 0 i) (by show 0 < i - 0; omega)) ?_
    rintro ivm _ ⟨rfl, hivm, -⟩
    have hivm : ivm < i - 0 := hivm
    simp only [wp_vget, RArr.get]
    refine ⟨by omega, ?_⟩
    rw [if_pos (by omega)]
    simp only [wp_pure]
    refine ⟨by omega, ?_⟩
    obtain ⟨s2, e2, p2⟩ := protUpd_pos (cabs1 (ν2 (v.cell ivm))) (colN.f i) (cabs1 (ν2 (v.cell i))) sfmax
    refine wp_liftO_some e2 ?_
    by_cases q : s2 ≠ 1
    · rw [if_pos q]
      simp only [wp_bind]
      refine wp_conseq (wp_trevcAxpy hv hd (a := fun x t xi => (s2 : ℂ) * x - t * ((s2 : ℂ) * xi)) (by omega) (by omega) (by omega) h2) ?_
      intro _ ν3 h3
      refine wp_conseq (wp_trevcScal hv (by omega) (by omega) h3) ?_
      intro _ ν4 h4
      refine ⟨_, h4, b2.scale p2 (by omega) (fun j hj => ?_) fun j hj => ?_⟩
      · beta_reduce
        by_cases c : j < i
        · rw [if_neg (by omega), if_pos c, if_pos c, ht]; ring
        · rw [if_pos (by omega), if_neg c, if_neg c]
      · beta_reduce
        rw [if_neg (show ¬ (i ≤ j ∧ j < k) by omega), if_neg (show ¬ j < i by omega), if_neg (show ¬ j < i by omega)]
    · rw [if_neg q]
      simp only [wp_bind]
      refine wp_conseq (wp_trevcAxpy hv hd (a := fun x t xi => x - t * xi) (by omega) (by omega) (by omega) h2) ?_
      intro _ ν3 h3
      refine ⟨_, h3, ?_⟩
      rw [ht] at b2 ⊢
      exact b2
  · rw [if_neg ci]
    refine ⟨y, h2, ?_⟩
    have e : (fun j => if j < i then y j - t j i * y i else y j) = y := by funext j; rw [if_neg (by omega)]
    rw [e] at b2
    exact b2

theorem wp_vfill {T : MatV L} {v : VecV L} (hv : v.Inj) (hd : T.DisjV v) {lo hi : Nat} (hle : lo ≤ hi) (hn : hi ≤ v.n) {g val : Nat → ℂ} {μ ν : Store L ℂ}
    {r c : Nat → Nat} (hr : ∀ j, lo ≤ j → j < hi → r j < T.m ∧ c j < T.n) {f : ℂ → ℂ} (h : VState v μ g ν) :
    wp (forUp_ lo hi fun i => do
        let t ← T.get (r i) (c i)
        v.set i (f t) : M L ℂ Unit) ν (fun _ => VState v μ (fun i => if lo ≤ i ∧ i < hi then f (entry μ T (r i) (c i)) else g i)) := by
  refine wp_vloop hle h fun j ν' h1 h2 h3 => ?_
  simp only [wp_bind, wp_get, wp_vset]
  refine ⟨hr j h1 h2, by omega, h3.upd hv (by omega) fun i hi' => ?_⟩
  rw [h3.read hd (hr j h1 h2).1 (hr j h1 h2).2]
  by_cases q : i = j
  · subst q; rw [if_pos (by omega), if_pos rfl]; rfl
  · rw [if_neg q]
    by_cases c2 : lo ≤ i ∧ i < j
    · rw [if_pos (by omega), if_pos c2]
    · rw [if_neg (by omega), if_neg c2]

theorem wp_vzero {v : VecV L} (hv : v.Inj) {lo hi : Nat} (hle : lo ≤ hi) (hn : hi ≤ v.n) {g : Nat → ℂ} {μ ν : Store L ℂ} (h : VState v μ g ν) :
    wp (forUp_ lo hi fun i => v.set i 0 : M L ℂ Unit) ν (fun _ => VState v μ (fun i => if lo ≤ i ∧ i < hi then 0 else g i)) := by
  refine wp_vloop hle h fun j ν' h1 h2 h3 => ?_
  simp only [wp_vset]
  refine ⟨by omega, h3.upd hv (by omega) fun i hi' => ?_⟩
  by_cases q : i = j
  · subst q; rw [if_pos (by omega), if_pos rfl]
  · rw [if_neg q]
    by_cases c2 : lo ≤ i ∧ i < j
    · rw [if_pos (by omega), if_pos c2]
    · rw [if_neg (by omega), if_neg c2]

/-- The arguments of a substitution. -/
structure SubstOK (n : Nat) (T : MatV L) (v : VecV L) (colN : RArr) : Prop where
  hv : v.Inj
  hd : T.DisjV v
  tm : T.m = n
  tn : T.n = n
  vn : v.n = n
  cn : colN.n = n

/-- The back substitution up to its loop; the loop is entered with the invariant. -/
theorem wp_trevcBack_gen (I : ℝ → (Nat → ℂ) → Prop) {T : MatV L} {v : VecV L} {colN : RArr} (ok : SubstOK n T v colN) (hk : k < n) {μ : Store L ℂ} {Q E}
    (hloop : ∀ ν x, VState v μ x ν → BackInv (entry μ T) k k 1 x → wp (forUp 0 k (1 : ℝ) fun ii scale =>
      trevcBackStep (hetOps isReal isinf smin smax) pr sfmin sfmax T v k colN (entry μ T k k) (k - 1 - ii) scale) ν
        (fun sc ν' => ∃ x', VState v μ x' ν' ∧ BackInv (entry μ T) k 0 sc x' ∧ I sc x') E)
    (hQ : ∀ ν z sc x, I sc x → VState v μ z ν → IsRightEv n (entry μ T) k z → Q () ν) :
    wp (trevcBack (hetOps isReal isinf smin smax) pr sfmin sfmax T v k colN) μ Q E := by
  obtain ⟨hv, hd, tm, tn, vn, cn⟩ := ok
  unfold trevcBack
  simp only [wp_bind, wp_check, tm, tn, vn]
  simp only [hk, decide_true, if_true]
  refine wp_mono (wp_vfill (val := fun _ => 0) hv hd (Nat.zero_le k) (by omega) (r := fun i => i) (c := fun _ => k) (f := fun t => -t) (fun j _ h => ⟨by omega, by omega⟩)
    (VState.start v μ)) ?_ (fun _ _ h => h.elim)
  intro _ ν1 h1
  refine wp_vsetE (by omega) ?_
  have h2 := h1.upd hv (i := k) (v := 1) (g' := fun j => if j = k then 1 else if 0 ≤ j ∧ j < k then -(entry μ T j k) else ventry μ v j) (by omega) fun _ _ => rfl
  refine wp_mono (wp_vzero hv (by omega) (by omega) h2) ?_ (fun _ _ h => h.elim)
  intro _ ν3 h3
  refine wp_getE ⟨by omega, by omega⟩ ?_
  rw [h3.read hd (by omega) (by omega)]
  have b0 : BackInv (entry μ T) k k 1 (fun j => if j < k then -(entry μ T j k) else if j = k then 1 else 0) := by
    refine ⟨one_pos, fun j hj => ?_, fun j h1 h2 => by omega, ?_, fun j hj => ?_⟩
    · beta_reduce; rw [if_pos hj]; simp
    · beta_reduce; rw [if_neg (lt_irrefl k), if_pos rfl]
    · beta_reduce; rw [if_neg (by omega), if_neg (by omega)]
  refine wp_mono (hloop ν3 (fun j => if j < k then -(entry μ T j k) else if j = k then 1 else 0) (h3.congr fun j hj => ?_) b0) ?_ (fun _ _ h => h)
  · by_cases c : j < k
    · rw [if_pos c, if_neg (by omega), if_neg (by omega), if_pos (by omega)]
    · rw [if_neg c]
      by_cases c2 : j = k
      · rw [if_pos c2, if_neg (by omega), if_pos c2]
      · rw [if_neg c2, if_pos (by omega)]
  · rintro sc ν4 ⟨x, h4, b4, hI⟩
    refine wp_vgetE (by omega) ?_
    rw [h4.val k (by omega), b4.one, mul_one]
    refine wp_vsetE (by omega) (hQ _ _ sc x hI (h4.upd hv (g' := fun j => if j = k then (sc : ℂ) else x j) (by omega) fun _ _ => rfl) ?_)
    exact b4.ev hk (if_pos rfl) fun j _ hj => if_neg hj

theorem wp_trevcBack (hu : pr.u ≠ 0) (hsf : 0 < sfmax) {T : MatV L} {v : VecV L} {colN : RArr} (ok : SubstOK n T v colN) (hk : k < n) {μ : Store L ℂ}
    (hne : ∀ i, i < k → entry μ T i i ≠ entry μ T k k) :
    wp (trevcBack (hetOps isReal isinf smin smax) pr sfmin sfmax T v k colN) μ (fun _ ν => ∃ z, VState v μ z ν ∧ IsRightEv n (entry μ T) k z) := by
  refine wp_trevcBack_gen (fun _ _ => True) ok hk (fun ν x h hb => ?_) fun ν z _ _ _ h hz => ⟨z, h, hz⟩
  refine wp_forUp (fun ii sc ν' => ∃ x', VState v μ x' ν' ∧ BackInv (entry μ T) k (k - ii) sc x') (Nat.zero_le k) ⟨x, h, hb⟩ ?_ fun sc ν' ⟨x', h1, h2⟩ => ⟨x', h1, by rwa [Nat.sub_self] at h2, trivial⟩
  rintro ii sc ν' _ hii ⟨x', h', b'⟩
  rw [show k - ii = k - 1 - ii + 1 by omega] at b'
  refine wp_conseq (wp_trevcBackStep (i := k - 1 - ii) hu hsf ok.hv ok.hd ok.tm ok.tn ok.vn ok.cn hk (by omega) (hne _ (by omega)) h' b') ?_
  rintro sc' ν2 ⟨x2, h2, b2⟩
  exact ⟨x2, h2, by rwa [show k - 1 - ii = k - (ii + 1) by omega] at b2⟩

/-- With a repeated eigenvalue the back substitution divides by zero. -/
theorem wp_trevcBack_fail (hu : pr.u ≠ 0) (hsf : 0 < sfmax) {T : MatV L} {v : VecV L} {colN : RArr} (ok : SubstOK n T v colN) (hk : k < n) {μ : Store L ℂ}
    {i0 : Nat} (h0 : i0 < k) (he : entry μ T i0 i0 = entry μ T k k) (hmax : ∀ i, i0 < i → i < k → entry μ T i i ≠ entry μ T k k) :
    wp (trevcBack (hetOps isReal isinf smin smax) pr sfmin sfmax T v k colN) μ (fun _ _ => False) (fun e _ => e = .divz) := by
  have key : ∀ ν x, VState v μ x ν → BackInv (entry μ T) k k 1 x → wp (forUp 0 k (1 : ℝ) fun ii scale =>
      trevcBackStep (hetOps isReal isinf smin smax) pr sfmin sfmax T v k colN (entry μ T k k) (k - 1 - ii) scale) ν (fun _ _ => False) (fun e _ => e = .divz) := by
    intro ν x h hb
    refine wp_forUp (fun ii sc ν' => ii ≤ k - 1 - i0 ∧ ∃ x', VState v μ x' ν' ∧ BackInv (entry μ T) k (k - ii) sc x') (Nat.zero_le k) ⟨by omega, x, h, hb⟩ ?_
      (fun sc ν' h => by have := h.1; omega)
    rintro ii sc ν' _ hii ⟨hi0, x', h', b'⟩
    by_cases c : ii = k - 1 - i0
    · have e : k - 1 - ii = i0 := by omega
      rw [e]
      unfold trevcBackStep
      simp only [wp_bind]
      refine wp_getE ⟨by rw [ok.tm]; omega, by rw [ok.tn]; omega⟩ ?_
      refine wp_vgetE (by rw [ok.vn]; omega) ?_
      rw [h'.read ok.hd (by rw [ok.tm]; omega) (by rw [ok.tn]; omega)]
      have e0 : μ (T.cell i0 i0) - entry μ T k k = 0 := sub_eq_zero.2 he
      rw [e0]
      obtain ⟨s1, e1⟩ := protDivC_some (a := ν' (v.cell i0)) (b := 0) (sfmin := sfmin) hsf
      refine wp_liftO_some e1 ?_
      rw [C50_ladiv_zero]
      rfl
    · rw [show k - ii = k - 1 - ii + 1 by omega] at b'
      refine wp_mono (wp_trevcBackStep (i := k - 1 - ii) hu hsf ok.hv ok.hd ok.tm ok.tn ok.vn ok.cn hk (by omega) (hmax _ (by omega) (by omega)) h' b') ?_ (fun _ _ h => h.elim)
      rintro sc' ν2 ⟨x2, h2, b2⟩
      exact ⟨by omega, x2, h2, by rwa [show k - 1 - ii = k - (ii + 1) by omega] at b2⟩
  exact wp_trevcBack_gen (fun _ _ => False) ok hk (fun ν x h hb => wp_mono (key ν x h hb) (fun _ _ h => h.elim) fun _ _ h => h) fun _ _ _ _ h => h.elim

end TLA
