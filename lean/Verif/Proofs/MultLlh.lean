import Verif.Proofs.Lauum

set_option linter.unusedTactic false
set_option linter.unreachableTactic false

/-! mult_llh and mult_uhu. -/

namespace TLA
variable {L T : Type} [DecidableEq L]
open Finset

theorem upd_twice (μ : Store L T) (l : L) (v w : T) : upd (upd μ l v) l w = upd μ l w := by
  funext x; unfold upd; by_cases h : x = l <;> simp [h]

theorem upd_here (μ : Store L T) (l : L) (v : T) : upd μ l v l = v := by simp [upd]

theorem upd_at (μ : Store L T) {l l' : L} (v : T) (h : l' ≠ l) : upd μ l v l' = μ l' := by
  simp [upd, h]

/-- A loop accumulating into one cell. -/
theorem wp_accUp {body : Nat → M L T Unit} {lo hi : Nat} {ν : Store L T} {l : L} {s0 : T}
    (F : Nat → T → T) (hle : lo ≤ hi)
    (hb : ∀ k s, lo ≤ k → k < hi → wp (body k) (upd ν l s) (fun _ ν' => ν' = upd ν l (F k s))) :
    wp (forUp_ lo hi body) (upd ν l s0) (fun _ ν' => ν' = upd ν l (foldUp lo hi s0 F)) := by
  refine wp_forUp_ (fun k ν' => ν' = upd ν l (foldUp lo k s0 F)) hle (by simp) ?_ (fun _ h => h)
  rintro k _ h1 h2 rfl
  rw [foldUp_succ h1]
  exact hb k _ h1 h2

theorem wp_accDown {body : Nat → M L T Unit} {lo hi : Nat} {ν : Store L T} {l : L} {s0 : T}
    (F : Nat → T → T) (hle : lo ≤ hi)
    (hb : ∀ k s, lo ≤ k → k < hi → wp (body k) (upd ν l s) (fun _ ν' => ν' = upd ν l (F k s))) :
    wp (forDown_ lo hi body) (upd ν l s0) (fun _ ν' => ν' = upd ν l (foldDown lo hi s0 F)) := by
  refine wp_forDown_ (fun k ν' => ν' = upd ν l (foldDown k hi s0 F)) hle (by simp) ?_ (fun _ h => h)
  rintro k _ h1 h2 rfl
  rw [foldDown_bot h2]
  exact hb k _ h1 h2

theorem foldUp0_sum [AddCommMonoid T] (n : Nat) (s : T) (f : Nat → T) :
    foldUp 0 n s (fun k s => s + f k) = s + ∑ k ∈ range n, f k := by
  induction n with
  | zero => simp
  | succ n ih => rw [foldUp_succ (Nat.zero_le _), ih, sum_range_succ, add_assoc]

theorem foldDown0_sum [AddCommMonoid T] (n : Nat) (s : T) (f : Nat → T) :
    foldDown 0 n s (fun k s => s + f k) = s + ∑ k ∈ range n, f k := by
  induction n generalizing s with
  | zero => simp
  | succ n ih =>
    have := ih (s + f n)
    unfold foldDown at this ⊢
    simp only [Nat.sub_zero] at this ⊢
    rw [foldDownN, Nat.zero_add, this, sum_range_succ, add_assoc, add_comm (f n)]

variable [Field T] [StarRing T] [ReIm T] [ExactScalar T] [RealOps T]

/-- Entry `(r,c)`, `c ≤ r`, of `L Lᴴ`. -/
def llhVal (a : Nat → Nat → T) (r c : Nat) : T := ∑ k ∈ range (c + 1), a r k * star (a c k)

omit [DecidableEq L] [ReIm T] [ExactScalar T] [RealOps T] in
theorem llhVal_eq (a : Nat → Nat → T) (r c : Nat) :
    llhVal a r c = a r c * star (a c c) + ∑ k ∈ range c, a r k * star (a c k) := by
  unfold llhVal; rw [sum_range_succ, add_comm]

theorem wp_multLlhBase {A : MatV L} {n : Nat} (hA : A.Inj) (hm : A.m = n) (hn : A.n = n)
    (μ : Store L T) :
    wp (multLlhBase A n) μ (fun _ ν => MState A μ
      (fun r c => if c ≤ r then llhVal (entry μ A) r c else entry μ A r c) ν) := by
  unfold multLlhBase
  refine wp_forDown_ (fun j ν => MState A μ (fun r c => if j ≤ r ∧ c ≤ r then
      llhVal (entry μ A) r c else entry μ A r c) ν) (Nat.zero_le _)
    ((MState.start A μ).congr (fun i j hi hj => by rw [if_neg (by omega)])) ?_
    (fun ν h => h.congr (fun i j _ _ => by simp))
  intro j ν _ hj hν
  simp only [wp_bind]
  refine wp_getE ⟨by omega, by omega⟩ ?_
  refine wp_conseq (wp_sumLoop (fun k s => s + entry μ A j k * star (entry μ A j k))
    (Nat.zero_le _) ?_) ?_
  · intro k s _ hk
    simp only [wp_bind]
    refine wp_getE ⟨by omega, by omega⟩ ?_
    rw [wp_pure, norm_sq_eq]
    have : ν (A.cell j k) = entry μ A j k := hν.at j k (by omega) (by omega) (if_neg (by omega))
    rw [this]
    exact ⟨rfl, rfl⟩
  rintro s ν' ⟨rfl, rfl⟩
  rw [wp_set]
  refine ⟨⟨by omega, by omega⟩, ?_⟩
  have hjj : ν' (A.cell j j) = entry μ A j j := hν.at j j (by omega) (by omega) (if_neg (by omega))
  rw [hjj, norm_sq_eq, foldUp0_sum, ← llhVal_eq]
  have h1 := hν.upd (G' := fun r c => if j < r ∧ c ≤ r ∨ r = j ∧ c = j then
      llhVal (entry μ A) r c else entry μ A r c) hA (i := j) (j := j) (v := llhVal (entry μ A) j j)
      (by omega) (by omega) (fun r c _ _ => by
        by_cases h : r = j ∧ c = j
        · obtain ⟨rfl, rfl⟩ := h; rw [if_pos (Or.inr ⟨rfl, rfl⟩), if_pos ⟨rfl, rfl⟩]
        · rw [if_neg h]; ifs)
  refine wp_forDown_ (fun i ν => MState A μ (fun r c => if j < r ∧ c ≤ r ∨ r = j ∧ i ≤ c ∧ c ≤ j then
      llhVal (entry μ A) r c else entry μ A r c) ν) (Nat.zero_le _)
    (h1.congr (fun r c _ _ => by ifs)) ?_
    (fun ν h => h.congr (fun r c _ _ => by ifs))
  clear h1 hν hjj
  intro i ν _ hi hν
  simp only [wp_bind]
  refine wp_getE ⟨by omega, by omega⟩ ?_
  rw [wp_modify]
  refine ⟨⟨by omega, by omega⟩, ?_⟩
  have e1 : ν (A.cell i i) = entry μ A i i := hν.at i i (by omega) (by omega) (if_neg (by omega))
  have e2 : ν (A.cell j i) = entry μ A j i := hν.at j i (by omega) (by omega) (if_neg (by omega))
  rw [e1, e2]
  refine wp_conseq (wp_accUp (fun k s => s + entry μ A j k * star (entry μ A i k))
    (Nat.zero_le _) ?_) ?_
  · intro k s _ hk
    have n1 : A.cell j k ≠ A.cell j i := fun h => by
      have := hA _ _ _ _ (by omega) (by omega) (by omega) (by omega) h; omega
    have n2 : A.cell i k ≠ A.cell j i := fun h => by
      have := hA _ _ _ _ (by omega) (by omega) (by omega) (by omega) h; omega
    simp only [wp_bind]
    refine wp_getE ⟨by omega, by omega⟩ ?_
    refine wp_getE ⟨by omega, by omega⟩ ?_
    rw [wp_modify]
    refine ⟨⟨by omega, by omega⟩, ?_⟩
    rw [upd_at _ _ n1, upd_at _ _ n2, upd_twice, upd_here,
      hν.at j k (by omega) (by omega) (if_neg (by omega)),
      hν.at i k (by omega) (by omega) (if_neg (by omega))]
  rintro _ _ rfl
  rw [foldUp0_sum, ← llhVal_eq]
  exact hν.upd hA (by omega) (by omega) (fun r c _ _ => by
        by_cases h : r = j ∧ c = i
        · obtain ⟨rfl, rfl⟩ := h; rw [if_pos (by omega), if_pos ⟨rfl, rfl⟩]
        · rw [if_neg h]; ifs)

/-- Entry `(r,c)`, `r ≤ c`, of `Uᴴ U`. -/
def uhuVal (a : Nat → Nat → T) (r c : Nat) : T := ∑ k ∈ range (r + 1), star (a k r) * a k c

omit [DecidableEq L] [ReIm T] [ExactScalar T] [RealOps T] in
theorem uhuVal_eq (a : Nat → Nat → T) (r c : Nat) :
    uhuVal a r c = star (a r r) * a r c + ∑ k ∈ range r, star (a k r) * a k c := by
  unfold uhuVal; rw [sum_range_succ, add_comm]

theorem wp_multUhuBase {A : MatV L} {n : Nat} (hA : A.Inj) (hm : A.m = n) (hn : A.n = n)
    (μ : Store L T) :
    wp (multUhuBase A n) μ (fun _ ν => MState A μ
      (fun r c => if r ≤ c then uhuVal (entry μ A) r c else entry μ A r c) ν) := by
  unfold multUhuBase
  refine wp_forDown_ (fun j ν => MState A μ (fun r c => if j ≤ c ∧ r ≤ c then
      uhuVal (entry μ A) r c else entry μ A r c) ν) (Nat.zero_le _)
    ((MState.start A μ).congr (fun i j hi hj => by rw [if_neg (by omega)])) ?_
    (fun ν h => h.congr (fun i j _ _ => by simp))
  intro j ν _ hj hν
  simp only [wp_bind]
  refine wp_getE ⟨by omega, by omega⟩ ?_
  refine wp_conseq (wp_sumLoop (fun k s => s + star (entry μ A k j) * entry μ A k j)
    (Nat.zero_le _) ?_) ?_
  · intro k s _ hk
    simp only [wp_bind]
    refine wp_getE ⟨by omega, by omega⟩ ?_
    rw [wp_pure, norm_sq_eq, mul_comm (ν _)]
    have : ν (A.cell k j) = entry μ A k j := hν.at k j (by omega) (by omega) (if_neg (by omega))
    rw [this]
    exact ⟨rfl, rfl⟩
  rintro s ν' ⟨rfl, rfl⟩
  rw [wp_set]
  refine ⟨⟨by omega, by omega⟩, ?_⟩
  have hjj : ν' (A.cell j j) = entry μ A j j := hν.at j j (by omega) (by omega) (if_neg (by omega))
  rw [hjj, norm_sq_eq, foldUp0_sum, mul_comm, ← uhuVal_eq]
  have h1 := hν.upd (G' := fun r c => if j < c ∧ r ≤ c ∨ r = j ∧ c = j then
      uhuVal (entry μ A) r c else entry μ A r c) hA (i := j) (j := j) (v := uhuVal (entry μ A) j j)
      (by omega) (by omega) (fun r c _ _ => by
        by_cases h : r = j ∧ c = j
        · obtain ⟨rfl, rfl⟩ := h; rw [if_pos (Or.inr ⟨rfl, rfl⟩), if_pos ⟨rfl, rfl⟩]
        · rw [if_neg h]; ifs)
  refine wp_forDown_ (fun i ν => MState A μ (fun r c => if j < c ∧ r ≤ c ∨ c = j ∧ i ≤ r ∧ r ≤ j then
      uhuVal (entry μ A) r c else entry μ A r c) ν) (Nat.zero_le _)
    (h1.congr (fun r c _ _ => by ifs)) ?_
    (fun ν h => h.congr (fun r c _ _ => by ifs))
  clear h1 hν hjj
  intro i ν _ hi hν
  simp only [wp_bind]
  refine wp_getE ⟨by omega, by omega⟩ ?_
  rw [wp_modify]
  refine ⟨⟨by omega, by omega⟩, ?_⟩
  have e1 : ν (A.cell i i) = entry μ A i i := hν.at i i (by omega) (by omega) (if_neg (by omega))
  have e2 : ν (A.cell i j) = entry μ A i j := hν.at i j (by omega) (by omega) (if_neg (by omega))
  rw [e1, e2]
  refine wp_conseq (wp_accDown (fun k s => s + star (entry μ A k i) * entry μ A k j)
    (Nat.zero_le _) ?_) ?_
  · intro k s _ hk
    have n1 : A.cell k i ≠ A.cell i j := fun h => by
      have := hA _ _ _ _ (by omega) (by omega) (by omega) (by omega) h; omega
    have n2 : A.cell k j ≠ A.cell i j := fun h => by
      have := hA _ _ _ _ (by omega) (by omega) (by omega) (by omega) h; omega
    simp only [wp_bind]
    refine wp_getE ⟨by omega, by omega⟩ ?_
    refine wp_getE ⟨by omega, by omega⟩ ?_
    rw [wp_modify]
    refine ⟨⟨by omega, by omega⟩, ?_⟩
    rw [upd_at _ _ n1, upd_at _ _ n2, upd_twice, upd_here,
      hν.at k i (by omega) (by omega) (if_neg (by omega)),
      hν.at k j (by omega) (by omega) (if_neg (by omega))]
  rintro _ _ rfl
  rw [foldDown0_sum, ← uhuVal_eq]
  exact hν.upd hA (by omega) (by omega) (fun r c _ _ => by
        by_cases h : r = i ∧ c = j
        · obtain ⟨rfl, rfl⟩ := h; rw [if_pos (by omega), if_pos ⟨rfl, rfl⟩]
        · rw [if_neg h]; ifs)

omit [RealOps T] in
theorem hermRes_of_val {u : Uplo} (hu : u = .Upper ∨ u = .Lower) {A : MatV L} {n k : Nat}
    {ν : Store L T} {F : Nat → Nat → T}
    (hv : ∀ i j, i < n → j < n → inTri u i j →
      entry ν A i j = ∑ l ∈ range k, F i l * star (F j l)) :
    HermRes u A n ν (mat n k F * (mat n k F).conjTranspose) := by
  have hs : ∀ i j, star (∑ l ∈ range k, F i l * star (F j l)) = ∑ l ∈ range k, F j l * star (F i l) := by
    intro i j
    rw [star_sum]
    refine Finset.sum_congr rfl (fun l _ => ?_)
    rw [star_mul', star_star, mul_comm]
  have hr : ∀ i, inTri u i i := by rcases hu with rfl | rfl <;> exact fun i => le_refl i
  refine ⟨fun i hi => by rw [hv i i hi hi (hr i), hs], ?_⟩
  rw [mat_conjTranspose, mat_mul, mat_ext_iff]
  intro i j hi hj
  unfold hermF
  by_cases e : i = j
  · subst e
    rw [if_pos rfl, ExactScalar.re_of_star _ (by rw [hv i i hi hi (hr i), hs]), hv i i hi hi (hr i)]
  · rw [if_neg e]
    by_cases ht : inTri u i j
    · rw [if_pos ht, hv i j hi hj ht]
    · rw [if_neg ht, hv j i hj hi (by
        rcases hu with rfl | rfl <;> exact Nat.le_of_lt (Nat.lt_of_not_le ht)), hs]

omit [DecidableEq L] [ReIm T] [ExactScalar T] [RealOps T] in
theorem llhVal_full (a : Nat → Nat → T) {n r c : Nat} (hr : r < n) (hc : c ≤ r) :
    llhVal a r c = ∑ l ∈ range n, triF .Lower .NonUnit a r l * star (triF .Lower .NonUnit a c l) := by
  unfold llhVal
  refine (Finset.sum_subset_zero_on_sdiff (g := fun l => triF .Lower .NonUnit a r l *
    star (triF .Lower .NonUnit a c l)) (fun x hx => ?_) (fun l hl => ?_) (fun l hl => ?_))
  · rw [mem_range] at hx ⊢; omega
  · simp only [mem_sdiff, mem_range] at hl
    have : triF .Lower .NonUnit a c l = 0 := by
      unfold triF; rw [if_neg (by omega)]; exact if_neg (show ¬ l ≤ c by omega)
    rw [this, star_zero, mul_zero]
  · rw [mem_range] at hl
    have h : ∀ x, l ≤ x → triF .Lower .NonUnit a x l = a x l := by
      intro x hx
      unfold triF
      by_cases e : x = l
      · subst e; rw [if_pos rfl]
      · rw [if_neg e]; exact if_pos hx
    rw [h r (by omega), h c (by omega)]

omit [DecidableEq L] [ReIm T] [ExactScalar T] [RealOps T] in
theorem uhuVal_full (a : Nat → Nat → T) {n r c : Nat} (hr : c < n) (hc : r ≤ c) :
    uhuVal a r c = ∑ l ∈ range n, starT (triF .Upper .NonUnit a) r l *
      star (starT (triF .Upper .NonUnit a) c l) := by
  unfold uhuVal
  refine (Finset.sum_subset_zero_on_sdiff (g := fun l => starT (triF .Upper .NonUnit a) r l *
      star (starT (triF .Upper .NonUnit a) c l)) (fun x hx => ?_) (fun l hl => ?_) (fun l hl => ?_))
  · rw [mem_range] at hx ⊢; omega
  · simp only [mem_sdiff, mem_range] at hl
    have : triF .Upper .NonUnit a l r = 0 := by
      unfold triF; rw [if_neg (by omega)]; exact if_neg (show ¬ l ≤ r by omega)
    simp only [starT]
    rw [this, star_zero, zero_mul]
  · rw [mem_range] at hl
    have h : ∀ x, l ≤ x → triF .Upper .NonUnit a l x = a l x := by
      intro x hx
      unfold triF
      by_cases e : l = x
      · subst e; rw [if_pos rfl]
      · rw [if_neg e]; exact if_pos hx
    simp only [starT]
    rw [h r (by omega), h c (by omega), star_star]

theorem MState.sameOff_tri {A : MatV L} {u : Uplo} {μ ν : Store L T} {V : Nat → Nat → T}
    (h : MState A μ (fun r c => if inTri u r c then V r c else entry μ A r c) ν) :
    SameOff A u μ ν := by
  intro l hl
  by_cases ho : A.Owns l
  · obtain ⟨i, j, hi, hj, rfl⟩ := ho
    refine h.at i j hi hj (if_neg (fun ht => hl i j hi hj ht rfl))
  · exact h.frame l ho

/-- mult_llh, every threshold `nx ≥ 1`. -/
theorem wp_multLlh {nx : Nat} (hnx : 1 ≤ nx) (s : Nat) :
    ∀ (C : MatV L) (μ : Store L T), C.m = s → C.n = s → C.Inj →
      wp (multLlh nx C) μ (fun _ ν => SameOff C .Lower μ ν ∧
        HermRes .Lower C s ν (mat s s (triF .Lower .NonUnit (entry μ C)) *
          (mat s s (triF .Lower .NonUnit (entry μ C))).conjTranspose)) := by
  induction s using Nat.strong_induction_on with
  | _ s ih =>
    intro C μ hm hn hC
    rw [multLlh]
    simp only [wp_bind]
    rw [wp_check, if_pos (by simp; omega), wp_check, if_pos (by simp; omega)]
    by_cases h0 : s = 0
    · subst h0
      rw [if_pos hm]
      exact ⟨SameOff.refl, fun i hi => absurd hi (by omega), by ext i; exact i.elim0⟩
    rw [if_neg (by omega)]
    by_cases h1 : s ≤ nx
    · rw [dif_pos (by omega), hm]
      refine wp_conseq (wp_multLlhBase hC hm hn μ) ?_
      intro _ ν h
      exact ⟨MState.sameOff_tri (u := .Lower) (h.congr (fun _ _ _ _ => if_congr Iff.rfl rfl rfl)),
        hermRes_of_val (Or.inr rfl) (fun i j hi hj ht =>
          (h.at i j (by omega) (by omega) (if_pos ht)).trans (llhVal_full _ hi ht))⟩
    rw [dif_neg (by omega)]
    simp only [hm]
    obtain ⟨a, ha⟩ : ∃ a, s / 2 = a := ⟨_, rfl⟩
    obtain ⟨b, hb⟩ : ∃ b, s = a + b := ⟨s - a, by omega⟩
    rw [ha]
    have hab : 0 < a ∧ 0 < b := by omega
    clear ha h0 h1
    subst hb
    simp only [wp_bind]
    refine wp_sliceChk (by omega) (by omega) (by omega) (by omega) ?_
    refine wp_slice (by omega) (by omega) (by omega) (by omega) ?_
    refine wp_sliceChk (by omega) (by omega) (by omega) (by omega) ?_
    refine wp_conseq (ih b (by omega) (C.sub a (a + b) a (a + b)) μ (by simp [MatV.sub])
        (by simp [MatV.sub]) (hC.sub (by omega) (by omega))) ?_
    rintro _ ν1 ⟨o1, r1⟩
    have c1 : ∀ i j, i < a + b → j < a + b → (i < a ∨ j < a) → entry ν1 C i j = entry μ C i j :=
      fun i j hi hj ho => o1.only.out hC (by omega) (by omega) (by omega) (by omega) (by omega)
    refine wp_conseq (wp_herk_m (n := b) (k := a) ⟨Or.inr (Or.inl rfl), Or.inl rfl, by simp [MatV.sub],
        by simp [MatV.sub], rfl, rfl, by simp [MatV.sub], by simp [MatV.sub],
        hC.sub (by omega) (by omega),
        hC.disj_sub (by omega) (by omega) (by omega) (by omega) (by omega),
        hC.disj_sub (by omega) (by omega) (by omega) (by omega) (by omega)⟩ (Or.inr rfl) (by simp)
        (by simp [Coef.toVal])) ?_
    rintro _ ν2 ⟨o2, d2, e2⟩
    have c2 : ∀ i j, i < a + b → j < a + b → (i < a ∨ j < a) → entry ν2 C i j = entry ν1 C i j :=
      fun i j hi hj ho => o2.only.out hC (by omega) (by omega) (by omega) (by omega) (by omega)
    refine wp_conseq (wp_trmmR_m (m := b) (n := a) (by simp [MatV.sub]) (by simp [MatV.sub])
        ⟨Or.inr rfl, Or.inr rfl, by decide, by simp [MatV.sub], by simp [MatV.sub],
        hC.sub (by omega) (by omega),
        hC.disj_sub (by omega) (by omega) (by omega) (by omega) (by omega)⟩) ?_
    rintro _ ν3 ⟨o3, e3⟩
    have c3 : ∀ i j, i < a + b → j < a + b → (a ≤ j ∨ i < a) → entry ν3 C i j = entry ν2 C i j :=
      fun i j hi hj ho => o3.out hC (by omega) (by omega) (by omega) (by omega) (by omega)
    refine wp_conseq (ih a (by omega) (C.sub 0 a 0 a) ν3 (by simp [MatV.sub])
        (by simp [MatV.sub]) (hC.sub (by omega) (by omega))) ?_
    rintro _ ν4 ⟨o4, r4⟩
    have c4 : ∀ i j, i < a + b → j < a + b → (a ≤ i ∨ a ≤ j) → entry ν4 C i j = entry ν3 C i j :=
      fun i j hi hj ho => o4.only.out hC (by omega) (by omega) (by omega) (by omega) (by omega)
    have so : SameOff C .Lower μ ν4 :=
        (((o1.sub (Or.inr rfl) (by omega) (by omega)).trans (o2.sub (Or.inr rfl) (by omega) (by omega))).trans
          (o3.sameOff (by omega) (by omega) (fun i j _ _ _ _ => show j ≤ i by omega))).trans
          (o4.sub (Or.inr rfl) (by omega) (by omega))
    simp only [sh_entry, sh_zero] at e2 e3
    have r1' := r1.eq
    have r4' := r4.eq
    simp only [sh_entry, sh_zero] at r1' r4'
    have f01 : mat a b (sh 0 a (triF .Lower .NonUnit (entry μ C))) = 0 := triL_01 _ _ _ _
    have f10 : mat b a (sh a 0 (triF .Lower .NonUnit (entry μ C))) = mat b a (sh a 0 (entry μ C)) :=
      triL_10 _ _ _ _
    have f11 : sh a a (triF .Lower .NonUnit (entry μ C)) = triF .Lower .NonUnit (sh a a (entry μ C)) :=
      triF_sh (Or.inr rfl) .NonUnit a (entry μ C)
    have m10 : mat b a (sh a 0 (entry ν1 C)) = mat b a (sh a 0 (entry μ C)) := by
      rw [mat_ext_iff]; intro i j hi hj; exact c1 _ _ (by omega) (by omega) (by omega)
    have m10' : mat b a (sh a 0 (entry ν2 C)) = mat b a (sh a 0 (entry μ C)) := by
      rw [mat_ext_iff]; intro i j hi hj
      exact (c2 _ _ (by omega) (by omega) (by omega)).trans (c1 _ _ (by omega) (by omega) (by omega))
    have tri : ∀ ξ : Store L T, (∀ i j, i < a → j < a → entry ξ C i j = entry μ C i j) →
        mat a a (triF .Lower .NonUnit (entry ξ C)) =
          mat a a (triF .Lower .NonUnit (entry μ C)) := fun ξ hξ =>
        mat_triF_congr (fun _ i hi => hξ i i hi hi) (fun i j hi hj _ _ => hξ i j hi hj)
    have t2 := tri ν2 (fun i j hi hj => (c2 _ _ (by omega) (by omega) (by omega)).trans
      (c1 _ _ (by omega) (by omega) (by omega)))
    have t3 := tri ν3 (fun i j hi hj => ((c3 _ _ (by omega) (by omega) (by omega)).trans
      (c2 _ _ (by omega) (by omega) (by omega))).trans
      (c1 _ _ (by omega) (by omega) (by omega)))
    refine ⟨so, hermRes_blocks (Or.inr rfl) (fun i hi => ?_) ?_ ?_ ?_⟩
    · by_cases hia : i < a
      · have := r4.diag i hia
        rw [sh_entry, sh_zero] at this
        exact this
      · rw [c4 i i hi hi (by omega), c3 i i hi hi (by omega)]
        have := d2 (i - a) (by omega)
        rw [sh_entry] at this
        simpa [sh, show a + (i - a) = i by omega] using this
    · rw [r4', mul_ct_inner, f01, Matrix.zero_mul, add_zero, t3]
    · have hk : mat b b (hermF .Lower (sh a a (entry ν4 C))) = mat b b (hermF .Lower (sh a a (entry ν2 C))) :=
          mat_hermF_congr (Or.inr rfl) (fun i j hi hj _ =>
            (c4 _ _ (by omega) (by omega) (by omega)).trans (c3 _ _ (by omega) (by omega) (by omega)))
      rw [hk, e2, r1', mul_ct_inner, f10, sh_sh, Nat.add_zero, Nat.zero_add, f11, Coef.toVal, one_smul, one_smul]
      congr 1
      show mat b a (sh a 0 (entry ν1 C)) * (mat b a (sh a 0 (entry ν1 C))).conjTranspose = _
      rw [m10]
    · rw [if_neg (by decide), mul_ct_inner, f10, f01, Matrix.conjTranspose_zero, Matrix.mul_zero, add_zero]
      have h01 : mat b a (sh a 0 (entry ν4 C)) = mat b a (sh a 0 (entry ν3 C)) := by
          rw [mat_ext_iff]; intro i j hi hj; exact c4 _ _ (by omega) (by omega) (by omega)
      rw [h01, e3, one_smul, m10']
      congr 1
      show (mat a a (triF .Lower .NonUnit (entry ν2 C))).conjTranspose = _
      rw [t2]

/-- mult_uhu, every threshold `nx ≥ 1`. -/
theorem wp_multUhu {nx : Nat} (hnx : 1 ≤ nx) (s : Nat) :
    ∀ (C : MatV L) (μ : Store L T), C.m = s → C.n = s → C.Inj →
      wp (multUhu nx C) μ (fun _ ν => SameOff C .Upper μ ν ∧
        HermRes .Upper C s ν (mat s s (starT (triF .Upper .NonUnit (entry μ C))) *
          (mat s s (starT (triF .Upper .NonUnit (entry μ C)))).conjTranspose)) := by
  induction s using Nat.strong_induction_on with
  | _ s ih =>
    intro C μ hm hn hC
    rw [multUhu]
    simp only [wp_bind]
    rw [wp_check, if_pos (by simp; omega), wp_check, if_pos (by simp; omega)]
    by_cases h0 : s = 0
    · subst h0
      rw [if_pos hm]
      exact ⟨SameOff.refl, fun i hi => absurd hi (by omega), by ext i; exact i.elim0⟩
    rw [if_neg (by omega)]
    by_cases h1 : s ≤ nx
    · rw [dif_pos (by omega), hm]
      refine wp_conseq (wp_multUhuBase hC hm hn μ) ?_
      intro _ ν h
      exact ⟨MState.sameOff_tri (u := .Upper) (h.congr (fun _ _ _ _ => if_congr Iff.rfl rfl rfl)),
        hermRes_of_val (Or.inl rfl) (fun i j hi hj ht =>
          (h.at i j (by omega) (by omega) (if_pos ht)).trans (uhuVal_full _ hj ht))⟩
    rw [dif_neg (by omega)]
    simp only [hm]
    obtain ⟨a, ha⟩ : ∃ a, s / 2 = a := ⟨_, rfl⟩
    obtain ⟨b, hb⟩ : ∃ b, s = a + b := ⟨s - a, by omega⟩
    rw [ha]
    have hab : 0 < a ∧ 0 < b := by omega
    clear ha h0 h1
    subst hb
    simp only [wp_bind]
    refine wp_sliceChk (by omega) (by omega) (by omega) (by omega) ?_
    refine wp_slice (by omega) (by omega) (by omega) (by omega) ?_
    refine wp_sliceChk (by omega) (by omega) (by omega) (by omega) ?_
    refine wp_conseq (ih b (by omega) (C.sub a (a + b) a (a + b)) μ (by simp [MatV.sub])
        (by simp [MatV.sub]) (hC.sub (by omega) (by omega))) ?_
    rintro _ ν1 ⟨o1, r1⟩
    have c1 : ∀ i j, i < a + b → j < a + b → (i < a ∨ j < a) → entry ν1 C i j = entry μ C i j :=
      fun i j hi hj ho => o1.only.out hC (by omega) (by omega) (by omega) (by omega) (by omega)
    refine wp_conseq (wp_herk_m (n := b) (k := a) ⟨Or.inl rfl, Or.inr rfl, by simp [MatV.sub],
        by simp [MatV.sub], rfl, rfl, by simp [MatV.sub], by simp [MatV.sub],
        hC.sub (by omega) (by omega),
        hC.disj_sub (by omega) (by omega) (by omega) (by omega) (by omega),
        hC.disj_sub (by omega) (by omega) (by omega) (by omega) (by omega)⟩ (Or.inl rfl) (by simp)
        (by simp [Coef.toVal])) ?_
    rintro _ ν2 ⟨o2, d2, e2⟩
    have c2 : ∀ i j, i < a + b → j < a + b → (i < a ∨ j < a) → entry ν2 C i j = entry ν1 C i j :=
      fun i j hi hj ho => o2.only.out hC (by omega) (by omega) (by omega) (by omega) (by omega)
    refine wp_conseq (wp_trmmL_m (m := a) (n := b) (by simp [MatV.sub]) (by simp [MatV.sub])
        ⟨Or.inl rfl, Or.inl rfl, by decide, by simp [MatV.sub], by simp [MatV.sub],
        hC.sub (by omega) (by omega),
        hC.disj_sub (by omega) (by omega) (by omega) (by omega) (by omega)⟩) ?_
    rintro _ ν3 ⟨o3, e3⟩
    have c3 : ∀ i j, i < a + b → j < a + b → (a ≤ i ∨ j < a) → entry ν3 C i j = entry ν2 C i j :=
      fun i j hi hj ho => o3.out hC (by omega) (by omega) (by omega) (by omega) (by omega)
    refine wp_conseq (ih a (by omega) (C.sub 0 a 0 a) ν3 (by simp [MatV.sub])
        (by simp [MatV.sub]) (hC.sub (by omega) (by omega))) ?_
    rintro _ ν4 ⟨o4, r4⟩
    have c4 : ∀ i j, i < a + b → j < a + b → (a ≤ i ∨ a ≤ j) → entry ν4 C i j = entry ν3 C i j :=
      fun i j hi hj ho => o4.only.out hC (by omega) (by omega) (by omega) (by omega) (by omega)
    have so : SameOff C .Upper μ ν4 :=
        (((o1.sub (Or.inl rfl) (by omega) (by omega)).trans (o2.sub (Or.inl rfl) (by omega) (by omega))).trans
          (o3.sameOff (by omega) (by omega) (fun i j _ _ _ _ => show i ≤ j by omega))).trans
          (o4.sub (Or.inl rfl) (by omega) (by omega))
    simp only [sh_entry, sh_zero] at e2 e3
    have r1' := r1.eq
    have r4' := r4.eq
    simp only [sh_entry, sh_zero] at r1' r4'
    have f01 : mat a b (sh 0 a (starT (triF .Upper .NonUnit (entry μ C)))) = 0 := by
      rw [sh_starT, mat_starT, triU_10, Matrix.conjTranspose_zero]
    have f10 : mat b a (sh a 0 (starT (triF .Upper .NonUnit (entry μ C)))) =
        (mat a b (sh 0 a (entry μ C))).conjTranspose := by
      rw [sh_starT, mat_starT, triU_01]
    have f11 : sh a a (starT (triF .Upper .NonUnit (entry μ C))) =
        starT (triF .Upper .NonUnit (sh a a (entry μ C))) := by
      rw [sh_starT, triF_sh (Or.inl rfl) .NonUnit a (entry μ C)]
    have m10 : mat a b (sh 0 a (entry ν1 C)) = mat a b (sh 0 a (entry μ C)) := by
      rw [mat_ext_iff]; intro i j hi hj; exact c1 _ _ (by omega) (by omega) (by omega)
    have m10' : mat a b (sh 0 a (entry ν2 C)) = mat a b (sh 0 a (entry μ C)) := by
      rw [mat_ext_iff]; intro i j hi hj
      exact (c2 _ _ (by omega) (by omega) (by omega)).trans (c1 _ _ (by omega) (by omega) (by omega))
    have tri : ∀ ξ : Store L T, (∀ i j, i < a → j < a → entry ξ C i j = entry μ C i j) →
        mat a a (triF .Upper .NonUnit (entry ξ C)) =
          mat a a (triF .Upper .NonUnit (entry μ C)) := fun ξ hξ =>
        mat_triF_congr (fun _ i hi => hξ i i hi hi) (fun i j hi hj _ _ => hξ i j hi hj)
    have t2 := tri ν2 (fun i j hi hj => (c2 _ _ (by omega) (by omega) (by omega)).trans
      (c1 _ _ (by omega) (by omega) (by omega)))
    have t3 := tri ν3 (fun i j hi hj => ((c3 _ _ (by omega) (by omega) (by omega)).trans
      (c2 _ _ (by omega) (by omega) (by omega))).trans
      (c1 _ _ (by omega) (by omega) (by omega)))
    refine ⟨so, hermRes_blocks (Or.inl rfl) (fun i hi => ?_) ?_ ?_ ?_⟩
    · by_cases hia : i < a
      · have := r4.diag i hia
        rw [sh_entry, sh_zero] at this
        exact this
      · rw [c4 i i hi hi (by omega), c3 i i hi hi (by omega)]
        have := d2 (i - a) (by omega)
        rw [sh_entry] at this
        simpa [sh, show a + (i - a) = i by omega] using this
    · rw [r4', mul_ct_inner, f01, Matrix.zero_mul, add_zero, mat_starT, mat_starT, t3]
    · have hk : mat b b (hermF .Upper (sh a a (entry ν4 C))) = mat b b (hermF .Upper (sh a a (entry ν2 C))) :=
          mat_hermF_congr (Or.inl rfl) (fun i j hi hj _ =>
            (c4 _ _ (by omega) (by omega) (by omega)).trans (c3 _ _ (by omega) (by omega) (by omega)))
      rw [hk, e2, r1', mul_ct_inner, f10, sh_sh, Nat.add_zero, Nat.zero_add, f11, Coef.toVal, one_smul, one_smul]
      congr 1
      show (mat a b (sh 0 a (entry ν1 C))).conjTranspose * ((mat a b (sh 0 a (entry ν1 C))).conjTranspose).conjTranspose = _
      rw [m10]
    · rw [if_pos rfl, mul_ct_inner, f10, f01, Matrix.zero_mul, add_zero]
      have h01 : mat a b (sh 0 a (entry ν4 C)) = mat a b (sh 0 a (entry ν3 C)) := by
          rw [mat_ext_iff]; intro i j hi hj; exact c4 _ _ (by omega) (by omega) (by omega)
      rw [h01, e3, one_smul, m10', Matrix.conjTranspose_conjTranspose]
      congr 1
      show (mat a a (triF .Upper .NonUnit (entry ν2 C))).conjTranspose = _
      rw [t2, mat_starT]

end TLA
