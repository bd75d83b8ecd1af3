import Verif.Model.Lu
import Verif.Proofs.LuAlg
import Verif.Proofs.Raise
import Verif.Props.Iamax
import Verif.Props.Scaling

/-! Proofs about getrf. -/

set_option linter.unusedTactic false
set_option linter.unreachableTactic false
set_option linter.unusedSectionVars false

namespace TLA
open Finset
variable {L T : Type} [DecidableEq L]

theorem wp_iset {p : IArr} {i v : Nat} {μ : Store L T} {Q E} (h : i < p.n)
    (hQ : Q ⟨p.n, fun k => if k = i then v else p.f k⟩ μ) : wp (p.set i v : M L T IArr) μ Q E := by
  unfold IArr.set; rw [if_pos h]; exact hQ

theorem wp_iget {p : IArr} {i : Nat} {μ : Store L T} {Q E} (h : i < p.n)
    (hQ : Q (p.f i) μ) : wp (p.get i : M L T Nat) μ Q E := by
  unfold IArr.get; rw [if_pos h]; exact hQ

theorem wp_islice {p : IArr} {a b : Nat} {μ : Store L T} {Q E} (h : a ≤ b) (hb : b ≤ p.n)
    (hQ : Q (p.sub a b) μ) : wp (p.slice a b : M L T IArr) μ Q E := by
  unfold IArr.slice; rw [if_pos ⟨by omega, hb, h⟩]; exact hQ

/-- One exchange of rows as vectors. -/
theorem wp_swapRowsV {A : MatV L} {μ0 μ : Store L T} {G : Nat → Nat → T} {i p : Nat} (hA : A.Inj)
    (h : MState A μ0 G μ) (hi : i < A.m) (hp : p < A.m) (hne : p ≠ i) :
    wp (swapRowsV A i p) μ (fun _ ν => MState A μ0 (fun r c => G (Equiv.swap i p r) c) ν) := by
  unfold swapRowsV
  simp only [wp_bind]
  refine wp_sliceRow hi (Nat.zero_le _) (le_refl _) ?_
  refine wp_sliceRow hp (Nat.zero_le _) (le_refl _) ?_
  have hd : (A.rowv i 0 A.n).Disj (A.rowv p 0 A.n) := by
    rintro j hj ⟨j', hj', e⟩
    simp only [MatV.rowv] at hj hj' e
    have := hA _ _ _ _ hp (by omega) hi (by omega) e
    omega
  refine wp_conseq (wp_swap (hA.rowv hi (le_refl _)) (hA.rowv hp (le_refl _)) rfl hd) ?_
  rintro _ ν ⟨h1, h2, h3⟩
  refine ⟨fun r c hr hc => ?_, fun l hl => ?_⟩
  · have e1 := h1 c (by simpa [MatV.rowv] using hc)
    have e2 := h2 c (by simpa [MatV.rowv] using hc)
    simp only [ventry, MatV.rowv, Nat.zero_add] at e1 e2
    by_cases hri : r = i
    · subst hri
      rw [e1, Equiv.swap_apply_left, h.val p c hp hc]
    · by_cases hrp : r = p
      · subst hrp
        rw [e2, Equiv.swap_apply_right, h.val i c hi hc]
      · rw [Equiv.swap_apply_of_ne_of_ne hri hrp, ← h.val r c hr hc]
        refine h3 _ ?_ ?_
        · rintro ⟨j', hj', e⟩
          simp only [MatV.rowv] at hj' e
          have := hA _ _ _ _ hi (by omega) hr hc e
          omega
        · rintro ⟨j', hj', e⟩
          simp only [MatV.rowv] at hj' e
          have := hA _ _ _ _ hp (by omega) hr hc e
          omega
  · rw [h3 l (fun ho => hl (ho.rowv hi (le_refl _))) (fun ho => hl (ho.rowv hp (le_refl _))), h.frame l hl]

/-- All the exchanges of a pivot array. -/
theorem wp_rowSwaps {A : MatV L} {μ : Store L T} {piv : IArr} {k : Nat} (hA : A.Inj) (hk : k ≤ piv.n)
    (hkm : k ≤ A.m) (hp : ∀ j, j < k → piv.f j < A.m) :
    wp (rowSwaps A piv k) μ
      (fun _ ν => MState A μ (fun r c => entry μ A (pivPerm piv.f k r) c) ν) := by
  unfold rowSwaps
  refine wp_forUp_ (fun j ν => MState A μ (fun r c => entry μ A (pivPerm piv.f j r) c) ν)
    (Nat.zero_le _) (MState.init A μ _ (fun _ _ _ _ => rfl)) ?_ (fun _ h => h)
  intro j ν _ hj hν
  simp only [wp_bind]
  refine wp_iget (by omega) ?_
  by_cases e : piv.f j = j
  · rw [if_neg (by simpa using e)]
    rw [wp_pure]
    refine hν.congr (fun r c _ _ => ?_)
    rw [pivPerm_succ, e, Equiv.swap_self]; rfl
  · rw [if_pos e]
    exact wp_conseq (wp_swapRowsV hA hν (by omega) (hp j hj) e) (fun _ _ h => h)

/-- The elementwise exchange. -/
theorem wp_swapRowsLoop [Zero T] [One T] [Add T] [Mul T] [Sub T] [Neg T] [Div T] [Star T] [ReIm T]
    [DecidableEq T] {A : MatV L} {μ0 μ : Store L T} {G : Nat → Nat → T} {n j p : Nat} (hA : A.Inj)
    (h : MState A μ0 G μ) (hn : A.n = n) (hj : j < A.m) (hp : p < A.m) :
    wp (swapRowsLoop A n j p) μ (fun _ ν => MState A μ0 (fun r c => G (Equiv.swap j p r) c) ν) := by
  subst hn
  unfold swapRowsLoop
  by_cases e : p = j
  · rw [if_neg (by simpa using e)]
    subst e
    rw [wp_pure]
    exact h.congr (fun r c _ _ => by rw [Equiv.swap_self]; rfl)
  · rw [if_pos e]
    refine wp_forUp_ (fun i ν => MState A μ0 (fun r c => if c < i then G (Equiv.swap j p r) c
      else G r c) ν) (Nat.zero_le _) (h.congr (fun _ _ _ _ => by simp)) ?_
      (fun ν h => h.congr (fun r c _ hc => by rw [if_pos hc]))
    intro i ν _ hi hν
    simp only [wp_bind]
    refine wp_getE ⟨hj, hi⟩ ?_
    refine wp_getE ⟨hp, hi⟩ ?_
    rw [wp_set]
    refine ⟨⟨hj, hi⟩, ?_⟩
    rw [wp_set]
    refine ⟨⟨hp, hi⟩, ?_⟩
    rw [hν.at p i hp hi (if_neg (lt_irrefl i)), hν.at j i hj hi (if_neg (lt_irrefl i))]
    have h1 := hν.upd (G' := fun r c => if r = j ∧ c = i then G p i else
      if c < i then G (Equiv.swap j p r) c else G r c) hA hj hi (fun _ _ _ _ => rfl)
    refine h1.upd hA hp hi (fun r c _ _ => ?_)
    by_cases hc : c = i
    · subst hc
      rw [if_pos (by omega), if_neg (show ¬ c < c by omega)]
      by_cases hrp : r = p
      · subst hrp; rw [if_pos ⟨rfl, rfl⟩, Equiv.swap_apply_right]
      · rw [if_neg (by tauto)]
        by_cases hrj : r = j
        · subst hrj; rw [if_pos ⟨rfl, rfl⟩, Equiv.swap_apply_left]
        · rw [if_neg (by tauto), Equiv.swap_apply_of_ne_of_ne hrj hrp]
    · rw [if_neg (show ¬ (r = p ∧ c = i) by tauto), if_neg (show ¬ (r = j ∧ c = i) by tauto)]
      exact if_congr (by omega) rfl rfl

section level0
variable [Field T] [StarRing T] [ReIm T] [DecidableEq T] {R : Type} [Field R] [LinearOrder R]

theorem wp_pivSearch {abs1 : T → R} {A : MatV L} {μ : Store L T} {j : Nat}
    (hj : j < A.m) (hjn : j < A.n) :
    wp (pivSearch abs1 A A.m j) μ (fun p ν => ν = μ ∧ j ≤ p ∧ p < A.m ∧
      ∀ i, j ≤ i → i < A.m → abs1 (entry μ A i j) ≤ abs1 (entry μ A p j)) := by
  unfold pivSearch
  refine wp_forUp (fun i p ν => ν = μ ∧ j ≤ p ∧ p < i ∧
      ∀ i', j ≤ i' → i' < i → abs1 (entry μ A i' j) ≤ abs1 (entry μ A p j)) (by omega)
    ⟨rfl, le_refl _, by omega, fun i h1 h2 => ?_⟩ ?_ (fun _ _ h => h)
  · obtain rfl : i = j := by omega
    exact le_refl _
  rintro i p ν h1 h2 ⟨rfl, h3, h4, h5⟩
  simp only [wp_bind]
  refine wp_getE ⟨h2, hjn⟩ ?_
  refine wp_getE ⟨by omega, hjn⟩ ?_
  rw [wp_pure]
  refine ⟨rfl, ?_⟩
  by_cases hg : abs1 (ν (A.cell i j)) > abs1 (ν (A.cell p j))
  · rw [if_pos hg]
    refine ⟨by omega, by omega, fun i' hi hi' => ?_⟩
    by_cases e : i' = i
    · subst e; exact le_refl _
    · exact (h5 i' hi (by omega)).trans hg.le
  · rw [if_neg hg]
    refine ⟨h3, by omega, fun i' hi hi' => ?_⟩
    by_cases e : i' = i
    · subst e; exact not_lt.1 hg
    · exact h5 i' hi (by omega)

theorem wp_luElim {A : MatV L} {μ0 μ : Store L T} {G : Nat → Nat → T} {j : Nat} (hA : A.Inj)
    (h : MState A μ0 G μ) (hj : j < A.m) (hjn : j < A.n) :
    wp (luElim A A.m A.n j) μ (fun _ ν => MState A μ0 (fun i c => if j < i then
      (if c = j then G i j / G j j else if j < c then G i c - G i j / G j j * G j c else G i c)
      else G i c) ν) := by
  unfold luElim
  simp only [wp_bind]
  refine wp_conseq (wp_colLoop (j := j) (fun i => G i j / G j j) h hA hjn (le_refl _) (by omega) ?_) ?_
  · intro i ν h1 h2 hν
    simp only [wp_bind]
    refine wp_getE ⟨hj, hjn⟩ ?_
    rw [wp_modify]
    refine ⟨⟨h2, hjn⟩, ?_⟩
    rw [hν.at j j hj hjn (if_neg (by omega)), hν.at i j h2 hjn (if_neg (by omega))]
  intro _ ν1 hν1
  refine wp_forUp_ (fun r ν => MState A μ0 (fun i c => if j < i then
      (if c = j then G i j / G j j else if j < c ∧ i < r then G i c - G i j / G j j * G j c else G i c)
      else G i c) ν) (by omega) (hν1.congr (fun i c hi _ => ?_)) ?_
      (fun ν h => h.congr (fun i c hi _ => ?_))
  · by_cases h1 : j < i
    · rw [if_pos h1]
      by_cases h2 : c = j
      · rw [if_pos h2, if_pos (by omega)]
      · rw [if_neg h2, if_neg (by omega), if_neg (by omega)]
    · rw [if_neg h1, if_neg (by omega)]
  rotate_left
  · by_cases h1 : j < i
    · rw [if_pos h1, if_pos h1]
      exact if_congr Iff.rfl rfl (if_congr (by omega) rfl rfl)
    · rw [if_neg h1, if_neg h1]
  intro r ν h1 h2 hν
  refine wp_conseq (wp_rowLoop (i := r) (fun c => G r c - G r j / G j j * G j c) hν hA h2 (le_refl _)
    (by omega) ?_) ?_
  · intro c ν h3 h4 hν
    simp only [wp_bind]
    refine wp_getE ⟨h2, hjn⟩ ?_
    refine wp_getE ⟨hj, h4⟩ ?_
    rw [wp_modify]
    refine ⟨⟨h2, h4⟩, ?_⟩
    rw [hν.at r j h2 hjn (v := G r j / G j j)
        (by rw [if_neg (by omega), if_pos (by omega), if_pos rfl]),
      hν.at j c hj h4 (v := G j c) (by rw [if_neg (by omega), if_neg (by omega)]),
      hν.at r c h2 h4 (v := G r c)
        (by rw [if_neg (by omega), if_pos (by omega), if_neg (by omega), if_neg (by omega)])]
  · intro _ ν hν
    refine hν.congr (fun i c hi hc => ?_)
    by_cases e : i = r
    · subst e
      rw [if_pos (by omega : j < i)]
      by_cases h5 : c = j
      · rw [if_pos h5, if_neg (by omega), if_pos (by omega), if_pos h5]
      · rw [if_neg h5]
        by_cases h6 : j < c
        · rw [if_pos (by omega), if_pos (by omega)]
        · rw [if_neg (by omega), if_neg (by omega), if_pos (by omega), if_neg h5, if_neg (by omega)]
    · rw [if_neg (show ¬ (i = r ∧ j + 1 ≤ c ∧ c < A.n) by omega)]
      by_cases h1 : j < i
      · rw [if_pos h1, if_pos h1]
        exact if_congr Iff.rfl rfl (if_congr (by omega) rfl rfl)
      · rw [if_neg h1, if_neg h1]

/-- What a getrf variant guarantees; `bd` bounds the multipliers. -/
structure LuPost (A : MatV L) (bd : T → Prop) (piv0 : IArr) (μ : Store L T) (r : Nat × IArr)
    (ν : Store L T) : Prop where
  only : Only A μ ν
  pn : r.2.n = piv0.n
  keep : ∀ j, min A.m A.n ≤ j → r.2.f j = piv0.f j
  ok : r.1 = 0 → (∀ j, j < min A.m A.n → j ≤ r.2.f j ∧ r.2.f j < A.m) ∧
    LuPart A.m A.n (min A.m A.n) (entry μ A) (pivPerm r.2.f (min A.m A.n)) (entry ν A) ∧
    (∀ j, j < min A.m A.n → entry ν A j j ≠ 0) ∧
    ∀ i j, i < A.m → j < min A.m A.n → j < i → bd (entry ν A i j)
  fail : ∀ j, r.1 = j + 1 → j < min A.m A.n ∧ ColsIndep A.m j (entry μ A) ∧ ColDep A.m j (entry μ A)

/-- State of getrf_level0 before column `j`. -/
structure Lu0Inv (A : MatV L) (bd : T → Prop) (piv0 : IArr) (μ : Store L T) (j : Nat) (piv : IArr)
    (ν : Store L T) : Prop where
  only : Only A μ ν
  pn : piv.n = piv0.n
  keep : ∀ i, j ≤ i → piv.f i = piv0.f i
  range : ∀ i, i < j → i ≤ piv.f i ∧ piv.f i < A.m
  part : LuPart A.m A.n j (entry μ A) (pivPerm piv.f j) (entry ν A)
  diag : ∀ i, i < j → entry ν A i i ≠ 0
  bnd : ∀ i c, i < A.m → c < j → c < i → bd (entry ν A i c)

theorem wp_getrfLevel0 {abs1 : T → R} {bd : T → Prop} {A : MatV L} {piv : IArr} {μ : Store L T}
    (hA : A.Inj) (hp : min A.m A.n ≤ piv.n)
    (h0 : ∀ a : T, abs1 a ≤ abs1 0 → a = 0)
    (hbd : ∀ a b : T, abs1 a ≤ abs1 b → b ≠ 0 → bd (a / b)) :
    wp (getrfLevel0 abs1 A piv) μ (fun r ν => LuPost A bd piv μ r ν) := by
  unfold getrfLevel0
  simp only [wp_bind, wp_check]
  rw [if_pos (by simpa using hp)]
  by_cases hmn : A.m = 0 ∨ A.n = 0
  · rw [if_pos hmn, wp_pure]
    have hk : min A.m A.n = 0 := by rcases hmn with h | h <;> simp [h]
    refine ⟨.refl, rfl, fun _ _ => rfl, fun _ => ⟨fun j hj => by omega, ?_, fun j hj => by omega,
      fun i j _ hj => by omega⟩, fun j hj => by simp at hj⟩
    rw [hk]
    exact LuPart.zero _ _ _ _
  rw [if_neg hmn]
  simp only [wp_bind]
  refine wp_forRet (Q := fun r ν => wp (match r with
      | Sum.inr x => pure x
      | Sum.inl piv => pure (0, piv)) ν (fun r ν => LuPost A bd piv μ r ν))
    (fun j q ν => Lu0Inv A bd piv μ j q ν) (Nat.zero_le _) ?_ ?_ ?_
  · exact ⟨.refl, rfl, fun _ _ => rfl, fun i hi => by omega, LuPart.zero _ _ _ _, fun i hi => by omega,
      fun i c _ hc => by omega⟩
  · intro j q ν _ hj hI
    have hjm : j < A.m := lt_of_lt_of_le hj (min_le_left _ _)
    have hjn : j < A.n := lt_of_lt_of_le hj (min_le_right _ _)
    generalize hk : min A.m A.n = k at hj hp
    have hkm : k ≤ A.m := hk ▸ min_le_left _ _
    have hkn : k ≤ A.n := hk ▸ min_le_right _ _
    simp only [wp_bind]
    refine wp_conseq (wp_pivSearch hjm hjn) ?_
    rintro p ν' ⟨rfl, hp1, hp2, hp3⟩
    refine wp_iset (by rw [hI.pn]; omega) ?_
    have hpc : ∀ c, (∀ i, i < c → c ≤ j) → True := fun _ _ => trivial
    have hcongr : pivPerm (fun k => if k = j then p else q.f k) j = pivPerm q.f j :=
      pivPerm_congr (fun i hi => if_neg (by omega))
    have hss : ∀ i, i < A.m → pivPerm q.f j i < A.m := fun i hi =>
      pivPerm_lt (by omega) (fun i hi => (hI.range i hi).2) hi
    refine wp_getE ⟨hp2, hjn⟩ ?_
    by_cases ha : ν' (A.cell p j) = 0
    · rw [if_pos ha, wp_pure]
      simp only [wp_pure]
      refine ⟨hI.only, hI.pn, fun i hi => ?_, fun h => by simp at h, fun j' hj' => ?_⟩
      · dsimp only
        rw [hk] at hi
        rw [if_neg (by omega), hI.keep i (by omega)]
      · obtain rfl : j = j' := by simpa using hj'
        refine ⟨by omega, ?_, ?_⟩
        · exact hI.part.indep_all hss (by omega) (by omega) hI.diag
        · refine hI.part.dep (t := 0) (fun i hi => ⟨(pivPerm q.f j).symm i,
            pivPerm_symm_lt (by omega) (fun i hi => (hI.range i hi).2) hi,
            Equiv.apply_symm_apply _ _⟩) (by omega) hI.diag ⟨fun _ => 0, fun i hi => ?_⟩
          simp only [sh, Finset.range_zero, Finset.sum_empty, Nat.add_zero]
          refine h0 _ ?_
          have := hp3 (j + i) (by omega) (by omega)
          rwa [show entry ν' A p j = 0 from ha] at this
    · rw [if_neg ha]
      simp only [wp_bind]
      have hs0 : MState A μ (entry ν' A) ν' := ⟨fun _ _ _ _ => rfl, hI.only⟩
      refine wp_conseq (wp_swapRowsLoop hA hs0 rfl hjm hp2) ?_
      intro _ ν1 hν1
      refine wp_conseq (wp_luElim hA hν1 hjm hjn) ?_
      intro _ ν2 hν2
      simp only [wp_pure]
      have hF := fun i c (hi : i < A.m) (hc : c < A.n) => hν2.val i c hi hc
      have hne : entry ν' A (Equiv.swap j p j) j ≠ 0 := by rw [Equiv.swap_apply_left]; exact ha
      refine ⟨hν2.frame, hI.pn, fun i hi => ?_, fun i hi => ?_, ?_, fun i hi => ?_, fun i c hi hc hci => ?_⟩
      · dsimp only
        rw [if_neg (by omega), hI.keep i (by omega)]
      · dsimp only
        by_cases e : i = j
        · subst e; rw [if_pos rfl]; exact ⟨hp1, hp2⟩
        · rw [if_neg e]; exact hI.range i (by omega)
      · refine LuPart.step (F := entry ν' A) (F1 := fun i c => entry ν' A (Equiv.swap j p i) c)
          (F2 := entry ν2 A) ?_ hjm hjn ?_ ?_ ?_ hne ?_
        · rw [hcongr]; exact hI.part
        · simpa using hp1
        · simpa using hp2
        · intro i c _ _; simp
        · exact hF
      · rw [show entry ν2 A i i = _ from hF i i (by omega) (by omega), if_neg (by omega)]
        by_cases e : i = j
        · subst e; exact hne
        · rw [Equiv.swap_apply_of_ne_of_ne e (by omega)]
          exact hI.diag i (by omega)
      · rw [show entry ν2 A i c = _ from hF i c hi (by omega)]
        by_cases e : c = j
        · subst e
          rw [if_pos hci, if_pos rfl]
          refine hbd _ _ ?_ hne
          rw [Equiv.swap_apply_left]
          have hge : c ≤ Equiv.swap c p i := by
            rw [Equiv.swap_apply_def]; split_ifs <;> omega
          exact hp3 _ hge (swap_lt hjm hp2 hi)
        · rw [if_neg e, if_neg (show ¬ j < c by omega), ite_self]
          refine hI.bnd _ c (swap_lt hjm hp2 hi) (by omega) ?_
          rw [Equiv.swap_apply_def]; split_ifs <;> omega
  · intro q ν hI
    simp only [wp_pure]
    exact ⟨hI.only, hI.pn, hI.keep, fun _ => ⟨hI.range, hI.part, hI.diag, hI.bnd⟩,
      fun j hj => by simp at hj⟩

end level0
end TLA
