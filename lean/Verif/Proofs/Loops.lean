import Verif.Proofs.Util

/-! Derived loop rules: loops that update one column (vector) entry per iteration, sums. -/

namespace TLA
variable {L T σ : Type}

/-- A loop that only computes. -/
theorem wp_sumLoop {body : Nat → σ → M L T σ} {lo hi : Nat} {s0 : σ} {μ : Store L T} {E}
    (F : Nat → σ → σ) (hle : lo ≤ hi)
    (hb : ∀ i s, lo ≤ i → i < hi → wp (body i s) μ (fun s' ν => s' = F i s ∧ ν = μ) E) :
    wp (forUp lo hi s0 body) μ (fun s ν => s = foldUp lo hi s0 F ∧ ν = μ) E := by
  refine wp_forUp (fun k s ν => s = foldUp lo k s0 F ∧ ν = μ) hle (by simp) ?_ (fun _ _ h => h)
  rintro i s ν h1 h2 ⟨rfl, rfl⟩
  refine wp_mono (hb i _ h1 h2) ?_ (fun _ _ h => h)
  rintro s ν ⟨rfl, rfl⟩
  exact ⟨(foldUp_succ h1 _ _).symm, rfl⟩

theorem wp_sumLoopD {body : Nat → σ → M L T σ} {lo hi : Nat} {s0 : σ} {μ : Store L T} {E}
    (F : Nat → σ → σ) (hle : lo ≤ hi)
    (hb : ∀ i s, lo ≤ i → i < hi → wp (body i s) μ (fun s' ν => s' = F i s ∧ ν = μ) E) :
    wp (forDown lo hi s0 body) μ (fun s ν => s = foldDown lo hi s0 F ∧ ν = μ) E := by
  refine wp_forDown (fun k s ν => s = foldDown k hi s0 F ∧ ν = μ) hle (by simp) ?_ (fun _ _ h => h)
  rintro i s ν h1 h2 ⟨rfl, rfl⟩
  refine wp_mono (hb i _ h1 h2) ?_ (fun _ _ h => h)
  rintro s ν ⟨rfl, rfl⟩
  exact ⟨(foldDown_bot h2 _ _).symm, rfl⟩

variable [DecidableEq L]

/-- A loop whose iteration `i` writes `v i` to `C(i,j)`. -/
theorem wp_colLoop {C : MatV L} {body : Nat → M L T Unit} {lo hi j : Nat}
    {μ0 μ : Store L T} {G : Nat → Nat → T} (v : Nat → T)
    (h : MState C μ0 G μ) (hC : C.Inj) (hj : j < C.n) (hhi : hi ≤ C.m) (hle : lo ≤ hi)
    (hb : ∀ i ν, lo ≤ i → i < hi →
      MState C μ0 (fun i' j' => if j' = j ∧ lo ≤ i' ∧ i' < i then v i' else G i' j') ν →
      wp (body i) ν (fun _ ν' => ν' = upd ν (C.cell i j) (v i))) :
    wp (forUp_ lo hi body) μ (fun _ ν =>
      MState C μ0 (fun i' j' => if j' = j ∧ lo ≤ i' ∧ i' < hi then v i' else G i' j') ν) := by
  refine wp_forUp_ (fun k ν =>
      MState C μ0 (fun i' j' => if j' = j ∧ lo ≤ i' ∧ i' < k then v i' else G i' j') ν) hle
    (h.congr (fun i' j' _ _ => by rw [if_neg (by omega)])) ?_ (fun _ h => h)
  intro i ν h1 h2 hν
  refine wp_conseq (hb i ν h1 h2 hν) ?_
  rintro _ _ rfl
  refine hν.upd hC (by omega) hj ?_
  intro i' j' _ _
  by_cases e : i' = i
  · subst e
    by_cases e' : j' = j
    · subst e'; simp [h1]
    · simp [e']
  · by_cases e' : j' = j
    · simp only [e', e]
      by_cases h3 : lo ≤ i' ∧ i' < i
      · rw [if_pos ⟨trivial, h3.1, by omega⟩, if_neg (by simp), if_pos ⟨trivial, h3⟩]
      · rw [if_neg (by omega), if_neg (by simp), if_neg (by omega)]
    · simp [e']

/-- The descending version of `wp_colLoop`. -/
theorem wp_colLoopD {C : MatV L} {body : Nat → M L T Unit} {lo hi j : Nat}
    {μ0 μ : Store L T} {G : Nat → Nat → T} (v : Nat → T)
    (h : MState C μ0 G μ) (hC : C.Inj) (hj : j < C.n) (hhi : hi ≤ C.m) (hle : lo ≤ hi)
    (hb : ∀ i ν, lo ≤ i → i < hi →
      MState C μ0 (fun i' j' => if j' = j ∧ i < i' ∧ i' < hi then v i' else G i' j') ν →
      wp (body i) ν (fun _ ν' => ν' = upd ν (C.cell i j) (v i))) :
    wp (forDown_ lo hi body) μ (fun _ ν =>
      MState C μ0 (fun i' j' => if j' = j ∧ lo ≤ i' ∧ i' < hi then v i' else G i' j') ν) := by
  refine wp_forDown_ (fun k ν =>
      MState C μ0 (fun i' j' => if j' = j ∧ k ≤ i' ∧ i' < hi then v i' else G i' j') ν) hle
    (h.congr (fun i' j' _ _ => by rw [if_neg (by omega)])) ?_ (fun _ h => h)
  intro i ν h1 h2 hν
  refine wp_conseq (hb i ν h1 h2 (hν.congr (fun i' j' _ _ => by
    by_cases h3 : j' = j ∧ i < i' ∧ i' < hi
    · rw [if_pos h3, if_pos (by omega)]
    · rw [if_neg h3, if_neg (by omega)]))) ?_
  rintro _ _ rfl
  refine hν.upd hC (by omega) hj ?_
  intro i' j' _ _
  by_cases e : i' = i
  · subst e
    by_cases e' : j' = j
    · subst e'; simp [h2]
    · simp [e']
  · by_cases e' : j' = j
    · simp only [e', e]
      by_cases h3 : i + 1 ≤ i' ∧ i' < hi
      · rw [if_pos ⟨trivial, by omega, by omega⟩, if_neg (by simp), if_pos ⟨trivial, h3⟩]
      · rw [if_neg (by omega), if_neg (by simp), if_neg (by omega)]
    · simp [e']

/-- A loop that writes `v i` to `C(i,j)` and accumulates a sum. -/
theorem wp_colLoopS {C : MatV L} {body : Nat → σ → M L T σ} {lo hi j : Nat} {s0 : σ}
    {μ0 μ : Store L T} {G : Nat → Nat → T} (v : Nat → T) (F : Nat → σ → σ)
    (h : MState C μ0 G μ) (hC : C.Inj) (hj : j < C.n) (hhi : hi ≤ C.m) (hle : lo ≤ hi)
    (hb : ∀ i s ν, lo ≤ i → i < hi →
      MState C μ0 (fun i' j' => if j' = j ∧ lo ≤ i' ∧ i' < i then v i' else G i' j') ν →
      wp (body i s) ν (fun s' ν' => s' = F i s ∧ ν' = upd ν (C.cell i j) (v i))) :
    wp (forUp lo hi s0 body) μ (fun s ν => s = foldUp lo hi s0 F ∧
      MState C μ0 (fun i' j' => if j' = j ∧ lo ≤ i' ∧ i' < hi then v i' else G i' j') ν) := by
  refine wp_forUp (fun k s ν => s = foldUp lo k s0 F ∧
      MState C μ0 (fun i' j' => if j' = j ∧ lo ≤ i' ∧ i' < k then v i' else G i' j') ν) hle
    ⟨by simp, h.congr (fun i' j' _ _ => by rw [if_neg (by omega)])⟩ ?_ (fun _ _ h => h)
  rintro i s ν h1 h2 ⟨rfl, hν⟩
  refine wp_conseq (hb i _ ν h1 h2 hν) ?_
  rintro _ _ ⟨rfl, rfl⟩
  refine ⟨(foldUp_succ h1 _ _).symm, hν.upd hC (by omega) hj ?_⟩
  intro i' j' _ _
  by_cases e : i' = i
  · subst e
    by_cases e' : j' = j
    · subst e'; simp [h1]
    · simp [e']
  · by_cases e' : j' = j
    · simp only [e', e]
      by_cases h3 : lo ≤ i' ∧ i' < i
      · rw [if_pos ⟨trivial, h3.1, by omega⟩, if_neg (by simp), if_pos ⟨trivial, h3⟩]
      · rw [if_neg (by omega), if_neg (by simp), if_neg (by omega)]
    · simp [e']

/-- Row version: iteration `j` writes `v j` to `C(i,j)`. -/
theorem wp_rowLoop {C : MatV L} {body : Nat → M L T Unit} {lo hi i : Nat}
    {μ0 μ : Store L T} {G : Nat → Nat → T} (v : Nat → T)
    (h : MState C μ0 G μ) (hC : C.Inj) (hi' : i < C.m) (hhi : hi ≤ C.n) (hle : lo ≤ hi)
    (hb : ∀ j ν, lo ≤ j → j < hi →
      MState C μ0 (fun i' j' => if i' = i ∧ lo ≤ j' ∧ j' < j then v j' else G i' j') ν →
      wp (body j) ν (fun _ ν' => ν' = upd ν (C.cell i j) (v j))) :
    wp (forUp_ lo hi body) μ (fun _ ν =>
      MState C μ0 (fun i' j' => if i' = i ∧ lo ≤ j' ∧ j' < hi then v j' else G i' j') ν) := by
  refine wp_forUp_ (fun k ν =>
      MState C μ0 (fun i' j' => if i' = i ∧ lo ≤ j' ∧ j' < k then v j' else G i' j') ν) hle
    (h.congr (fun i' j' _ _ => by rw [if_neg (by omega)])) ?_ (fun _ h => h)
  intro j ν h1 h2 hν
  refine wp_conseq (hb j ν h1 h2 hν) ?_
  rintro _ _ rfl
  refine hν.upd hC hi' (by omega) ?_
  intro i' j' _ _
  by_cases e : j' = j
  · subst e
    by_cases e' : i' = i
    · subst e'; simp [h1]
    · simp [e']
  · by_cases e' : i' = i
    · simp only [e', e]
      by_cases h3 : lo ≤ j' ∧ j' < j
      · rw [if_pos ⟨trivial, h3.1, by omega⟩, if_neg (by simp), if_pos ⟨trivial, h3⟩]
      · rw [if_neg (by omega), if_neg (by simp), if_neg (by omega)]
    · simp [e']

/-! Vector versions. -/

/-- A loop whose iteration `i` writes `v i` to `x[i]`. -/
theorem wp_vecLoop {x : VecV L} {body : Nat → M L T Unit} {lo hi : Nat}
    {μ0 μ : Store L T} {g : Nat → T} (v : Nat → T)
    (h : VState x μ0 g μ) (hx : x.Inj) (hhi : hi ≤ x.n) (hle : lo ≤ hi)
    (hb : ∀ i ν, lo ≤ i → i < hi →
      VState x μ0 (fun i' => if lo ≤ i' ∧ i' < i then v i' else g i') ν →
      wp (body i) ν (fun _ ν' => ν' = upd ν (x.cell i) (v i))) :
    wp (forUp_ lo hi body) μ (fun _ ν =>
      VState x μ0 (fun i' => if lo ≤ i' ∧ i' < hi then v i' else g i') ν) := by
  refine wp_forUp_ (fun k ν =>
      VState x μ0 (fun i' => if lo ≤ i' ∧ i' < k then v i' else g i') ν) hle
    (h.congr (fun i' _ => by rw [if_neg (by omega)])) ?_ (fun _ h => h)
  intro i ν h1 h2 hν
  refine wp_conseq (hb i ν h1 h2 hν) ?_
  rintro _ _ rfl
  refine hν.upd hx (by omega) ?_
  intro i' _
  by_cases e : i' = i
  · subst e; simp [h1]
  · by_cases h3 : lo ≤ i' ∧ i' < i
    · rw [if_pos ⟨h3.1, by omega⟩, if_neg e, if_pos h3]
    · rw [if_neg (by omega), if_neg e, if_neg h3]

theorem wp_vecLoopD {x : VecV L} {body : Nat → M L T Unit} {lo hi : Nat}
    {μ0 μ : Store L T} {g : Nat → T} (v : Nat → T)
    (h : VState x μ0 g μ) (hx : x.Inj) (hhi : hi ≤ x.n) (hle : lo ≤ hi)
    (hb : ∀ i ν, lo ≤ i → i < hi →
      VState x μ0 (fun i' => if i < i' ∧ i' < hi then v i' else g i') ν →
      wp (body i) ν (fun _ ν' => ν' = upd ν (x.cell i) (v i))) :
    wp (forDown_ lo hi body) μ (fun _ ν =>
      VState x μ0 (fun i' => if lo ≤ i' ∧ i' < hi then v i' else g i') ν) := by
  refine wp_forDown_ (fun k ν =>
      VState x μ0 (fun i' => if k ≤ i' ∧ i' < hi then v i' else g i') ν) hle
    (h.congr (fun i' _ => by rw [if_neg (by omega)])) ?_ (fun _ h => h)
  intro i ν h1 h2 hν
  refine wp_conseq (hb i ν h1 h2 hν) ?_
  rintro _ _ rfl
  refine hν.upd hx (by omega) ?_
  intro i' _
  by_cases e : i' = i
  · subst e; simp [h2]
  · by_cases h3 : i + 1 ≤ i' ∧ i' < hi
    · rw [if_pos ⟨by omega, by omega⟩, if_neg e, if_pos h3]
    · rw [if_neg (by omega), if_neg e, if_neg h3]

theorem wp_vecLoopS {x : VecV L} {body : Nat → σ → M L T σ} {lo hi : Nat} {s0 : σ}
    {μ0 μ : Store L T} {g : Nat → T} (v : Nat → T) (F : Nat → σ → σ)
    (h : VState x μ0 g μ) (hx : x.Inj) (hhi : hi ≤ x.n) (hle : lo ≤ hi)
    (hb : ∀ i s ν, lo ≤ i → i < hi →
      VState x μ0 (fun i' => if lo ≤ i' ∧ i' < i then v i' else g i') ν →
      wp (body i s) ν (fun s' ν' => s' = F i s ∧ ν' = upd ν (x.cell i) (v i))) :
    wp (forUp lo hi s0 body) μ (fun s ν => s = foldUp lo hi s0 F ∧
      VState x μ0 (fun i' => if lo ≤ i' ∧ i' < hi then v i' else g i') ν) := by
  refine wp_forUp (fun k s ν => s = foldUp lo k s0 F ∧
      VState x μ0 (fun i' => if lo ≤ i' ∧ i' < k then v i' else g i') ν) hle
    ⟨by simp, h.congr (fun i' _ => by rw [if_neg (by omega)])⟩ ?_ (fun _ _ h => h)
  rintro i s ν h1 h2 ⟨rfl, hν⟩
  refine wp_conseq (hb i _ ν h1 h2 hν) ?_
  rintro _ _ ⟨rfl, rfl⟩
  refine ⟨(foldUp_succ h1 _ _).symm, hν.upd hx (by omega) ?_⟩
  intro i' _
  by_cases e : i' = i
  · subst e; simp [h1]
  · by_cases h3 : lo ≤ i' ∧ i' < i
    · rw [if_pos ⟨h3.1, by omega⟩, if_neg e, if_pos h3]
    · rw [if_neg (by omega), if_neg e, if_neg h3]

omit [DecidableEq L] in
/-- Outer loop over columns: iteration `j` turns column `j` into `V · j`. -/
theorem wp_forCols {C : MatV L} {body : Nat → M L T Unit} {n : Nat} {μ0 μ : Store L T}
    {G : Nat → Nat → T} (V : Nat → Nat → T) (hn : n = C.n) (h : MState C μ0 G μ)
    (hb : ∀ j ν, j < C.n →
      MState C μ0 (fun i' j' => if j' < j then V i' j' else G i' j') ν →
      wp (body j) ν (fun _ ν' => MState C μ0 (fun i' j' => if j' = j then V i' j else
        if j' < j then V i' j' else G i' j') ν')) :
    wp (forUp_ 0 n body) μ (fun _ ν => MState C μ0 V ν) := by
  subst hn
  refine wp_forUp_ (fun j ν => MState C μ0 (fun i' j' => if j' < j then V i' j' else G i' j') ν)
    (Nat.zero_le _) (by simpa using h) ?_ (fun ν hν => hν.congr (fun i j _ hj => by simp [hj]))
  intro j ν _ hj hν
  refine wp_conseq (hb j ν hj hν) (fun _ ν hν => hν.congr (fun i' j' _ _ => ?_))
  ifs_eq j' j

omit [DecidableEq L] in
/-- Outer loop over columns, descending. -/
theorem wp_forColsD {C : MatV L} {body : Nat → M L T Unit} {n : Nat} {μ0 μ : Store L T}
    {G : Nat → Nat → T} (V : Nat → Nat → T) (hn : n = C.n) (h : MState C μ0 G μ)
    (hb : ∀ j ν, j < C.n →
      MState C μ0 (fun i' j' => if j < j' then V i' j' else G i' j') ν →
      wp (body j) ν (fun _ ν' => MState C μ0 (fun i' j' => if j' = j then V i' j else
        if j < j' then V i' j' else G i' j') ν')) :
    wp (forDown_ 0 n body) μ (fun _ ν => MState C μ0 V ν) := by
  subst hn
  refine wp_forDown_ (fun j ν => MState C μ0 (fun i' j' => if j ≤ j' then V i' j' else G i' j') ν)
    (Nat.zero_le _) (h.congr (fun i j _ hj => by rw [if_neg (by omega)])) ?_
    (fun ν hν => hν.congr (fun i j _ hj => by simp))
  intro j ν _ hj hν
  refine wp_conseq (hb j ν hj (hν.congr (fun i' j' _ _ => ?_)))
    (fun _ ν hν => hν.congr (fun i' j' _ _ => ?_))
  · ifs_eq j' j
  · ifs_eq j' j

omit [DecidableEq L] in
theorem VState.at {x : VecV L} {μ0 μ : Store L T} {G : Nat → T} (h : VState x μ0 G μ)
    (i : Nat) (hi : i < x.n) {v : T} (hv : G i = v) : μ (x.cell i) = v :=
  (h.val i hi).trans hv

omit [DecidableEq L] in
/-- Membership in a described state with explicit location. -/
theorem MState.at {C : MatV L} {μ0 μ : Store L T} {G : Nat → Nat → T} (h : MState C μ0 G μ)
    (i j : Nat) (hi : i < C.m) (hj : j < C.n) {v : T} (hv : G i j = v) : μ (C.cell i j) = v :=
  (h.val i j hi hj).trans hv

end TLA
