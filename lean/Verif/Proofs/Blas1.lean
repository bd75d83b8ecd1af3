import Verif.Proofs.Loops
import Verif.Model.Blas1

namespace TLA
set_option linter.unusedTactic false
set_option linter.unreachableTactic false
variable {L T : Type} [DecidableEq L]

omit [DecidableEq L] in
theorem VState.start (x : VecV L) (μ : Store L T) : VState x μ (ventry μ x) μ :=
  ⟨fun _ _ => rfl, fun _ _ => rfl⟩

omit [DecidableEq L] in
theorem MState.start (A : MatV L) (μ : Store L T) : MState A μ (entry μ A) μ :=
  ⟨fun _ _ _ _ => rfl, fun _ _ => rfl⟩

theorem wp_copy {x y : VecV L} {μ0 μ : Store L T} {g : Nat → T} (hy : y.Inj) (hn : x.n ≤ y.n)
    (hd : x.Disj y) (h : VState y μ0 g μ) :
    wp (copy x y) μ (fun _ ν => VState y μ0 (fun i => if i < x.n then ventry μ0 x i else g i) ν) := by
  unfold copy
  simp only [wp_bind, wp_check]
  rw [if_pos (by simpa using hn)]
  refine wp_conseq (wp_vecLoop (ventry μ0 x) h hy hn (Nat.zero_le _) ?_) ?_
  · intro i ν _ hi hν
    simp only [wp_bind, wp_vget, wp_vset]
    exact ⟨hi, by omega, by rw [hν.readV hd hi]; rfl⟩
  · intro _ ν hν
    exact hν.congr (fun i _ => by simp)

theorem wp_scal [Mul T] {alpha : T} {x : VecV L} {μ0 μ : Store L T} {g : Nat → T} (hx : x.Inj)
    (h : VState x μ0 g μ) :
    wp (scal alpha x) μ (fun _ ν => VState x μ0 (fun i => g i * alpha) ν) := by
  unfold scal
  refine wp_conseq (wp_vecLoop (fun i => g i * alpha) h hx (le_refl _) (Nat.zero_le _) ?_) ?_
  · intro i ν _ hi hν
    simp only [wp_vmodify]
    exact ⟨hi, by rw [hν.val i hi]; simp⟩
  · intro _ ν hν
    exact hν.congr (fun i hi => by simp [hi])

theorem wp_conjugate [Star T] {x : VecV L} {μ0 μ : Store L T} {g : Nat → T} (hx : x.Inj)
    (h : VState x μ0 g μ) :
    wp (conjugate x) μ (fun _ ν => VState x μ0 (fun i => star (g i)) ν) := by
  unfold conjugate
  refine wp_conseq (wp_vecLoop (fun i => star (g i)) h hx (le_refl _) (Nat.zero_le _) ?_) ?_
  · intro i ν _ hi hν
    simp only [wp_bind, wp_vget, wp_vset]
    exact ⟨hi, hi, by rw [hν.val i hi]; simp⟩
  · intro _ ν hν
    exact hν.congr (fun i hi => by simp [hi])

theorem wp_axpy [Add T] [Mul T] {alpha : T} {x y : VecV L} {μ0 μ : Store L T} {g : Nat → T}
    (hy : y.Inj) (hn : x.n ≤ y.n) (hd : x.Disj y) (h : VState y μ0 g μ) :
    wp (axpy alpha x y) μ (fun _ ν =>
      VState y μ0 (fun i => if i < x.n then g i + alpha * ventry μ0 x i else g i) ν) := by
  unfold axpy
  simp only [wp_bind, wp_check]
  rw [if_pos (by simpa using hn)]
  refine wp_conseq (wp_vecLoop (fun i => g i + alpha * ventry μ0 x i) h hy hn (Nat.zero_le _) ?_) ?_
  · intro i ν _ hi hν
    simp only [wp_bind, wp_vget, wp_vmodify]
    exact ⟨hi, by omega, by rw [hν.readV hd hi, hν.val i (by omega)]; simp [ventry]⟩
  · intro _ ν hν
    exact hν.congr (fun i _ => by simp)

omit [DecidableEq L] in
theorem wp_dot [Zero T] [Add T] [Mul T] [Star T] {x y : VecV L} {μ : Store L T} {E}
    (hn : y.n = x.n) :
    wp (dot x y) μ (fun r ν => r = foldUp 0 x.n 0 (fun i s => s + star (ventry μ x i) * ventry μ y i)
      ∧ ν = μ) E := by
  unfold dot
  simp only [wp_bind, wp_check]
  rw [if_pos (by simp [hn])]
  refine wp_mono (wp_sumLoop (E := fun _ _ => False) _ (Nat.zero_le _) ?_) (fun _ _ h => h) (fun _ _ h => h.elim)
  intro i s _ hi
  simp only [wp_bind, wp_vget, wp_pure]
  exact ⟨hi, by omega, rfl, trivial⟩

omit [DecidableEq L] in
theorem wp_dotu [Zero T] [Add T] [Mul T] {x y : VecV L} {μ : Store L T} {E} (hn : y.n = x.n) :
    wp (dotu x y) μ (fun r ν => r = foldUp 0 x.n 0 (fun i s => s + ventry μ x i * ventry μ y i)
      ∧ ν = μ) E := by
  unfold dotu
  simp only [wp_bind, wp_check]
  rw [if_pos (by simp [hn])]
  refine wp_mono (wp_sumLoop (E := fun _ _ => False) _ (Nat.zero_le _) ?_) (fun _ _ h => h) (fun _ _ h => h.elim)
  intro i s _ hi
  simp only [wp_bind, wp_vget, wp_pure]
  exact ⟨hi, by omega, rfl, trivial⟩

omit [DecidableEq L] in
theorem wp_asum {R : Type} [Zero R] [Add R] {abs1 : T → R} {x : VecV L} {μ : Store L T} :
    wp (asum abs1 x) μ (fun r ν => r = foldUp 0 x.n 0 (fun i s => s + abs1 (ventry μ x i))
      ∧ ν = μ) := by
  unfold asum
  refine wp_sumLoop _ (Nat.zero_le _) ?_
  intro i s _ hi
  simp only [wp_bind, wp_vget, wp_pure]
  exact ⟨hi, rfl, trivial⟩

/-- Two vectors as one `n × 2` view. -/
def pairV (x y : VecV L) : MatV L := ⟨x.n, 2, fun i j => if j = 0 then x.cell i else y.cell i⟩

omit [DecidableEq L] in
theorem pairV_inj {x y : VecV L} (hx : x.Inj) (hy : y.Inj) (hn : y.n = x.n) (hd : x.Disj y) :
    (pairV x y).Inj := by
  intro i j i' j' hi hj hi' hj' h
  simp only [pairV] at *
  have hj2 : j = 0 ∨ j = 1 := by omega
  have hj2' : j' = 0 ∨ j' = 1 := by omega
  rcases hj2 with rfl | rfl <;> rcases hj2' with rfl | rfl <;> simp at h ⊢
  · exact hx _ _ hi hi' h
  · exact hd i hi ⟨i', by omega, h.symm⟩
  · exact hd i' hi' ⟨i, by omega, h⟩
  · exact hy _ _ (by omega) (by omega) h

theorem wp_pairLoop {x y : VecV L} {body : Nat → M L T Unit} {μ : Store L T} (u v : Nat → T)
    (hx : x.Inj) (hy : y.Inj) (hn : y.n = x.n) (hd : x.Disj y)
    (hb : ∀ i ν, i < x.n → MState (pairV x y) μ (fun i' j' => if i' < i then
        (if j' = 0 then u i' else v i') else (if j' = 0 then ventry μ x i' else ventry μ y i')) ν →
      wp (body i) ν (fun _ ν' => ν' = upd (upd ν (x.cell i) (u i)) (y.cell i) (v i)
        ∨ ν' = upd (upd ν (y.cell i) (v i)) (x.cell i) (u i))) :
    wp (forUp_ 0 x.n body) μ (fun _ ν => (∀ i, i < x.n → ventry ν x i = u i) ∧
      (∀ i, i < y.n → ventry ν y i = v i) ∧ ∀ l, ¬ x.Owns l → ¬ y.Owns l → ν l = μ l) := by
  have hI := pairV_inj hx hy hn hd
  refine wp_forUp_ (fun i ν => MState (pairV x y) μ (fun i' j' => if i' < i then
        (if j' = 0 then u i' else v i') else (if j' = 0 then ventry μ x i' else ventry μ y i')) ν)
    (Nat.zero_le _) ?_ ?_ ?_
  · refine MState.init _ _ _ ?_
    intro i j _ _
    simp only [pairV, ventry]
    split_ifs <;> simp_all
  · intro i ν _ hi hν
    refine wp_conseq (hb i ν hi hν) ?_
    have e0 : x.cell i = (pairV x y).cell i 0 := by simp [pairV]
    have e1 : y.cell i = (pairV x y).cell i 1 := by simp [pairV]
    rintro _ _ (rfl | rfl)
    · rw [e0, e1]
      refine (hν.upd (G' := fun i' j' => if i' = i ∧ j' = 0 then u i else _) hI hi
        (by simp [pairV]) (fun i' j' _ _ => rfl)).upd hI hi (by simp [pairV]) ?_
      intro i' j' hi' hj'
      have : j' = 0 ∨ j' = 1 := by simp [pairV] at hj'; omega
      rcases this with rfl | rfl <;> by_cases e : i' = i <;> simp [e]
      · ifs
      · ifs
    · rw [e0, e1]
      refine (hν.upd (G' := fun i' j' => if i' = i ∧ j' = 1 then v i else _) hI hi
        (by simp [pairV]) (fun i' j' _ _ => rfl)).upd hI hi (by simp [pairV]) ?_
      intro i' j' hi' hj'
      have : j' = 0 ∨ j' = 1 := by simp [pairV] at hj'; omega
      rcases this with rfl | rfl <;> by_cases e : i' = i <;> simp [e]
      · ifs
      · ifs
  · intro ν hν
    refine ⟨fun i hi => ?_, fun i hi => ?_, fun l h1 h2 => hν.frame l ?_⟩
    · have := hν.val i 0 hi (by simp [pairV])
      simpa [pairV, hi, ventry] using this
    · have := hν.val i 1 (by simp [pairV]; omega) (by simp [pairV])
      rw [if_pos (by omega)] at this
      simpa [pairV, ventry] using this
    · rintro ⟨i, j, hi, hj, e⟩
      simp only [pairV] at hi hj e
      split_ifs at e
      · exact h1 ⟨i, hi, e⟩
      · exact h2 ⟨i, by omega, e⟩

theorem wp_swap {x y : VecV L} {μ : Store L T} (hx : x.Inj) (hy : y.Inj) (hn : y.n = x.n)
    (hd : x.Disj y) :
    wp (swap x y) μ (fun _ ν => (∀ i, i < x.n → ventry ν x i = ventry μ y i) ∧
      (∀ i, i < y.n → ventry ν y i = ventry μ x i) ∧ ∀ l, ¬ x.Owns l → ¬ y.Owns l → ν l = μ l) := by
  unfold swap
  simp only [wp_bind, wp_check]
  rw [if_pos (by simp [hn])]
  refine wp_pairLoop _ _ hx hy hn hd ?_
  intro i ν hi hν
  have e0 := hν.val i 0 hi (by simp [pairV])
  have e1 := hν.val i 1 hi (by simp [pairV])
  simp [pairV] at e0 e1
  simp only [wp_bind, wp_vget, wp_vset]
  refine ⟨hi, by omega, hi, by omega, Or.inl ?_⟩
  rw [e0, e1]

theorem wp_rot [Field T] [StarRing T] [DecidableEq T] {x y : VecV L} {c s : T} {μ : Store L T}
    (hx : x.Inj) (hy : y.Inj) (hn : y.n = x.n) (hd : x.Disj y) :
    wp (rot x y c s) μ (fun _ ν =>
      (∀ i, i < x.n → ventry ν x i = c * ventry μ x i + s * ventry μ y i) ∧
      (∀ i, i < y.n → ventry ν y i = c * ventry μ y i - star s * ventry μ x i) ∧
      ∀ l, ¬ x.Owns l → ¬ y.Owns l → ν l = μ l) := by
  unfold rot
  simp only [wp_bind, wp_check]
  rw [if_pos (by simp [hn]), wp_ite]
  split
  · rename_i h
    simp only [wp_pure]
    rcases h with h | ⟨rfl, rfl⟩
    · exact ⟨fun i hi => by omega, fun i hi => by omega, fun _ _ _ => trivial⟩
    · exact ⟨fun i hi => by simp, fun i hi => by simp, fun _ _ _ => trivial⟩
  · refine wp_pairLoop _ _ hx hy hn hd ?_
    intro i ν hi hν
    have e0 := hν.val i 0 hi (by simp [pairV])
    have e1 := hν.val i 1 hi (by simp [pairV])
    simp [pairV] at e0 e1
    simp only [wp_bind, wp_vget, wp_vset]
    refine ⟨hi, by omega, by omega, hi, Or.inr ?_⟩
    rw [e0, e1]

/-- The four entries of the matrix `rotm` applies (`h11, h21, h12, h22`), as documented. -/
def rotmEntries [Zero T] [One T] [Neg T] (flag : ℤ) (h : ℕ → T) : T × T × T × T :=
  if flag = -1 then (h 0, h 1, h 2, h 3)
  else if flag = 0 then (1, h 1, h 2, 1)
  else if flag = 1 then (h 0, -1, 1, h 3)
  else (1, 0, 0, 1)

theorem wp_rotm [Field T] (flag : ℤ) {x y : VecV L} {h : ℕ → T} {μ : Store L T}
    (hx : x.Inj) (hy : y.Inj) (hn : y.n = x.n) (hd : x.Disj y) :
    wp (rotm flag x y h) μ (fun _ ν =>
      (∀ i, i < x.n → ventry ν x i =
        (rotmEntries flag h).1 * ventry μ x i + (rotmEntries flag h).2.2.1 * ventry μ y i) ∧
      (∀ i, i < y.n → ventry ν y i =
        (rotmEntries flag h).2.1 * ventry μ x i + (rotmEntries flag h).2.2.2 * ventry μ y i) ∧
      ∀ l, ¬ x.Owns l → ¬ y.Owns l → ν l = μ l) := by
  unfold rotm rotmEntries
  simp only [wp_bind, wp_check]
  rw [if_pos (by simp [hn])]
  simp only [wp_ite]
  split
  · refine wp_pairLoop _ _ hx hy hn hd ?_
    intro i ν hi hν
    have e0 := hν.val i 0 hi (by simp [pairV])
    have e1 := hν.val i 1 hi (by simp [pairV])
    simp [pairV] at e0 e1
    simp only [wp_bind, wp_vget, wp_vset]
    refine ⟨hi, by omega, by omega, hi, Or.inr ?_⟩
    rw [e0, e1, add_comm (h 3 * _)]
  · split
    · refine wp_pairLoop _ _ hx hy hn hd ?_
      intro i ν hi hν
      have e0 := hν.val i 0 hi (by simp [pairV])
      have e1 := hν.val i 1 hi (by simp [pairV])
      simp [pairV] at e0 e1
      simp only [wp_bind, wp_vget, wp_vset]
      refine ⟨hi, by omega, by omega, hi, Or.inr ?_⟩
      rw [e0, e1, add_comm (ventry μ y i), one_mul, one_mul]
    · split
      · refine wp_pairLoop _ _ hx hy hn hd ?_
        intro i ν hi hν
        have e0 := hν.val i 0 hi (by simp [pairV])
        have e1 := hν.val i 1 hi (by simp [pairV])
        simp [pairV] at e0 e1
        simp only [wp_bind, wp_vget, wp_vset]
        refine ⟨hi, by omega, by omega, hi, Or.inr ?_⟩
        rw [e0, e1, one_mul, neg_one_mul, sub_eq_neg_add]
      · simp only [wp_pure]
        exact ⟨fun i hi => by simp, fun i hi => by simp, fun _ _ _ => trivial⟩

end TLA
