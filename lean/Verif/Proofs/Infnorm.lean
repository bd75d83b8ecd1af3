import Verif.Proofs.NormExact

/-! Infinity norms with a workspace. -/

set_option linter.unusedSectionVars false
set_option linter.unusedVariables false

namespace TLA
open Finset
variable {L T : Type} [DecidableEq L] {o : NOps T T} {nn : T → Prop}

theorem wp_reshapeW_e {work : VecV L} {k : Nat} (h : k ≤ work.n) {μ : Store L T} :
    wp (reshapeW work k) μ (fun w ν => w = work.sub 0 k ∧ ν = μ) := by
  unfold reshapeW
  simp only [wp_bind, wp_check, wp_pure]
  rw [if_pos (by simpa using h)]
  simp

theorem wp_maxW (hl : NanLaws o nn) {w : VecV L} {μ : Store L T} :
    wp (maxW o w w.n) μ (fun x ν => ν = μ ∧ ∃ r, x = normRet r ∧
      MRes o o.zero (fun v => ∃ i, 0 ≤ i ∧ i < w.n ∧ v = ventry μ w i) r) := by
  unfold maxW
  simp only [wp_bind]
  refine wp_conseq (wp_maxLoop hl hl.zero (fun i => ventry μ w i) fun i _ hi => ?_) ?_
  · rw [wp_vget]; exact ⟨hi, rfl, rfl⟩
  · rintro r ν ⟨rfl, h⟩
    rw [wp_pure]
    exact ⟨rfl, r, rfl, h⟩

theorem wp_addAbsCol {A : MatV L} {w : VecV L} (hw : w.Inj) (hd : A.DisjV w) {j lo hi : Nat} (hj : j < A.n)
    (hlo : lo ≤ hi) (hhi : hi ≤ A.m) (hhw : hi ≤ w.n) {μ ν : Store L T} {g : Nat → T} (h : VState w μ g ν) :
    wp (addAbsCol o A w j lo hi) ν (fun _ ν => VState w μ (fun i => if lo ≤ i ∧ i < hi then
      o.add (g i) (o.abs (entry μ A i j)) else g i) ν) := by
  unfold addAbsCol
  refine wp_vecLoop _ h hw hhw hlo fun i ν h1 h2 hν => ?_
  simp only [wp_bind, wp_get, wp_vmodify]
  refine ⟨⟨by omega, hj⟩, by omega, ?_⟩
  have e1 : ν (w.cell i) = g i := hν.at i (by omega) (by rw [if_neg (by omega)])
  have e2 : ν (A.cell i j) = μ (A.cell i j) := hν.frame _ (hd i j (by omega) hj)
  rw [e1, e2]
  rfl

theorem wp_addCols {A : MatV L} {w : VecV L} (hw : w.Inj) (hd : A.DisjV w) {jlo jhi : Nat} {lo hi : Nat → Nat}
    (hj : jhi ≤ A.n) (hjl : jlo ≤ jhi) (hlo : ∀ j, j < jhi → lo j ≤ hi j ∧ hi j ≤ A.m ∧ hi j ≤ w.n) {μ ν : Store L T} {g : Nat → T}
    (h : VState w μ g ν) :
    wp (forUp_ jlo jhi fun j => addAbsCol o A w j (lo j) (hi j)) ν (fun _ ν => VState w μ (fun i =>
      foldUp jlo jhi (g i) fun j acc => if lo j ≤ i ∧ i < hi j then o.add acc (o.abs (entry μ A i j)) else acc) ν) := by
  refine wp_forUp_ (fun k ν => VState w μ (fun i =>
      foldUp jlo k (g i) fun j acc => if lo j ≤ i ∧ i < hi j then o.add acc (o.abs (entry μ A i j)) else acc) ν)
    hjl (by simpa using h) ?_ (fun _ h => h)
  intro k ν h1 h2 hν
  refine wp_conseq (wp_addAbsCol hw hd (by omega) (hlo k h2).1 (hlo k h2).2.1 (hlo k h2).2.2 hν) ?_
  intro _ ν' hν'
  exact hν'.congr fun i _ => by rw [foldUp_succ h1]

theorem wp_fillW {w : VecV L} (hw : w.Inj) {lo hi : Nat} (hlo : lo ≤ hi) (hhi : hi ≤ w.n) {c : T}
    {μ ν : Store L T} {g : Nat → T} (h : VState w μ g ν) :
    wp (forUp_ lo hi fun i => w.set i c) ν (fun _ ν => VState w μ (fun i => if lo ≤ i ∧ i < hi then c else g i) ν) := by
  refine wp_vecLoop _ h hw hhi hlo fun i ν h1 h2 hν => ?_
  rw [wp_vset]
  exact ⟨by omega, rfl⟩

theorem foldUp_id {σ : Type} {lo hi : Nat} {s : σ} {f : Nat → σ → σ} (h : ∀ i s, lo ≤ i → i < hi → f i s = s) :
    foldUp lo hi s f = s := by
  by_cases hle : lo ≤ hi
  · induction hi, hle using Nat.le_induction with
    | base => simp
    | succ k hk ih => rw [foldUp_succ hk, ih (fun i s h1 h2 => h i s h1 (by omega)), h k s hk (by omega)]
  · unfold foldUp
    rw [show hi - lo = 0 by omega]; rfl

/-- Only the summands from `c` on. -/
theorem foldUp_from {lo hi c : Nat} {s : T} {g : Nat → T} {P : Nat → Prop} [DecidablePred P]
    (hc : lo ≤ c) (hP : ∀ j, lo ≤ j → j < hi → (P j ↔ c ≤ j)) :
    foldUp lo hi s (fun j acc => if P j then o.add acc (o.abs (g j)) else acc) = sumV o c hi s g := by
  unfold sumV
  by_cases hle : c ≤ hi
  · induction hi, hle using Nat.le_induction with
    | base =>
      rw [foldUp_self]
      exact foldUp_id fun i s h1 h2 => if_neg fun hp => by have := (hP i h1 h2).1 hp; omega
    | succ k hk ih =>
      rw [foldUp_succ (by omega), foldUp_succ hk, ih (fun j h1 h2 => hP j h1 (by omega)),
        if_pos ((hP k (by omega) (by omega)).2 hk)]
  · rw [foldUp_id (fun i s h1 h2 => if_neg fun hp => by have := (hP i h1 h2).1 hp; omega)]
    unfold foldUp
    rw [show hi - c = 0 by omega]; rfl

/-- Only the summands below `c`. -/
theorem foldUp_below {lo hi c : Nat} {s : T} {g : Nat → T} {P : Nat → Prop} [DecidablePred P]
    (hlo : lo ≤ c) (hc : c ≤ hi) (hP : ∀ j, lo ≤ j → j < hi → (P j ↔ j < c)) :
    foldUp lo hi s (fun j acc => if P j then o.add acc (o.abs (g j)) else acc) = sumV o lo c s g := by
  unfold sumV
  induction hi, hc using Nat.le_induction with
  | base => exact foldUp_congr fun j acc h1 h2 => if_pos ((hP j h1 h2).2 h2)
  | succ k hk ih =>
    rw [foldUp_succ (by omega), ih (fun j h1 h2 => hP j h1 (by omega)),
      if_neg fun hp => by have := (hP k (by omega) (by omega)).1 hp; omega]

/-- infnorm_colmajor: the row sums start with the first summand. -/
def colmajorS (o : NOps T T) (m n : Nat) (a : Nat → Nat → T) (v : T) : Prop :=
  ∃ i, 0 ≤ i ∧ i < m ∧ v = sumV o 1 n (o.abs (a i 0)) fun j => a i j

theorem sub_owns {w : VecV L} {k : Nat} (hk : k ≤ w.n) {l : L} (h : (w.sub 0 k).Owns l) : w.Owns l := by
  obtain ⟨i, hi, rfl⟩ := h
  have hi' : i < k - 0 := hi
  exact ⟨0 + i, by omega, rfl⟩

theorem wp_infnormColmajor (hl : NanLaws o nn) {A : MatV L} {work : VecV L} (hw : work.Inj) (hd : A.DisjV work)
    (hk : A.m ≤ work.n) (hm : 0 < A.m) (hn : 0 < A.n) {μ : Store L T} :
    wp (infnormColmajor o A work) μ (fun x ν => (∀ l, ¬ work.Owns l → ν l = μ l) ∧ ∃ r, x = normRet r ∧
      MRes o o.zero (colmajorS o A.m A.n (entry μ A)) r) := by
  unfold infnormColmajor
  simp only []
  rw [if_neg (by omega)]
  simp only [wp_bind]
  refine wp_conseq (wp_reshapeW_e hk) ?_
  rintro w ν ⟨hw', rfl⟩
  have hwn : w.n = A.m := by rw [hw']; simp [VecV.sub]
  have hwi : w.Inj := by rw [hw']; exact hw.sub hk
  have hwd : A.DisjV w := fun i j hi hj => fun h => hd i j hi hj (sub_owns hk (hw' ▸ h))
  refine wp_conseq (wp_vecLoop (fun i => o.abs (entry ν A i 0)) (VState.start w ν) hwi (le_of_eq hwn.symm)
    (Nat.zero_le _) fun i ν' h1 h2 hν => ?_) ?_
  · simp only [wp_bind, wp_get, wp_vset]
    refine ⟨⟨h2, hn⟩, by omega, ?_⟩
    rw [hν.frame _ (hwd i 0 h2 hn)]
    rfl
  · intro _ ν1 h1
    refine wp_conseq (wp_addCols hwi hwd le_rfl hn (lo := fun _ => 0) (hi := fun _ => A.m)
      (fun j _ => ⟨Nat.zero_le _, le_rfl, le_of_eq hwn.symm⟩) h1) ?_
    intro _ ν2 h2
    rw [← hwn]
    refine wp_conseq (wp_maxW hl) ?_
    rintro x ν3 ⟨rfl, r, hx, hr⟩
    refine ⟨fun l hl' => h2.frame l fun h => hl' (sub_owns hk (hw' ▸ h)), r, hx, hr.congr fun v => ?_⟩
    unfold colmajorS
    refine exists_congr fun i => and_congr_right fun _ => and_congr_right fun hi => ?_
    have e : ventry ν3 w i = sumV o 1 A.n (o.abs (entry ν A i 0)) fun j => entry ν A i j := by
      refine (h2.val i hi).trans ?_
      rw [if_pos ⟨Nat.zero_le _, by omega⟩]
      exact foldUp_below (c := A.n) hn le_rfl fun j h1 h2 => by simp [h2]; omega
    rw [e]

theorem wp_symCol {A : MatV L} {w : VecV L} (hw : w.Inj) (hd : A.DisjV w) {j lo hi : Nat} (hj : j < A.n)
    (hlo : lo ≤ hi) (hhi : hi ≤ A.m) (hhw : hi ≤ w.n) {μ ν : Store L T} {g : Nat → T} {s : T} (h : VState w μ g ν) :
    wp (symCol o A w j lo hi s) ν (fun s' ν => s' = sumV o lo hi s (fun i => entry μ A i j) ∧
      VState w μ (fun i => if lo ≤ i ∧ i < hi then o.add (g i) (o.abs (entry μ A i j)) else g i) ν) := by
  unfold symCol sumV
  refine wp_vecLoopS _ _ h hw hhw hlo fun i s ν h1 h2 hν => ?_
  simp only [wp_bind, wp_get, wp_vmodify, wp_pure]
  have e1 : ν (w.cell i) = g i := hν.at i (by omega) (by rw [if_neg (by omega)])
  have e2 : ν (A.cell i j) = μ (A.cell i j) := hν.frame _ (hd i j (by omega) hj)
  rw [e1, e2]
  exact ⟨⟨by omega, hj⟩, by omega, rfl, rfl⟩

theorem sumV_succ {lo hi : Nat} (h : lo ≤ hi) {s : T} {g : Nat → T} :
    sumV o lo (hi + 1) s g = o.add (sumV o lo hi s g) (o.abs (g hi)) := by
  unfold sumV; rw [foldUp_succ h]

theorem sumV_self {lo : Nat} {s : T} {g : Nat → T} : sumV o lo lo s g = s := by
  unfold sumV; simp

/-- infnorm_symmetric_colmajor, infnorm_hermitian_colmajor: the sums of lanhe. -/
theorem wp_infnormSym (hl : NanLaws o nn) {uplo : Uplo} (hu : uplo = .Upper ∨ uplo = .Lower) {A : MatV L}
    {work : VecV L} (hw : work.Inj) (hd : A.DisjV work)
    (hk : A.m ≤ work.n) (hA : A.m = A.n) (hm : 0 < A.m) {μ : Store L T} :
    wp (infnormSym o o.absRe uplo A work) μ (fun x ν => (∀ l, ¬ work.Owns l → ν l = μ l) ∧ ∃ r, x = normRet r ∧
      MRes o o.zero (lanheS o .Inf uplo A.m (entry μ A)) r) := by
  unfold infnormSym
  simp only [wp_bind, wp_check]
  rw [if_pos (by rcases hu with rfl | rfl <;> rfl), if_neg (by omega)]
  simp only [wp_bind]
  refine wp_conseq (wp_reshapeW_e hk) ?_
  rintro w ν ⟨hw', rfl⟩
  have hwn : w.n = A.m := by rw [hw']; simp [VecV.sub]
  have hwi : w.Inj := by rw [hw']; exact hw.sub hk
  have hwd : A.DisjV w := fun i j hi hj => fun h => hd i j hi hj (sub_owns hk (hw' ▸ h))
  refine wp_conseq (wp_fillW hwi (Nat.zero_le _) (le_of_eq hwn.symm) (VState.start w ν)) ?_
  intro _ ν1 h1
  rcases hu with rfl | rfl
  · rw [if_pos rfl]
    simp only [wp_bind]
    refine wp_forUp_ (fun k ν' => VState w ν (fun i => if i < k then
        sumV o (i + 1) k (o.add (sumV o 0 i o.zero fun i' => entry ν A i' i) (o.absRe (entry ν A i i)))
          (fun j => entry ν A i j) else o.zero) ν') (Nat.zero_le _)
      (h1.congr fun i hi => by rw [if_neg (by omega), if_pos ⟨by omega, by omega⟩]) ?_ ?_
    · intro k ν' _ hk2 hν
      simp only [wp_bind]
      refine wp_conseq (wp_symCol hwi hwd (by omega) (Nat.zero_le _) (by omega) (by omega) hν) ?_
      rintro s ν2 ⟨rfl, h2⟩
      simp only [wp_get, wp_vset]
      refine ⟨⟨by omega, by omega⟩, by omega, ?_⟩
      rw [h2.frame _ (hwd k k (by omega) (by omega))]
      refine h2.upd hwi (by omega) fun i hi => ?_
      by_cases hik : i = k
      · subst hik
        rw [if_pos (by omega), if_pos rfl, sumV_self]
        rfl
      · rw [if_neg hik]
        by_cases hlt : i < k
        · rw [if_pos (by omega), if_pos ⟨by omega, hlt⟩, if_pos hlt, sumV_succ (by omega)]
        · rw [if_neg (by omega), if_neg (by omega), if_neg hlt]
    · intro ν2 h2
      rw [← hwn]
      refine wp_conseq (wp_maxW hl) ?_
      rintro x ν3 ⟨rfl, r, hx, hr⟩
      refine ⟨fun l hl' => h2.frame l fun h => hl' (sub_owns hk (hw' ▸ h)), r, hx, hr.congr fun v => ?_⟩
      unfold lanheS
      refine exists_congr fun i => and_congr_right fun _ => and_congr_right fun hi => ?_
      have e : ventry ν3 w i = lanheSumV o .Upper w.n (entry ν A) i := by
        refine (h2.val i hi).trans ?_
        rw [if_pos (by omega), hwn]
        unfold lanheSumV
        rw [if_pos rfl]
      rw [e]
  · rw [if_neg (by simp)]
    simp only [wp_bind]
    refine wp_conseq (wp_maxLoopG hl hl.zero (fun j => lanheSumV o .Lower A.m (entry ν A) j)
      (fun k ν' => VState w ν (fun i => if k ≤ i then sumV o 0 k o.zero (fun j => entry ν A i j)
        else ventry ν' w i) ν') (fun ν' => ∀ l, ¬ w.Owns l → ν' l = ν l) ?_ (fun i ν' _ h => h.frame) ?_) ?_
    · refine h1.congr fun i hi => ?_
      rw [if_pos (by omega), if_pos ⟨by omega, by omega⟩, sumV_self]
    · intro k ν' _ hk2 hν
      simp only [wp_bind, wp_vget, wp_get]
      refine ⟨by omega, ⟨by omega, by omega⟩, ?_⟩
      have e1 := hν.at k (by omega) (by rw [if_pos le_rfl])
      rw [e1, hν.frame _ (hwd k k (by omega) (by omega))]
      refine wp_conseq (wp_symCol hwi hwd (by omega) (by omega) le_rfl (by omega) hν) ?_
      rintro s ν2 ⟨rfl, h2⟩
      refine ⟨?_, ?_⟩
      · unfold lanheSumV
        rw [if_neg (by simp)]
        rfl
      · refine ⟨fun i hi => ?_, h2.frame⟩
        have := h2.val i hi
        by_cases hki : k + 1 ≤ i
        · rw [if_pos hki, sumV_succ (Nat.zero_le _)]
          rw [if_pos ⟨hki, by omega⟩, if_pos (by omega)] at this
          exact this
        · rw [if_neg hki]; rfl
    · rintro r ν' ⟨h2, hr⟩
      rw [wp_pure]
      exact ⟨fun l hl' => h2 l fun h => hl' (sub_owns hk (hw' ▸ h)), r, rfl, hr⟩

/-- infnorm_triangular_colmajor where it works: not more columns than rows, and not unit lower
triangular. -/
theorem wp_infnormTriangular (hl : NanLaws o nn) {uplo : Uplo} (hu : uplo = .Upper ∨ uplo = .Lower) {diag : Diag}
    (hud : uplo = .Upper ∨ diag = .NonUnit) {A : MatV L}
    {work : VecV L} (hw : work.Inj) (hd : A.DisjV work)
    (hk : A.m ≤ work.n) (hA : A.n ≤ A.m) (hn : 0 < A.n) {μ : Store L T} :
    wp (infnormTriangular o uplo diag A work) μ (fun x ν => (∀ l, ¬ work.Owns l → ν l = μ l) ∧ ∃ r, x = normRet r ∧
      MRes o o.zero (lantrS o .Inf uplo diag A.m A.n (entry μ A)) r) := by
  unfold infnormTriangular
  simp only [wp_bind, wp_check]
  rw [if_pos (by rcases hu with rfl | rfl <;> rfl), if_neg (by omega)]
  simp only [wp_bind]
  refine wp_conseq (wp_reshapeW_e hk) ?_
  rintro w ν ⟨hw', rfl⟩
  have hwn : w.n = A.m := by rw [hw']; simp [VecV.sub]
  have hwi : w.Inj := by rw [hw']; exact hw.sub hk
  have hwd : A.DisjV w := fun i j hi hj => fun h => hd i j hi hj (sub_owns hk (hw' ▸ h))
  refine wp_conseq (Q := fun _ ν' => VState w ν (fun i => lantrRowV o uplo diag A.n (entry ν A) i) ν') ?_ ?_
  · unfold infnormTriSums
    simp only [wp_bind]
    refine wp_conseq (wp_fillW hwi (Nat.zero_le _) (by omega) (VState.start w ν)) ?_
    intro _ ν1 h1
    rcases hu with rfl | rfl
    · rw [if_pos rfl]
      cases diag
      · rw [if_pos rfl]
        simp only [wp_bind]
        refine wp_conseq (wp_fillW hwi (Nat.zero_le _) (le_of_eq hwn.symm) h1) ?_
        intro _ ν2 h2
        refine wp_conseq (wp_addCols hwi hwd le_rfl (Nat.zero_le _) (lo := fun _ => 0)
          (hi := fun j => min j (A.m - 1) + 1) (fun j _ => ⟨Nat.zero_le _, by omega, by omega⟩) h2) ?_
        intro _ ν3 h3
        refine h3.congr fun i hi => ?_
        rw [if_pos ⟨Nat.zero_le _, by omega⟩]
        unfold lantrRowV
        rw [if_pos rfl, if_pos rfl]
        exact (foldUp_from (Nat.zero_le _) fun j _ hj => by omega).symm
      · rw [if_neg (by simp)]
        simp only [wp_bind]
        refine wp_conseq (wp_fillW hwi (Nat.zero_le _) (le_of_eq hwn.symm) h1) ?_
        intro _ ν2 h2
        refine wp_conseq (wp_addCols hwi hwd le_rfl hn (lo := fun _ => 0)
          (hi := fun j => min j A.m) (fun j _ => ⟨Nat.zero_le _, by omega, by omega⟩) h2) ?_
        intro _ ν3 h3
        refine h3.congr fun i hi => ?_
        rw [if_pos ⟨Nat.zero_le _, by omega⟩]
        unfold lantrRowV
        rw [if_pos rfl, if_neg (by simp)]
        exact (foldUp_from (by omega) fun j _ hj => by omega).symm
    · obtain rfl : diag = .NonUnit := by simpa using hud
      rw [if_neg (by simp), if_pos rfl]
      simp only [wp_bind]
      refine wp_conseq (wp_fillW hwi (Nat.zero_le _) (le_of_eq hwn.symm) h1) ?_
      intro _ ν2 h2
      refine wp_conseq (wp_addCols hwi hwd le_rfl (Nat.zero_le _) (lo := fun j => j)
        (hi := fun j => A.m) (fun j _ => ⟨by omega, by omega, by omega⟩) h2) ?_
      intro _ ν3 h3
      refine h3.congr fun i hi => ?_
      rw [if_pos ⟨Nat.zero_le _, by omega⟩]
      unfold lantrRowV
      rw [if_neg (by simp), if_pos (.inl rfl)]
      exact (foldUp_below (Nat.zero_le _) (by omega) fun j _ hj => by omega).symm
  · intro _ ν2 h2
    rw [← hwn]
    refine wp_conseq (wp_maxW hl) ?_
    rintro x ν3 ⟨rfl, r, hx, hr⟩
    refine ⟨fun l hl' => h2.frame l fun h => hl' (sub_owns hk (hw' ▸ h)), r, hx, hr.congr fun v => ?_⟩
    unfold lantrS
    refine exists_congr fun i => and_congr_right fun _ => and_congr_right fun hi => ?_
    rw [show ventry ν3 w i = lantrRowV o uplo diag A.n (entry ν A) i from h2.val i hi]

end TLA
