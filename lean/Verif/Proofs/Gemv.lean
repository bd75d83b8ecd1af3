import Verif.Proofs.Blas1
import Verif.Model.Blas2
import Verif.Model.Blas1

namespace TLA
variable {L T : Type} [DecidableEq L]

theorem wp_scaleVec [Zero T] [Mul T] {beta : Coef T} {y : VecV L} {m : Nat} {μ0 μ : Store L T}
    {g : Nat → T} (hy : y.Inj) (hm : y.n = m) (h : VState y μ0 g μ) :
    wp (scaleVec beta y m) μ (fun _ ν => VState y μ0 (fun i => beta.mulAssign (g i)) ν) := by
  subst hm
  refine wp_forUp_ (fun k ν => VState y μ0 (fun i => if i < k then beta.mulAssign (g i) else g i) ν)
    (Nat.zero_le _) (h.congr (by simp)) ?_ ?_
  · intro i ν _ hi hν
    simp only [wp_vmodify]
    refine ⟨hi, hν.upd hy hi ?_⟩
    intro i' hi'
    rw [hν.val i hi]
    upd_cases
  · intro ν hν
    exact hν.congr (fun i hi => by simp [hi])

theorem wp_gemvN [Add T] [Mul T] {f : T → T} {alpha : T} {A : MatV L} {x y : VecV L} {m n : Nat}
    {μ0 μ : Store L T} {g : Nat → T} (hy : y.Inj) (hAm : A.m = m) (hAn : A.n = n) (hx : x.n = n)
    (hyn : y.n = m) (hA : A.DisjV y) (hxy : x.Disj y) (h : VState y μ0 g μ) :
    wp (gemvN f alpha A x y m n) μ (fun _ ν => VState y μ0 (fun i =>
      foldUp 0 n (g i) (fun j acc => acc + alpha * ventry μ0 x j * f (entry μ0 A i j))) ν) := by
  subst hAm hAn
  refine wp_forUp_ (fun k ν => VState y μ0 (fun i =>
      foldUp 0 k (g i) (fun j acc => acc + alpha * ventry μ0 x j * f (entry μ0 A i j))) ν)
    (Nat.zero_le _) (by simpa using h) ?_ (fun ν hν => hν)
  intro j ν _ hj hν
  simp only [wp_bind, wp_vget]
  refine ⟨by omega, ?_⟩
  rw [hν.readV hxy (by omega)]
  refine wp_forUp_ (fun k ν => VState y μ0 (fun i =>
      foldUp 0 (if i < k then j + 1 else j) (g i)
        (fun j acc => acc + alpha * ventry μ0 x j * f (entry μ0 A i j))) ν)
    (Nat.zero_le _) (by simpa using hν) ?_ ?_
  · intro i ν _ hi hν
    simp only [wp_bind, wp_get, wp_vmodify]
    refine ⟨⟨hi, hj⟩, by omega, hν.upd hy (by omega) ?_⟩
    intro i' hi'
    rw [hν.val i (by omega), hν.read hA hi hj]
    by_cases e : i' = i
    · subst e; simp [foldUp_succ, entry, ventry]
    · rw [if_neg e]; congr 1; upd_cases
  · intro ν hν
    exact hν.congr (fun i hi => by rw [if_pos (by omega)])

theorem wp_gemvT [Zero T] [Add T] [Mul T] {f : T → T} {alpha : T} {A : MatV L} {x y : VecV L}
    {m n : Nat}
    {μ0 μ : Store L T} {g : Nat → T} (hy : y.Inj) (hAm : A.n = m) (hAn : A.m = n) (hx : x.n = n)
    (hyn : y.n = m) (hA : A.DisjV y) (hxy : x.Disj y) (h : VState y μ0 g μ) :
    wp (gemvT f alpha A x y m n) μ (fun _ ν => VState y μ0 (fun i =>
      g i + alpha * foldUp 0 n 0 (fun j acc => acc + f (entry μ0 A j i) * ventry μ0 x j)) ν) := by
  subst hAm hAn
  refine wp_forUp_ (fun k ν => VState y μ0 (fun i => if i < k then
      g i + alpha * foldUp 0 A.m 0 (fun j acc => acc + f (entry μ0 A j i) * ventry μ0 x j)
      else g i) ν)
    (Nat.zero_le _) (by simpa using h) ?_ ?_
  · intro i ν _ hi hν
    simp only [wp_bind]
    refine wp_forUp (fun k s ν' => ν' = ν ∧
        s = foldUp 0 k 0 (fun j acc => acc + f (entry μ0 A j i) * ventry μ0 x j))
      (Nat.zero_le _) (by simp) ?_ ?_
    · rintro j s _ _ hj ⟨rfl, rfl⟩
      simp only [wp_bind, wp_get, wp_vget, wp_pure]
      refine ⟨⟨hj, hi⟩, by omega, trivial, ?_⟩
      rw [hν.read hA hj hi, hν.readV hxy (by omega), foldUp_succ (Nat.zero_le _)]
      rfl
    · rintro s _ ⟨rfl, rfl⟩
      simp only [wp_vmodify]
      refine ⟨by omega, hν.upd hy (by omega) ?_⟩
      intro i' hi'
      rw [hν.val i (by omega)]
      upd_cases
  · intro ν hν
    exact hν.congr (fun i hi => by rw [if_pos (by omega)])

/-- Law-free value of entry `i` of the result of gemv (when `m, n > 0`). -/
def gemvVal [Zero T] [Add T] [Mul T] [Star T] (trans : Op) (alpha : T)
    (a : Nat → Nat → T) (x : Nat → T) (beta : Coef T) (y : Nat → T) (n i : Nat) : T :=
  match trans with
  | .NoTrans | .Conj =>
    foldUp 0 n (beta.mulAssign (y i)) (fun j acc => acc + alpha * x j * opF trans a i j)
  | .Trans | .ConjTrans =>
    beta.mulAssign (y i) + alpha * foldUp 0 n 0 (fun j acc => acc + opF trans a i j * x j)

theorem wp_gemv [Zero T] [Add T] [Mul T] [Star T] {trans : Op} {alpha : T} {A : MatV L}
    {x y : VecV L} {beta : Coef T} {m n : Nat} {μ : Store L T} (h : GemvOK trans A x y m n) :
    wp (gemv trans alpha A x beta y) μ (fun _ ν =>
      if m = 0 ∨ n = 0 then ν = μ else
      VState y μ (gemvVal trans alpha (entry μ A) (ventry μ x) beta (ventry μ y) n) ν) := by
  obtain ⟨h1, h2, h3, h4, hy, hA, hxy⟩ := h
  unfold gemv
  simp only [h1, h2, h3, h4, wp_bind, wp_check, ne_eq, not_true_eq_false, decide_false,
    Bool.not_false, if_true]
  rw [wp_ite]
  split
  · simp [*]
  · simp only [wp_bind]
    refine wp_conseq (wp_scaleVec hy h4 (VState.start y μ)) ?_
    intro _ ν hν
    cases trans <;> simp at h1 h2
    · exact wp_gemvN hy h1 h2 h3 h4 hA hxy hν
    · exact wp_gemvT hy h1 h2 h3 h4 hA hxy hν
    · exact wp_gemvT hy h1 h2 h3 h4 hA hxy hν
    · exact wp_gemvN hy h1 h2 h3 h4 hA hxy hν

omit [DecidableEq L] in
theorem gemvVal_exact [Field T] [StarRing T] (trans : Op) (alpha : T)
    (a : Nat → Nat → T) (x : Nat → T) (beta : Coef T) (y : Nat → T) (n i : Nat) :
    gemvVal trans alpha a x beta y n i =
      alpha * (∑ l ∈ Finset.range n, opF trans a i l * x l) + beta.toVal * y i := by
  have hb : beta.mulAssign (y i) = beta.toVal * y i := by
    cases beta <;> simp [Coef.mulAssign, Coef.toVal, mul_comm]
  unfold gemvVal
  cases trans <;> simp only [foldUp0_add, hb, zero_add, Finset.mul_sum] <;> rw [add_comm] <;>
    congr 1 <;> exact Finset.sum_congr rfl (fun l _ => by ring)

theorem wp_gemv_exact [Field T] [StarRing T] {trans : Op} {alpha : T} {A : MatV L}
    {x y : VecV L} {beta : Coef T} {m n : Nat} {μ : Store L T} (h : GemvOK trans A x y m n)
    (hn : 0 < n) :
    wp (gemv trans alpha A x beta y) μ (fun _ ν =>
      VState y μ (fun i => alpha * (∑ l ∈ Finset.range n, opF trans (entry μ A) i l * ventry μ x l)
        + beta.toVal * ventry μ y i) ν) := by
  refine wp_conseq (wp_gemv h) ?_
  intro _ ν hν
  split at hν
  · subst hν
    refine VState.init _ _ _ ?_
    intro i hi
    have := h.yn
    omega
  · exact hν.congr (fun i _ => (gemvVal_exact _ _ _ _ _ _ _ _).symm)

/-! ### Rank updates -/

theorem wp_gerLoop [Add T] [Mul T] {f : T → T} {alpha : T} {x y : VecV L} {A : MatV L} {m n : Nat}
    {μ0 μ : Store L T} {G : Nat → Nat → T}
    (hA : A.Inj) (hm : A.m = m) (hn : A.n = n) (hxn : x.n = m) (hyn : y.n = n)
    (hx : x.DisjM A) (hy : y.DisjM A) (h : MState A μ0 G μ) :
    wp (gerLoop f alpha x y A m n) μ (fun _ ν => MState A μ0
      (fun i j => G i j + ventry μ0 x i * (alpha * f (ventry μ0 y j))) ν) := by
  subst hm hn
  refine wp_forUp_ (fun j ν => MState A μ0 (fun i' j' => if j' < j then
      G i' j' + ventry μ0 x i' * (alpha * f (ventry μ0 y j')) else G i' j') ν)
    (Nat.zero_le _) (by simpa using h) ?_ (fun ν hν => hν.congr (fun i j _ hj => by simp [hj]))
  intro j ν _ hj hν
  simp only [wp_bind, wp_vget]
  refine ⟨by omega, ?_⟩
  rw [hν.readV hy (by omega)]
  refine wp_conseq (wp_colLoop (j := j) (fun i => G i j + ventry μ0 x i * (alpha * f (ventry μ0 y j)))
    hν hA hj (le_refl _) (Nat.zero_le _) ?_) ?_
  · intro i ν _ hi hν
    simp only [wp_bind, wp_vget, wp_modify]
    refine ⟨by omega, ⟨hi, hj⟩, ?_⟩
    rw [hν.readV hx (by omega), hν.val i j hi hj]
    simp [ventry]
  · intro _ ν hν
    refine hν.congr (fun i' j' _ _ => ?_)
    ifs_eq j' j

theorem wp_ger [Add T] [Mul T] [Star T] {alpha : T} {x y : VecV L} {A : MatV L}
    {μ : Store L T} (hA : A.Inj) (hxn : x.n = A.m) (hyn : y.n = A.n)
    (hx : x.DisjM A) (hy : y.DisjM A) :
    wp (ger alpha x y A) μ (fun _ ν => MState A μ
      (fun i j => entry μ A i j + ventry μ x i * (alpha * star (ventry μ y j))) ν) := by
  unfold ger
  simp only [wp_bind, wp_check, hxn, hyn, ne_eq, not_true_eq_false, decide_false,
    Bool.not_false, if_true]
  exact wp_gerLoop hA rfl rfl hxn hyn hx hy (MState.start A μ)

theorem wp_geru [Add T] [Mul T] {alpha : T} {x y : VecV L} {A : MatV L}
    {μ : Store L T} (hA : A.Inj) (hxn : x.n = A.m) (hyn : y.n = A.n)
    (hx : x.DisjM A) (hy : y.DisjM A) :
    wp (geru alpha x y A) μ (fun _ ν => MState A μ
      (fun i j => entry μ A i j + ventry μ x i * (alpha * ventry μ y j)) ν) := by
  unfold geru
  simp only [wp_bind, wp_check, hxn, hyn, ne_eq, not_true_eq_false, decide_false,
    Bool.not_false, if_true]
  exact wp_gerLoop hA rfl rfl hxn hyn hx hy (MState.start A μ)

omit [DecidableEq L] in
theorem notTri_upper : (!notTri .Upper) = true := rfl
omit [DecidableEq L] in
theorem notTri_lower : (!notTri .Lower) = true := rfl

/-- Law-free diagonal value of her. -/
def herDiag [Add T] [Mul T] [Sub T] [Star T] [ReIm T] (alpha a xj : T) : T :=
  re a + re xj * re (alpha * star xj) - im xj * im (alpha * star xj)

theorem wp_her [Add T] [Mul T] [Sub T] [Star T] [ReIm T] {uplo : Uplo} {alpha : T} {x : VecV L}
    {A : MatV L} {μ : Store L T} (hu : uplo = .Upper ∨ uplo = .Lower)
    (hA : A.Inj) (hn : A.n = A.m) (hxn : x.n = A.m) (hx : x.DisjM A) :
    wp (her uplo alpha x A) μ (fun _ ν => MState A μ (fun i j =>
      if i = j then herDiag alpha (entry μ A j j) (ventry μ x j)
      else if inTri uplo i j then entry μ A i j + ventry μ x i * (alpha * star (ventry μ x j))
      else entry μ A i j) ν) := by
  unfold her
  simp only [wp_bind, wp_check, hxn, hn, ne_eq, not_true_eq_false, decide_false,
    Bool.not_false, if_true]
  rcases hu with rfl | rfl
  · simp only [notTri_upper, if_true]
    refine wp_forUp_ (fun j ν => MState A μ (fun i' j' => if j' < j then
      (if i' = j' then herDiag alpha (entry μ A j' j') (ventry μ x j')
        else if inTri .Upper i' j' then
          entry μ A i' j' + ventry μ x i' * (alpha * star (ventry μ x j'))
        else entry μ A i' j') else entry μ A i' j') ν)
      (Nat.zero_le _) (by simpa using MState.start A μ) ?_
      (fun ν hν => hν.congr (fun i j _ hj => by simp only [show j < A.m by omega, if_true]))
    intro j ν _ hj hν
    simp only [wp_bind, wp_vget]
    refine ⟨by omega, ?_⟩
    rw [hν.readV hx (i := j) (by omega)]
    refine wp_conseq (wp_colLoop (j := j) (fun i => entry μ A i j + ventry μ x i * (alpha * star (ventry μ x j)))
      hν hA (by omega) (by omega) (Nat.zero_le _) ?_) ?_
    · intro i ν _ hi hν
      simp only [wp_bind, wp_vget, wp_modify]
      refine ⟨by omega, ⟨by omega, by omega⟩, ?_⟩
      rw [hν.readV hx (i := i) (by omega), hν.val i j (by omega) (by omega)]
      simp [ventry]
    · intro _ ν hν
      simp only [wp_modify]
      refine ⟨by omega, ⟨hj, by omega⟩, hν.upd hA hj (by omega) ?_⟩
      intro i' j' _ _
      rw [hν.readV hx (i := j) (by omega), hν.val j j hj (by omega)]
      simp only [ite_upper, ite_lower]
      by_cases e : j' = j
      · subst e
        by_cases e' : i' = j'
        · subst e'; simp [herDiag, ventry]
        · ifs
      · ifs
  · simp only [notTri_lower, reduceCtorEq, if_true, if_false]
    refine wp_forUp_ (fun j ν => MState A μ (fun i' j' => if j' < j then
      (if i' = j' then herDiag alpha (entry μ A j' j') (ventry μ x j')
        else if inTri .Lower i' j' then
          entry μ A i' j' + ventry μ x i' * (alpha * star (ventry μ x j'))
        else entry μ A i' j') else entry μ A i' j') ν)
      (Nat.zero_le _) (by simpa using MState.start A μ) ?_
      (fun ν hν => hν.congr (fun i j _ hj => by simp only [show j < A.m by omega, if_true]))
    intro j ν _ hj hν
    simp only [wp_bind, wp_vget, wp_modify]
    refine ⟨by omega, ⟨hj, by omega⟩, ?_⟩
    rw [hν.readV hx (i := j) (by omega), hν.val j j hj (by omega)]
    have hν2 := hν.upd (G' := fun i' j' => if i' = j ∧ j' = j then
      herDiag alpha (entry μ A j j) (ventry μ x j) else _) (v := herDiag alpha (entry μ A j j) (ventry μ x j))
      hA hj (by omega : j < A.n) (fun _ _ _ _ => rfl)
    rw [if_neg (by omega)]
    refine wp_conseq (wp_colLoop (j := j) (fun i => entry μ A i j + ventry μ x i * (alpha * star (ventry μ x j)))
      hν2 hA (by omega) (by omega) (by omega) ?_) ?_
    · intro i ν _ hi hν
      simp only [wp_bind, wp_vget, wp_modify]
      refine ⟨by omega, ⟨by omega, by omega⟩, ?_⟩
      rw [hν.readV hx (i := i) (by omega), hν.val i j (by omega) (by omega), if_neg (by omega),
        if_neg (by omega), if_neg (by omega)]
      rfl
    · intro _ ν hν
      refine hν.congr ?_
      intro i' j' _ _
      simp only [ite_upper, ite_lower]
      by_cases e : j' = j
      · subst e
        ifs
      · ifs

end TLA
