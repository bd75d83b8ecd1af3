import Verif.Model.SchurBlk
import Verif.Proofs.Schur
import Verif.Proofs.Lahqr
import Verif.Proofs.Qr
import Verif.Proofs.MoveBulge

set_option linter.unusedTactic false
set_option linter.unusedSectionVars false
set_option linter.unusedVariables false
set_option linter.unreachableTactic false
set_option linter.unusedSimpArgs false

/-! schur_swap for real matrices: the pair of reflectors. -/

namespace TLA
open Matrix Finset
variable {L : Type} [DecidableEq L] {hp : HhPar}

/-- The reflector vector. -/
def swW (u : Nat → ℝ) : Nat → ℝ := fun k => if k = 0 then 1 else u k

/-- `I - tau w wᵀ` applied to `y`. -/
noncomputable def swH (l : Nat) (w : Nat → ℝ) (t : ℝ) (y : Nat → ℝ) : Nat → ℝ := fun k =>
  y k - (∑ j ∈ range l, w j * y j) * t * w k

theorem wp_swRefl {y : VecV L} (hy : y.Inj) (hn : 0 < y.n) (u : Nat → ℝ) (t : ℝ) (ν : Store L ℝ) {g : Nat → ℝ}
    (hg : ∀ k, k < y.n → ν (y.cell k) = g k) :
    wp (swRefl y u t) ν (fun _ ν' => VState y ν (swH y.n (swW u) t g) ν') := by
  unfold swRefl
  simp only [wp_bind]
  refine wp_vgetE hn ?_
  refine wp_forUp (fun k s ν' => ν' = ν ∧ s = ∑ j ∈ range k, swW u j * g j) hn ?_ ?_ ?_
  · exact ⟨rfl, by simp [swW, hg 0 hn]⟩
  · rintro k s ν' h1 h2 ⟨rfl, rfl⟩
    simp only [wp_bind]
    refine wp_vgetE h2 ?_
    rw [wp_pure]
    refine ⟨rfl, ?_⟩
    rw [sum_range_succ, hg k h2]
    have : k ≠ 0 := by omega
    simp [swW, this]
  rintro s ν' ⟨rfl, rfl⟩
  obtain ⟨S, hS⟩ : ∃ S, S = ∑ j ∈ range y.n, swW u j * g j := ⟨_, rfl⟩
  rw [← hS]
  have base : VState y ν' g ν' := VState.init _ _ _ hg
  rw [hg 0 hn]
  refine wp_vsetE hn ?_
  refine wp_forUp_ (fun k ν2 => VState y ν' (fun i => if i < k then swH y.n (swW u) t g i else g i) ν2) hn ?_ ?_ ?_
  · refine base.upd hy hn fun i hi => ?_
    by_cases e : i = 0
    · subst e; simp [swH, swW, hS]
    · rw [if_neg (by omega), if_neg e]
  · intro k ν2 h1 h2 h
    simp only [wp_bind]
    refine wp_vgetE h2 ?_
    rw [h.val k h2, if_neg (lt_irrefl k)]
    refine wp_vsetE h2 ?_
    refine h.upd hy h2 fun i hi => ?_
    by_cases e : i = k
    · subst e; rw [if_pos (by omega), if_pos rfl]; (have e0 : i ≠ 0 := by omega); simp [swH, swW, e0, hS]
    · rw [if_neg e]
      by_cases e2 : i < k
      · rw [if_pos (by omega), if_pos e2]
      · rw [if_neg (by omega), if_neg e2]
  · intro ν2 h
    exact h.congr fun i hi => by rw [if_pos hi]

/-- Both reflectors. -/
noncomputable def swP (l : Nat) (u1 : Nat → ℝ) (t1 : ℝ) (u2 : Nat → ℝ) (t2 : ℝ) (y : Nat → ℝ) : Nat → ℝ := fun k =>
  if 1 ≤ k then swH (l - 1) (swW u2) t2 (fun i => swH l (swW u1) t1 y (1 + i)) (k - 1) else swH l (swW u1) t1 y k

theorem wp_swPair {y : VecV L} (hy : y.Inj) (hn : 1 < y.n) (u1 u2 : Nat → ℝ) (t1 t2 : ℝ) (ν : Store L ℝ) {g : Nat → ℝ}
    (hg : ∀ k, k < y.n → ν (y.cell k) = g k) :
    wp (swRefl y u1 t1 >>= fun _ => swRefl (y.sub 1 y.n) u2 t2) ν (fun _ ν' => VState y ν (swP y.n u1 t1 u2 t2 g) ν') := by
  rw [wp_bind]
  refine wp_conseq (wp_swRefl hy (by omega) u1 t1 ν hg) ?_
  intro _ ν1 h1
  have hn' : (y.sub 1 y.n).n = y.n - 1 := rfl
  refine wp_conseq (wp_swRefl (g := fun i => swH y.n (swW u1) t1 g (1 + i)) (hy.sub (le_refl _)) (by rw [hn']; omega) u2 t2 ν1
    fun k hk => h1.val (1 + k) (by rw [hn'] at hk; omega)) ?_
  intro _ ν2 h2
  refine (h1.lift hy (le_refl _) h2).congr fun i hi => ?_
  unfold swP
  by_cases e : 1 ≤ i
  · rw [if_pos e, if_pos ⟨e, hi⟩]; rfl
  · rw [if_neg e, if_neg (by omega)]

/-- A map of vectors of length `l` applied to the components `ι 0, ..`. -/
noncomputable def swEmb (ι : Nat → Nat) (l : Nat) (f : (Nat → ℝ) → Nat → ℝ) (x : Nat → ℝ) : Nat → ℝ := fun r =>
  x r + ∑ k ∈ range l, if ι k = r then f (fun i => x (ι i)) k - x (ι k) else 0

variable {ι : Nat → Nat} {l : Nat}

theorem swEmb_in (hι : ∀ a b, a < l → b < l → ι a = ι b → a = b) (f : (Nat → ℝ) → Nat → ℝ) (x : Nat → ℝ) {k : Nat} (hk : k < l) :
    swEmb ι l f x (ι k) = f (fun i => x (ι i)) k := by
  unfold swEmb
  rw [sum_eq_single k (fun b hb hbk => by rw [if_neg fun h => hbk (hι _ _ (mem_range.1 hb) hk h)])
    (fun h => absurd (mem_range.2 hk) h), if_pos rfl]
  ring

theorem swEmb_out (f : (Nat → ℝ) → Nat → ℝ) (x : Nat → ℝ) {r : Nat} (h : ∀ k, k < l → ι k ≠ r) : swEmb ι l f x r = x r := by
  unfold swEmb
  rw [sum_eq_zero fun k hk => if_neg (h k (mem_range.1 hk)), add_zero]

theorem wp_swApply {X : MatV L} (hX : X.Inj) (hι : ∀ a b, a < l → b < l → ι a = ι b → a = b) (hm : ∀ k, k < l → ι k < X.m)
    (hl : 1 < l) (u1 u2 : Nat → ℝ) (t1 t2 : ℝ) {lo hi : Nat} (hle : lo ≤ hi) (hh : hi ≤ X.n) {μ ν : Store L ℝ} {F : Nat → Nat → ℝ}
    (h : MState X μ F ν) :
    wp (swApply X ι l u1 t1 u2 t2 lo hi) ν (fun _ ν' => MState X μ
      (fun r c => if lo ≤ c ∧ c < hi then swEmb ι l (swP l u1 t1 u2 t2) (fun r => F r c) r else F r c) ν') := by
  unfold swApply
  refine wp_forUp_ (fun j ν' => MState X μ
      (fun r c => if lo ≤ c ∧ c < j then swEmb ι l (swP l u1 t1 u2 t2) (fun r => F r c) r else F r c) ν') hle ?_ ?_ ?_
  · exact h.congr fun r c _ _ => by rw [if_neg (by omega)]
  · intro j ν1 h1 h2 g
    rw [wp_bind]
    unfold swLine
    rw [if_pos ⟨by omega, hm⟩, wp_pure]
    have hy : (⟨l, fun k => X.cell (ι k) j⟩ : VecV L).Inj := fun a b ha hb e =>
      hι a b ha hb (hX _ _ _ _ (hm a ha) (by omega) (hm b hb) (by omega) e).1
    have := wp_swPair (y := ⟨l, fun k => X.cell (ι k) j⟩) hy hl u1 u2 t1 t2 ν1 (g := fun k => F (ι k) j) fun k hk => by
      have := g.val (ι k) j (hm k hk) (by omega)
      rw [if_neg (by omega)] at this
      exact this
    refine wp_conseq this ?_
    intro _ ν2 q
    refine ⟨fun r c hr hc => ?_, fun c hc => ?_⟩
    · by_cases e : c = j
      · subst e
        rw [if_pos ⟨h1, by omega⟩]
        by_cases e2 : ∃ k, k < l ∧ ι k = r
        · obtain ⟨k, hk, rfl⟩ := e2
          rw [swEmb_in hι _ _ hk]
          exact q.val k hk
        · rw [swEmb_out _ _ fun k hk hr' => e2 ⟨k, hk, hr'⟩, q.frame _ ?_, g.val r c hr hc, if_neg (by omega)]
          rintro ⟨k, hk, e3⟩
          exact e2 ⟨k, hk, (hX _ _ _ _ (hm k hk) (by omega) hr hc e3).1⟩
      · rw [q.frame _ ?_, g.val r c hr hc]
        · by_cases e2 : lo ≤ c ∧ c < j
          · rw [if_pos e2, if_pos (by omega)]
          · rw [if_neg e2, if_neg (by omega)]
        · rintro ⟨k, hk, e3⟩
          exact e (hX _ _ _ _ (hm k hk) (by omega) hr hc e3).2.symm
    · rw [q.frame _ ?_, g.frame _ hc]
      rintro ⟨k, hk, e3⟩
      exact hc ⟨ι k, j, hm k hk, by omega, e3⟩
  · exact fun ν' g => g

theorem wp_swApplyR {X : MatV L} (hX : X.Inj) (hι : ∀ a b, a < l → b < l → ι a = ι b → a = b) (hm : ∀ k, k < l → ι k < X.n)
    (hl : 1 < l) (u1 u2 : Nat → ℝ) (t1 t2 : ℝ) {hi : Nat} (hh : hi ≤ X.m) {μ ν : Store L ℝ} {F : Nat → Nat → ℝ}
    (h : MState X μ F ν) :
    wp (swApply (rsView .Right X) ι l u1 t1 u2 t2 0 hi) ν (fun _ ν' => MState X μ
      (fun r c => if r < hi then swEmb ι l (swP l u1 t1 u2 t2) (F r) c else F r c) ν') := by
  rw [rsView_right]
  refine wp_conseq (wp_swApply (X := X.tr) hX.tr hι hm hl u1 u2 t1 t2 (Nat.zero_le _) hh (MState.tr.2 h)) ?_
  intro _ ν' g
  refine (MState.tr (A := X) (G := fun r c => if r < hi then swEmb ι l (swP l u1 t1 u2 t2) (F r) c else F r c)).1 (g.congr fun r c _ _ => ?_)
  simp

theorem wp_rdVec {v : VecV L} {μ : Store L ℝ} {Q : (Nat → ℝ) → Store L ℝ → Prop} {E}
    (hQ : ∀ u, (∀ k, k < v.n → u k = μ (v.cell k)) → Q u μ) : wp (rdVec v) μ Q E := by
  unfold rdVec
  refine wp_forUp (fun k u ν => ν = μ ∧ ∀ i, i < k → u i = μ (v.cell i)) (Nat.zero_le _) ⟨rfl, fun i hi => by omega⟩ ?_ ?_
  · rintro k u ν h1 h2 ⟨rfl, h⟩
    simp only [wp_bind]
    refine wp_vgetE h2 ?_
    rw [wp_pure]
    refine ⟨rfl, fun i hi => ?_⟩
    beta_reduce
    by_cases e : i = k
    · rw [if_pos e, e]
    · rw [if_neg e, h i (by omega)]
  · rintro u ν ⟨rfl, h⟩
    exact hQ u h

/-! ### The matrix of the pair -/

/-- The two reflectors as a matrix. -/
noncomputable def swM (l : Nat) (u1 : Nat → ℝ) (t1 : ℝ) (u2 : Nat → ℝ) (t2 : ℝ) : Matrix (Fin l) (Fin l) ℝ :=
  mat l l (reflF t2 (fun k => if k = 0 then 0 else swW u2 (k - 1))) * mat l l (reflF t1 (swW u1))

theorem swH_mulVec (l : Nat) (w : Nat → ℝ) (t : ℝ) (y : Nat → ℝ) :
    vec l (swH l w t y) = (mat l l (reflF t w)).mulVec (vec l y) := by
  funext k
  simp only [vec, mat, Matrix.mulVec, dotProduct, Matrix.of_apply, reflF, swH, star_trivial, sub_mul, sum_sub_distrib, ite_mul, one_mul, zero_mul]
  rw [show (∑ i : Fin l, if (k : ℕ) = (i : ℕ) then y i else 0) = y k from by
    rw [sum_eq_single k (fun b _ hb => if_neg fun h => hb (Fin.ext h.symm)) (fun h => absurd (mem_univ _) h), if_pos rfl],
    ← Fin.sum_univ_eq_sum_range (fun j => w j * y j), sum_mul, sum_mul]
  congr 1
  exact sum_congr rfl fun i _ => by ring

theorem swP_mulVec {l : Nat} (hl : 0 < l) (u1 u2 : Nat → ℝ) (t1 t2 : ℝ) (y : Nat → ℝ) :
    vec l (swP l u1 t1 u2 t2 y) = (swM l u1 t1 u2 t2).mulVec (vec l y) := by
  rw [swM, ← Matrix.mulVec_mulVec, ← swH_mulVec, ← swH_mulVec]
  refine vec_ext_iff.2 fun k hk => ?_
  obtain ⟨z, hz⟩ : ∃ z, z = swH l (swW u1) t1 y := ⟨_, rfl⟩
  unfold swP
  rw [← hz]
  unfold swH
  obtain ⟨m, rfl⟩ : ∃ m, l = m + 1 := ⟨l - 1, by omega⟩
  have hs : (∑ j ∈ range (m + 1), (if j = 0 then 0 else swW u2 (j - 1)) * z j) = ∑ j ∈ range m, swW u2 j * z (1 + j) := by
    rw [sum_range_succ']
    simp [add_comm]
  rw [hs]
  beta_reduce
  by_cases e : 1 ≤ k
  · rw [if_pos e, if_neg (by omega), show 1 + (k - 1) = k by omega]; simp
  · rw [if_neg e, if_pos (by omega)]; simp

end TLA
