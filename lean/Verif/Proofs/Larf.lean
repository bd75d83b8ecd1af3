import Verif.Proofs.Refl
import Verif.Proofs.MW

/-! larf in exact arithmetic. -/

set_option linter.unusedSectionVars false
set_option linter.unusedTactic false
set_option linter.unreachableTactic false

namespace TLA
open Finset
variable {L T : Type} [DecidableEq L] [Field T] [StarRing T] [ReIm T] [DecidableEq T]

theorem wp_fillFrom {f : T → T} {dst src : VecV L} {μ : Store L T} (hd : dst.Inj) (hn : src.n = dst.n)
    (hs : src.Disj dst) :
    wp (fillFrom f dst src src.n) μ (fun _ ν => VState dst μ (fun i => f (ventry μ src i)) ν) := by
  unfold fillFrom
  refine wp_conseq (wp_vecLoop (fun i => f (ventry μ src i)) (VState.start dst μ) hd (by omega) (Nat.zero_le _) ?_) ?_
  · intro i ν _ hi hν
    simp only [wp_bind]
    refine wp_vgetE hi ?_
    rw [wp_vset]
    refine ⟨by omega, ?_⟩
    rw [hν.frame _ (hs i hi)]
    rfl
  · intro _ ν hν
    exact hν.congr (fun i hi => by rw [if_pos ⟨Nat.zero_le _, by omega⟩])

theorem wp_subFrom {f : T → T} {tau : T} {C0 w : VecV L} {μ : Store L T} (hd : C0.Inj) (hn : w.n = C0.n)
    (hs : w.Disj C0) :
    wp (subFrom f tau C0 w C0.n) μ (fun _ ν => VState C0 μ
      (fun i => ventry μ C0 i - tau * f (ventry μ w i)) ν) := by
  unfold subFrom
  refine wp_conseq (wp_vecLoop (fun i => ventry μ C0 i - tau * f (ventry μ w i)) (VState.start C0 μ) hd
    (le_refl _) (Nat.zero_le _) ?_) ?_
  · intro i ν _ hi hν
    simp only [wp_bind]
    refine wp_vgetE (by omega) ?_
    rw [wp_vmodify]
    refine ⟨hi, ?_⟩
    rw [hν.frame _ (hs i (by omega)), hν.val i hi, if_neg (by omega)]
    rfl
  · intro _ ν hν
    exact hν.congr (fun i hi => by rw [if_pos ⟨Nat.zero_le _, by omega⟩])

/-- The reflector vector without its pivot. -/
def uOf (store : StoreV) (x : Nat → T) : Nat → T := fun i =>
  match store with | .Columnwise => x i | .Rowwise => star (x i)

/-- Separation of the operands of larf on `C0`, `C1`. -/
structure LarfSep (x C0 w : VecV L) (C1 : MatV L) : Prop where
  i0 : C0.Inj
  i1 : C1.Inj
  iw : w.Inj
  x0 : x.Disj C0
  x1 : x.DisjM C1
  xw : x.Disj w
  w0 : w.Disj C0
  w1 : w.DisjM C1
  c01 : C0.DisjM C1

theorem VecV.DisjM.symm' {x : VecV L} {A : MatV L} (h : x.DisjM A) : A.DisjV x := by
  rintro i j hi hj ⟨k, hk, e⟩
  exact h k hk ⟨i, j, hi, hj, e.symm⟩

theorem MatV.DisjV.symm' {x : VecV L} {A : MatV L} (h : A.DisjV x) : x.DisjM A := by
  rintro k hk ⟨i, j, hi, hj, e⟩
  exact h i j hi hj ⟨k, hk, e.symm⟩

/-- Post-condition of larf on `C0`, `C1` from the left. -/
structure LarfL (u : Nat → T) (tau : T) (C0 w : VecV L) (C1 : MatV L) (μ ν : Store L T) : Prop where
  v0 : ∀ j, j < C0.n → ventry ν C0 j = ventry μ C0 j - tau * (ventry μ C0 j +
    ∑ s ∈ range C1.m, star (u s) * entry μ C1 s j)
  v1 : ∀ i j, i < C1.m → j < C1.n → entry ν C1 i j = entry μ C1 i j - tau * u i * (ventry μ C0 j +
    ∑ s ∈ range C1.m, star (u s) * entry μ C1 s j)
  frame : ∀ l, ¬ C0.Owns l → ¬ C1.Owns l → ¬ w.Owns l → ν l = μ l

/-- Post-condition of larf on `C0`, `C1` from the right. -/
structure LarfR (u : Nat → T) (tau : T) (C0 w : VecV L) (C1 : MatV L) (μ ν : Store L T) : Prop where
  v0 : ∀ i, i < C0.n → ventry ν C0 i = ventry μ C0 i - tau * (ventry μ C0 i +
    ∑ s ∈ range C1.n, entry μ C1 i s * u s)
  v1 : ∀ i j, i < C1.m → j < C1.n → entry ν C1 i j = entry μ C1 i j - tau * (ventry μ C0 i +
    ∑ s ∈ range C1.n, entry μ C1 i s * u s) * star (u j)
  frame : ∀ l, ¬ C0.Owns l → ¬ C1.Owns l → ¬ w.Owns l → ν l = μ l

/-- The last two steps: `C1` updated by `ν2`, then `C0`. -/
theorem larf_tail {f : T → T} {tau : T} {x C0 w : VecV L} {C1 : MatV L} (h : LarfSep x C0 w C1)
    (hn : w.n = C0.n) {μ ν1 ν2 : Store L T} {W : Nat → T} {G : Nat → Nat → T}
    (h1 : OnlyV w μ ν1) (hw : ∀ i, i < w.n → f (ventry ν1 w i) = W i) (h2 : MState C1 ν1 G ν2) :
    wp (subFrom f tau C0 w C0.n) ν2 (fun _ ν =>
      (∀ j, j < C0.n → ventry ν C0 j = ventry μ C0 j - tau * W j) ∧
      (∀ i j, i < C1.m → j < C1.n → entry ν C1 i j = G i j) ∧
      ∀ l, ¬ C0.Owns l → ¬ C1.Owns l → ¬ w.Owns l → ν l = μ l) := by
  refine wp_conseq (wp_subFrom h.i0 hn h.w0) ?_
  intro _ ν h3
  refine ⟨fun j hj => ?_, fun i j hi hj => ?_, fun l a b c => ?_⟩
  · rw [show ventry ν C0 j = _ from h3.val j hj, ← hw j (by omega)]
    have e1 : ventry ν2 C0 j = ventry μ C0 j :=
      (h2.frame _ (h.c01 j hj)).trans (h1 _ (h.w0.symm j hj))
    have e2 : ventry ν2 w j = ventry ν1 w j := h2.frame _ (h.w1 j (by omega))
    rw [e1, e2]
  · exact (h3.frame _ (h.c01.symm' i j hi hj)).trans (h2.val i j hi hj)
  · rw [h3.frame l a, h2.frame l b, h1 l c]

theorem wp_larfCoreL {store : StoreV} {x C0 w : VecV L} {C1 : MatV L} {tau : T} {μ : Store L T}
    (h : LarfSep x C0 w C1) (h0 : C0.n = C1.n) (hw : w.n = C0.n) (hx : x.n = C1.m) (hm : 0 < C1.m) :
    wp (larfCore .Left store x tau C0 C1 w) μ (fun _ ν => LarfL (uOf store (ventry μ x)) tau C0 w C1 μ ν) := by
  have hA1 : C1.DisjV w := h.w1.symm'
  cases store with
  | Columnwise =>
    unfold larfCore
    simp only [wp_bind]
    refine wp_conseq (wp_fillFrom h.iw (by omega) h.w0.symm) ?_
    intro _ ν1 h1
    refine wp_conseq (wp_gemv_e (m := C1.n) (n := C1.m) ⟨by simp, by simp, by omega, by omega, h.iw, hA1, h.xw⟩ (Or.inl hm)) ?_
    rintro _ ν2 ⟨o2, h2⟩
    have o12 : OnlyV w μ ν2 := fun l hl => (o2 l hl).trans (h1.frame l hl)
    refine wp_conseq (wp_ger (x := x) (y := w) h.i1 hx (by omega) h.x1 h.w1) ?_
    intro _ ν3 h3
    have hW : ∀ j, j < w.n → star (ventry ν2 w j) = ventry μ C0 j +
        ∑ s ∈ range C1.m, star (ventry μ x s) * entry μ C1 s j := by
      intro j hj
      rw [h2 j hj, show ventry ν1 w j = _ from h1.val j hj]
      simp only [opF, Coef.toVal, one_mul, star_add, star_star, star_sum, star_mul']
      rw [add_comm]
      congr 1
      refine Finset.sum_congr rfl fun s hs => ?_
      have hs := mem_range.1 hs
      rw [show entry ν1 C1 s j = entry μ C1 s j from h1.frame _ (hA1 s j hs (by omega)),
        show ventry ν1 x s = ventry μ x s from h1.frame _ (h.xw s (by omega)), mul_comm]
    refine wp_conseq (larf_tail h hw o12 hW h3) ?_
    rintro _ ν ⟨a, b, c⟩
    refine ⟨a, fun i j hi hj => ?_, c⟩
    rw [b i j hi hj, hW j (by omega), show entry ν2 C1 i j = entry μ C1 i j from o12 _ (hA1 i j hi hj),
      show ventry ν2 x i = ventry μ x i from o12 _ (h.xw i (by omega))]
    simp only [uOf]
    ring
  | Rowwise =>
    unfold larfCore
    simp only [wp_bind]
    refine wp_conseq (wp_fillFrom h.iw (by omega) h.w0.symm) ?_
    intro _ ν1 h1
    refine wp_conseq (wp_gemv_e (m := C1.n) (n := C1.m) ⟨by simp, by simp, by omega, by omega, h.iw, hA1, h.xw⟩ (Or.inl hm)) ?_
    rintro _ ν2 ⟨o2, h2⟩
    have o12 : OnlyV w μ ν2 := fun l hl => (o2 l hl).trans (h1.frame l hl)
    have hW : ∀ j, j < w.n → id (ventry ν2 w j) = ventry μ C0 j +
        ∑ s ∈ range C1.m, star (star (ventry μ x s)) * entry μ C1 s j := by
      intro j hj
      rw [id, h2 j hj, show ventry ν1 w j = _ from h1.val j hj]
      simp only [opF, Coef.toVal, one_mul, star_star, id]
      rw [add_comm]
      congr 1
      refine Finset.sum_congr rfl fun s hs => ?_
      have hs := mem_range.1 hs
      rw [show entry ν1 C1 s j = entry μ C1 s j from h1.frame _ (hA1 s j hs (by omega)),
        show ventry ν1 x s = ventry μ x s from h1.frame _ (h.xw s (by omega)), mul_comm]
    refine wp_conseq (wp_forCols (fun i j => entry ν2 C1 i j - tau * star (ventry ν2 x i) * ventry ν2 w j) rfl
      (MState.start C1 ν2) ?_) ?_
    · intro j ν hj hν
      refine wp_conseq (wp_colLoop (j := j) (fun i => entry ν2 C1 i j - tau * star (ventry ν2 x i) * ventry ν2 w j)
        hν h.i1 hj (le_refl _) (Nat.zero_le _) ?_) ?_
      · intro i ν' _ hi hν'
        simp only [wp_bind]
        refine wp_vgetE (by omega) ?_
        refine wp_vgetE (by omega) ?_
        rw [wp_modify]
        refine ⟨⟨hi, hj⟩, ?_⟩
        have e0 : ν' (C1.cell i j) = entry ν2 C1 i j := by
          rw [hν'.val i j hi hj]; simp
        rw [e0, hν'.frame _ (h.x1 i (by omega)), hν'.frame _ (h.w1 j (by omega))]
        rfl
      · intro _ ν' hν'
        refine hν'.congr (fun i' j' hi' hj' => ?_)
        by_cases e : j' = j
        · subst e; simp [hi']
        · simp [e]
    · intro _ ν3 h3
      refine wp_conseq (larf_tail (f := id) h hw o12 hW h3) ?_
      rintro _ ν ⟨a, b, c⟩
      refine ⟨a, fun i j hi hj => ?_, c⟩
      rw [b i j hi hj]
      have := hW j (by omega)
      rw [id] at this
      rw [this, show entry ν2 C1 i j = entry μ C1 i j from o12 _ (hA1 i j hi hj),
        show ventry ν2 x i = ventry μ x i from o12 _ (h.xw i (by omega))]
      rfl

theorem wp_larfCoreR {store : StoreV} {x C0 w : VecV L} {C1 : MatV L} {tau : T} {μ : Store L T}
    (h : LarfSep x C0 w C1) (h0 : C0.n = C1.m) (hw : w.n = C0.n) (hx : x.n = C1.n) (hn : 0 < C1.n) :
    wp (larfCore .Right store x tau C0 C1 w) μ (fun _ ν => LarfR (uOf store (ventry μ x)) tau C0 w C1 μ ν) := by
  have hA1 : C1.DisjV w := h.w1.symm'
  cases store with
  | Columnwise =>
    unfold larfCore
    simp only [wp_bind]
    refine wp_conseq (wp_fillFrom h.iw (by omega) h.w0.symm) ?_
    intro _ ν1 h1
    refine wp_conseq (wp_gemv_e (m := C1.m) (n := C1.n) ⟨by simp, by simp, by omega, by omega, h.iw, hA1, h.xw⟩ (Or.inl hn)) ?_
    rintro _ ν2 ⟨o2, h2⟩
    have o12 : OnlyV w μ ν2 := fun l hl => (o2 l hl).trans (h1.frame l hl)
    refine wp_conseq (wp_ger (x := w) (y := x) h.i1 (by omega) hx h.w1 h.x1) ?_
    intro _ ν3 h3
    have hW : ∀ i, i < w.n → id (ventry ν2 w i) = ventry μ C0 i +
        ∑ s ∈ range C1.n, entry μ C1 i s * ventry μ x s := by
      intro i hi
      rw [id, h2 i hi, show ventry ν1 w i = _ from h1.val i hi]
      simp only [opF, Coef.toVal, one_mul, id]
      rw [add_comm]
      congr 1
      refine Finset.sum_congr rfl fun s hs => ?_
      have hs := mem_range.1 hs
      rw [show entry ν1 C1 i s = entry μ C1 i s from h1.frame _ (hA1 i s (by omega) hs),
        show ventry ν1 x s = ventry μ x s from h1.frame _ (h.xw s (by omega))]
    refine wp_conseq (larf_tail h hw o12 hW h3) ?_
    rintro _ ν ⟨a, b, c⟩
    refine ⟨a, fun i j hi hj => ?_, c⟩
    have := hW i (by omega)
    rw [id] at this
    rw [b i j hi hj, this, show entry ν2 C1 i j = entry μ C1 i j from o12 _ (hA1 i j hi hj),
      show ventry ν2 x j = ventry μ x j from o12 _ (h.xw j (by omega))]
    simp only [uOf]
    ring
  | Rowwise =>
    unfold larfCore
    simp only [wp_bind]
    refine wp_conseq (wp_fillFrom h.iw (by omega) h.w0.symm) ?_
    intro _ ν1 h1
    refine wp_forUp_ (fun j ν => VState w ν1 (fun i => ventry ν1 w i +
      ∑ s ∈ range j, entry ν1 C1 i s * star (ventry ν1 x s)) ν) (Nat.zero_le _)
      ((VState.start w ν1).congr (fun i _ => by simp)) ?_ ?_
    · intro j ν _ hj hν
      refine wp_conseq (wp_vecLoop (fun i => ventry ν1 w i + ∑ s ∈ range (j + 1), entry ν1 C1 i s * star (ventry ν1 x s))
        hν h.iw (show C1.m ≤ w.n by omega) (Nat.zero_le _) ?_) ?_
      · intro i ν' _ hi hν'
        simp only [wp_bind]
        refine wp_getE ⟨hi, hj⟩ ?_
        refine wp_vgetE (by omega) ?_
        rw [wp_vmodify]
        refine ⟨by omega, ?_⟩
        rw [hν'.val i (by omega), if_neg (by omega), hν'.frame _ (hA1 i j hi hj),
          hν'.frame _ (h.xw j (by omega)), Finset.sum_range_succ, ← add_assoc]
        rfl
      · intro _ ν' hν'
        exact hν'.congr (fun i hi => by rw [if_pos ⟨Nat.zero_le _, by omega⟩])
    · intro ν2 h2
      have o12 : OnlyV w μ ν2 := fun l hl => (h2.frame l hl).trans (h1.frame l hl)
      refine wp_conseq (wp_geru (x := w) (y := x) h.i1 (by omega) hx h.w1 h.x1) ?_
      intro _ ν3 h3
      have hW : ∀ i, i < w.n → id (ventry ν2 w i) = ventry μ C0 i +
          ∑ s ∈ range C1.n, entry μ C1 i s * star (ventry μ x s) := by
        intro i hi
        rw [id, show ventry ν2 w i = _ from h2.val i hi, show ventry ν1 w i = _ from h1.val i hi]
        rw [id]
        congr 1
        refine Finset.sum_congr rfl fun s hs => ?_
        have hs := mem_range.1 hs
        rw [show entry ν1 C1 i s = entry μ C1 i s from h1.frame _ (hA1 i s (by omega) hs),
          show ventry ν1 x s = ventry μ x s from h1.frame _ (h.xw s (by omega))]
      refine wp_conseq (larf_tail h hw o12 hW h3) ?_
      rintro _ ν ⟨a, b, c⟩
      refine ⟨a, fun i j hi hj => ?_, c⟩
      have := hW i (by omega)
      rw [id] at this
      rw [b i j hi hj, this, show entry ν2 C1 i j = entry μ C1 i j from o12 _ (hA1 i j hi hj),
        show ventry ν2 x j = ventry μ x j from o12 _ (h.xw j (by omega))]
      simp only [uOf, star_star]
      ring

theorem wp_larfEmpty {C0 : VecV L} {tau : T} {μ : Store L T} (h : C0.Inj) :
    wp (forUp_ 0 C0.n fun i => do
      let c ← C0.get i
      C0.modify i (fun d => d - tau * c)) μ
      (fun _ ν => VState C0 μ (fun i => ventry μ C0 i - tau * ventry μ C0 i) ν) := by
  refine wp_conseq (wp_vecLoop (fun i => ventry μ C0 i - tau * ventry μ C0 i) (VState.start C0 μ) h
    (le_refl _) (Nat.zero_le _) ?_) ?_
  · intro i ν _ hi hν
    simp only [wp_bind]
    refine wp_vgetE hi ?_
    rw [wp_vmodify]
    refine ⟨hi, ?_⟩
    rw [hν.val i hi, if_neg (by omega)]
  · intro _ ν hν
    exact hν.congr (fun i hi => by rw [if_pos ⟨Nat.zero_le _, by omega⟩])

theorem larfSizeCheck_left {x : VecV L} {m n : Nat} (hx : x.n = m) (hn : 0 < n) :
    larfSizeCheck .Left x m n = true := by
  unfold larfSizeCheck
  rw [if_pos rfl]
  by_cases h : x.n = 1
  · rw [if_pos h, decide_eq_true_eq]; omega
  · rw [if_neg h, decide_eq_true_eq]; omega

theorem larfSizeCheck_right {x : VecV L} {m n : Nat} (hx : x.n = n) (hm : 0 < m) :
    larfSizeCheck .Right x m n = true := by
  unfold larfSizeCheck
  rw [if_neg (show ¬ (Side.Right = Side.Left) by simp)]
  by_cases h : x.n = 0
  · rw [if_pos h, decide_eq_true_eq]; omega
  · rw [if_neg h, decide_eq_true_eq]; omega

/-- larf on `C0`, `C1` from the left, at least one column. -/
theorem wp_larfCL {store : StoreV} {x C0 work : VecV L} {C1 : MatV L} {tau : T} {μ : Store L T}
    (h : LarfSep x C0 work C1) (h0 : C0.n = C1.n) (hx : x.n = C1.m) (hn : 0 < C1.n)
    (hw : 0 < C1.m → C1.n ≤ work.n) :
    wp (larfC .Left store x tau C0 C1 work) μ (fun _ ν => LarfL (uOf store (ventry μ x)) tau C0 work C1 μ ν) := by
  unfold larfC
  simp only [wp_bind, wp_check]
  rw [if_pos (by simp), if_pos (larfSizeCheck_left hx hn)]
  by_cases hm : C1.m = 0
  · rw [if_pos (Or.inl hm)]
    refine wp_conseq (wp_larfEmpty h.i0) ?_
    intro _ ν hν
    refine ⟨fun j hj => ?_, fun i j hi => by omega, fun l a b c => hν.frame l a⟩
    rw [show ventry ν C0 j = _ from hν.val j hj, hm]
    simp
  · rw [if_neg (by omega)]
    unfold reshapeW
    simp only [wp_bind, wp_check]
    rw [if_pos (by simp; have := hw (by omega); omega), wp_pure]
    have hle : C0.n ≤ work.n := by have := hw (by omega); omega
    have hsub : ∀ l, (work.sub 0 C0.n).Owns l → work.Owns l := fun l ho => ho.sub hle
    have hs : LarfSep x C0 (work.sub 0 C0.n) C1 := ⟨h.i0, h.i1, h.iw.sub hle, h.x0, h.x1,
      fun i hi ho => h.xw i hi (hsub _ ho),
      fun i hi => by simp only [VecV.sub] at hi ⊢; exact h.w0 _ (by omega),
      fun i hi => by simp only [VecV.sub] at hi ⊢; exact h.w1 _ (by omega), h.c01⟩
    refine wp_conseq (wp_larfCoreL hs h0 (by simp [VecV.sub]) hx (by omega)) ?_
    rintro _ ν ⟨a, b, c⟩
    exact ⟨a, b, fun l h1 h2 h3 => c l h1 h2 (fun ho => h3 (hsub l ho))⟩

/-- larf on `C0`, `C1` from the right, at least one row. -/
theorem wp_larfCR {store : StoreV} {x C0 work : VecV L} {C1 : MatV L} {tau : T} {μ : Store L T}
    (h : LarfSep x C0 work C1) (h0 : C0.n = C1.m) (hx : x.n = C1.n) (hm : 0 < C1.m)
    (hw : 0 < C1.n → C1.m ≤ work.n) :
    wp (larfC .Right store x tau C0 C1 work) μ (fun _ ν => LarfR (uOf store (ventry μ x)) tau C0 work C1 μ ν) := by
  unfold larfC
  simp only [wp_bind, wp_check]
  rw [if_pos (by simp), if_pos (larfSizeCheck_right hx hm)]
  by_cases hn : C1.n = 0
  · rw [if_pos (Or.inr hn)]
    refine wp_conseq (wp_larfEmpty h.i0) ?_
    intro _ ν hν
    refine ⟨fun j hj => ?_, fun i j _ hj => by omega, fun l a b c => hν.frame l a⟩
    rw [show ventry ν C0 j = _ from hν.val j hj, hn]
    simp
  · rw [if_neg (by omega)]
    unfold reshapeW
    simp only [wp_bind, wp_check]
    rw [if_pos (by simp; have := hw (by omega); omega), wp_pure]
    have hle : C0.n ≤ work.n := by have := hw (by omega); omega
    have hsub : ∀ l, (work.sub 0 C0.n).Owns l → work.Owns l := fun l ho => ho.sub hle
    have hs : LarfSep x C0 (work.sub 0 C0.n) C1 := ⟨h.i0, h.i1, h.iw.sub hle, h.x0, h.x1,
      fun i hi ho => h.xw i hi (hsub _ ho),
      fun i hi => by simp only [VecV.sub] at hi ⊢; exact h.w0 _ (by omega),
      fun i hi => by simp only [VecV.sub] at hi ⊢; exact h.w1 _ (by omega), h.c01⟩
    refine wp_conseq (wp_larfCoreR hs h0 (by simp [VecV.sub]) hx (by omega)) ?_
    rintro _ ν ⟨a, b, c⟩
    exact ⟨a, b, fun l h1 h2 h3 => c l h1 h2 (fun ho => h3 (hsub l ho))⟩

/-! ### larf on a matrix -/

def restRows (dir : Direction) (C : MatV L) : MatV L :=
  if dir = .Forward then C.sub 1 C.m 0 C.n else C.sub 0 (C.m - 1) 0 C.n
def restCols (dir : Direction) (C : MatV L) : MatV L :=
  if dir = .Forward then C.sub 0 C.m 1 C.n else C.sub 0 C.m 0 (C.n - 1)

theorem restRows_m (dir : Direction) (C : MatV L) : (restRows dir C).m = C.m - 1 := by
  unfold restRows; split <;> simp [MatV.sub]
theorem restRows_n (dir : Direction) (C : MatV L) : (restRows dir C).n = C.n := by
  unfold restRows; split <;> simp [MatV.sub]
theorem restRows_cell (dir : Direction) (C : MatV L) (i j : Nat) :
    (restRows dir C).cell i j = C.cell (skip dir i) j := by
  unfold restRows skip; split <;> simp [MatV.sub]
theorem restCols_m (dir : Direction) (C : MatV L) : (restCols dir C).m = C.m := by
  unfold restCols; split <;> simp [MatV.sub]
theorem restCols_n (dir : Direction) (C : MatV L) : (restCols dir C).n = C.n - 1 := by
  unfold restCols; split <;> simp [MatV.sub]
theorem restCols_cell (dir : Direction) (C : MatV L) (i j : Nat) :
    (restCols dir C).cell i j = C.cell i (skip dir j) := by
  unfold restCols skip; split <;> simp [MatV.sub]

theorem wp_larfRow {dir : Direction} {C : MatV L} (hm : 0 < C.m) {μ : Store L T}
    {Q : VecV L → Store L T → Prop} {E} (hQ : Q (C.rowv (pidx dir C.m) 0 C.n) μ) :
    wp (larfRow dir C) μ Q E := by
  unfold pidx at hQ
  unfold larfRow
  split
  · rename_i h; rw [if_pos h] at hQ
    exact wp_sliceRow (by omega) (by omega) (by omega) hQ
  · rename_i h; rw [if_neg h] at hQ
    exact wp_sliceRow (by omega) (by omega) (by omega) hQ

theorem wp_larfCol {dir : Direction} {C : MatV L} (hn : 0 < C.n) {μ : Store L T}
    {Q : VecV L → Store L T → Prop} {E} (hQ : Q (C.colv 0 C.m (pidx dir C.n)) μ) :
    wp (larfCol dir C) μ Q E := by
  unfold pidx at hQ
  unfold larfCol
  split
  · rename_i h; rw [if_pos h] at hQ
    exact wp_sliceCol (by omega) (by omega) (by omega) hQ
  · rename_i h; rw [if_neg h] at hQ
    exact wp_sliceCol (by omega) (by omega) (by omega) hQ

theorem wp_larfRows {dir : Direction} {C : MatV L} (hm : 0 < C.m) {μ : Store L T}
    {Q : MatV L → Store L T → Prop} {E} (hQ : Q (restRows dir C) μ) :
    wp (larfRows dir C) μ Q E := by
  unfold restRows at hQ
  unfold larfRows
  split
  · rename_i h; rw [if_pos h] at hQ
    exact wp_slice (by omega) (by omega) (by omega) (by omega) hQ
  · rename_i h; rw [if_neg h] at hQ
    exact wp_slice (by omega) (by omega) (by omega) (by omega) hQ

theorem wp_larfCols {dir : Direction} {C : MatV L} (hn : 0 < C.n) {μ : Store L T}
    {Q : MatV L → Store L T → Prop} {E} (hQ : Q (restCols dir C) μ) :
    wp (larfCols dir C) μ Q E := by
  unfold restCols at hQ
  unfold larfCols
  split
  · rename_i h; rw [if_pos h] at hQ
    exact wp_slice (by omega) (by omega) (by omega) (by omega) hQ
  · rename_i h; rw [if_neg h] at hQ
    exact wp_slice (by omega) (by omega) (by omega) (by omega) hQ

/-- `H G` entrywise. -/
def applyL (m : Nat) (tau : T) (u : Nat → T) (G : Nat → Nat → T) : Nat → Nat → T := fun i j =>
  G i j - tau * u i * ∑ s ∈ range m, star (u s) * G s j

/-- `G H` entrywise. -/
def applyR (n : Nat) (tau : T) (u : Nat → T) (G : Nat → Nat → T) : Nat → Nat → T := fun i j =>
  G i j - tau * (∑ s ∈ range n, G i s * u s) * star (u j)

theorem mat_applyL (m n : Nat) (tau : T) (u : Nat → T) (G : Nat → Nat → T) :
    mat m n (applyL m tau u G) = mat m m (reflF tau u) * mat m n G := by
  rw [mat_mul, mat_ext_iff]
  intro i j hi hj
  unfold applyL reflF
  simp only [sub_mul, Finset.sum_sub_distrib, ite_mul, one_mul, zero_mul]
  rw [Finset.sum_ite_eq, if_pos (mem_range.2 hi), Finset.mul_sum]
  congr 1
  exact Finset.sum_congr rfl fun s _ => by ring

theorem mat_applyR (m n : Nat) (tau : T) (u : Nat → T) (G : Nat → Nat → T) :
    mat m n (applyR n tau u G) = mat m n G * mat n n (reflF tau u) := by
  rw [mat_mul, mat_ext_iff]
  intro i j hi hj
  unfold applyR reflF
  simp only [mul_sub, Finset.sum_sub_distrib, mul_ite, mul_one, mul_zero]
  rw [Finset.sum_ite_eq', if_pos (mem_range.2 hj), Finset.mul_sum, Finset.sum_mul]
  congr 1
  exact Finset.sum_congr rfl fun s _ => by ring

theorem uOf_hvec {dir : Direction} {store : StoreV} {n i : Nat} {v : Nat → T} (hi : i < n - 1) :
    uOf store (fun i => v (skip dir i)) i = hvec dir store n v (skip dir i) := by
  rw [hvec_skip hi]; cases store <;> rfl

theorem wp_sliceX' {dir : Direction} {v : VecV L} {n : Nat} (hv : v.n = n) (hn : 0 < n) {μ : Store L T}
    {Q : VecV L → Store L T → Prop} {E} (hQ : Q (xpart dir v) μ) : wp (sliceX dir v n) μ Q E := by
  subst hv; exact wp_sliceX hn hQ

theorem wp_larf_left {dir : Direction} {store : StoreV} {v : VecV L} {C : MatV L} {work : VecV L} {tau : T}
    {μ : Store L T} (h : LarfOK .Left v C work) :
    wp (larf .Left dir store v tau C work) μ (fun _ ν =>
      MW C work μ (applyL C.m tau (hvec dir store C.m (ventry μ v)) (entry μ C)) ν) := by
  have hv : v.n = C.m := by simpa using h.vn
  unfold larf
  simp only [wp_bind, wp_check]
  rw [if_pos (by simp), if_pos (by simp [hv])]
  by_cases h0 : C.m = 0 ∨ C.n = 0
  · rw [if_pos h0, wp_pure]
    exact ⟨fun i j hi hj => by omega, fun _ _ _ => rfl⟩
  rw [if_neg h0]
  simp only [if_true, wp_bind]
  have hm : 0 < C.m := by omega
  have hn : 0 < C.n := by omega
  refine wp_larfRow hm ?_
  refine wp_larfRows hm ?_
  refine wp_sliceX' hv (by omega) ?_
  have hpm := pidx_lt (dir := dir) hm
  have hrow : ∀ l, (C.rowv (pidx dir C.m) 0 C.n).Owns l → C.Owns l := fun l ho => ho.rowv hpm (le_refl _)
  have hrest : ∀ l, (restRows dir C).Owns l → C.Owns l := by
    rintro l ⟨i, j, hi, hj, e⟩
    rw [restRows_m] at hi; rw [restRows_n] at hj; rw [restRows_cell] at e
    exact ⟨skip dir i, j, skip_lt hi, hj, e⟩
  have sep : LarfSep (xpart dir v) (C.rowv (pidx dir C.m) 0 C.n) work (restRows dir C) := by
    refine ⟨h.inj.rowv hpm (le_refl _), ?_, h.winj, ?_, ?_, ?_, ?_, ?_, ?_⟩
    · intro i j i' j' hi hj hi' hj' e
      rw [restRows_m] at hi hi'; rw [restRows_n] at hj hj'
      rw [restRows_cell, restRows_cell] at e
      obtain ⟨a, b⟩ := h.inj _ _ _ _ (skip_lt hi) hj (skip_lt hi') hj' e
      exact ⟨skip_inj a, b⟩
    · intro i hi ho
      rw [xpart_n] at hi; rw [xpart_cell] at ho
      exact h.vC _ (skip_lt hi) (hrow _ ho)
    · intro i hi ho
      rw [xpart_n] at hi; rw [xpart_cell] at ho
      exact h.vC _ (skip_lt hi) (hrest _ ho)
    · intro i hi ho
      rw [xpart_n] at hi; rw [xpart_cell] at ho
      exact h.vw _ (skip_lt hi) ho
    · intro i hi ho
      exact h.Cw.symm' i hi (hrow _ ho)
    · intro i hi ho
      exact h.Cw.symm' i hi (hrest _ ho)
    · rintro j hj ⟨i', j', hi', hj', e⟩
      simp only [MatV.rowv] at hj e
      rw [restRows_m] at hi'; rw [restRows_n] at hj'; rw [restRows_cell] at e
      exact skip_ne hi' (h.inj _ _ _ _ (skip_lt hi') hj' hpm (by omega) e).1
  refine wp_conseq (wp_larfCL sep (by rw [restRows_n]; simp [MatV.rowv]) (by rw [xpart_n, restRows_m, hv])
    (by rw [restRows_n]; exact hn) (by
      rw [restRows_m, restRows_n]
      intro h1
      have := h.wn
      unfold larfWorksize at this
      rw [if_pos ⟨rfl, hm⟩, if_pos ⟨h1, hn⟩] at this
      exact this)) ?_
  rintro _ ν ⟨a, b, c⟩
  have hve : ventry μ (xpart dir v) = fun i => ventry μ v (skip dir i) := funext fun i => by
    unfold ventry; rw [xpart_cell]
  have hC0 : ∀ (ν : Store L T) j, ventry ν (C.rowv (pidx dir C.m) 0 C.n) j = entry ν C (pidx dir C.m) j := fun ν j => by
    simp [ventry, MatV.rowv, entry]
  have hC1 : ∀ (ν : Store L T) i j, entry ν (restRows dir C) i j = entry ν C (skip dir i) j := fun ν i j => by
    unfold entry; rw [restRows_cell]
  have hsum : ∀ j, ∑ s ∈ range C.m, star (hvec dir store C.m (ventry μ v) s) * entry μ C s j =
      entry μ C (pidx dir C.m) j + ∑ s ∈ range (C.m - 1), star (uOf store (ventry μ (xpart dir v)) s) *
        entry μ C (skip dir s) j := by
    intro j
    rw [sum_pivot dir hm, hvec_pidx, star_one, one_mul]
    congr 1
    refine Finset.sum_congr rfl fun s hs => ?_
    rw [hve, uOf_hvec (mem_range.1 hs)]
  refine ⟨fun i j hi hj => ?_, fun l h1 h2 => c l (fun ho => h1 (hrow l ho)) (fun ho => h1 (hrest l ho)) h2⟩
  unfold applyL
  rw [hsum j]
  rcases pidx_cases (dir := dir) hi with rfl | ⟨k, hk, rfl⟩
  · have := a j (by simpa [MatV.rowv] using hj)
    simp only [hC0, hC1, restRows_m] at this
    rw [this, hvec_pidx, mul_one]
  · have := b k j (by rw [restRows_m]; exact hk) (by rw [restRows_n]; exact hj)
    simp only [hC0, hC1, restRows_m] at this
    rw [this, ← uOf_hvec hk, hve]

theorem wp_larf_right {dir : Direction} {store : StoreV} {v : VecV L} {C : MatV L} {work : VecV L} {tau : T}
    {μ : Store L T} (h : LarfOK .Right v C work) :
    wp (larf .Right dir store v tau C work) μ (fun _ ν =>
      MW C work μ (applyR C.n tau (hvec dir store C.n (ventry μ v)) (entry μ C)) ν) := by
  have hv : v.n = C.n := by simpa using h.vn
  unfold larf
  simp only [wp_bind, wp_check]
  rw [if_pos (by simp), if_pos (by simp [hv])]
  by_cases h0 : C.m = 0 ∨ C.n = 0
  · rw [if_pos h0, wp_pure]
    exact ⟨fun i j hi hj => by omega, fun _ _ _ => rfl⟩
  rw [if_neg h0]
  simp only [reduceCtorEq, if_false, wp_bind]
  have hm : 0 < C.m := by omega
  have hn : 0 < C.n := by omega
  refine wp_larfCol hn ?_
  refine wp_larfCols hn ?_
  refine wp_sliceX' hv (by omega) ?_
  have hpm := pidx_lt (dir := dir) hn
  have hrow : ∀ l, (C.colv 0 C.m (pidx dir C.n)).Owns l → C.Owns l := fun l ho => ho.colv (le_refl _) hpm
  have hrest : ∀ l, (restCols dir C).Owns l → C.Owns l := by
    rintro l ⟨i, j, hi, hj, e⟩
    rw [restCols_m] at hi; rw [restCols_n] at hj; rw [restCols_cell] at e
    exact ⟨i, skip dir j, hi, skip_lt hj, e⟩
  have sep : LarfSep (xpart dir v) (C.colv 0 C.m (pidx dir C.n)) work (restCols dir C) := by
    refine ⟨h.inj.colv (le_refl _) hpm, ?_, h.winj, ?_, ?_, ?_, ?_, ?_, ?_⟩
    · intro i j i' j' hi hj hi' hj' e
      rw [restCols_m] at hi hi'; rw [restCols_n] at hj hj'
      rw [restCols_cell, restCols_cell] at e
      obtain ⟨a, b⟩ := h.inj _ _ _ _ hi (skip_lt hj) hi' (skip_lt hj') e
      exact ⟨a, skip_inj b⟩
    · intro i hi ho
      rw [xpart_n] at hi; rw [xpart_cell] at ho
      exact h.vC _ (skip_lt hi) (hrow _ ho)
    · intro i hi ho
      rw [xpart_n] at hi; rw [xpart_cell] at ho
      exact h.vC _ (skip_lt hi) (hrest _ ho)
    · intro i hi ho
      rw [xpart_n] at hi; rw [xpart_cell] at ho
      exact h.vw _ (skip_lt hi) ho
    · intro i hi ho
      exact h.Cw.symm' i hi (hrow _ ho)
    · intro i hi ho
      exact h.Cw.symm' i hi (hrest _ ho)
    · rintro j hj ⟨i', j', hi', hj', e⟩
      simp only [MatV.colv] at hj e
      rw [restCols_m] at hi'; rw [restCols_n] at hj'; rw [restCols_cell] at e
      exact skip_ne hj' (h.inj _ _ _ _ hi' (skip_lt hj') (by omega) hpm e).2
  refine wp_conseq (wp_larfCR sep (by rw [restCols_m]; simp [MatV.colv]) (by rw [xpart_n, restCols_n, hv])
    (by rw [restCols_m]; exact hm) (by
      rw [restCols_m, restCols_n]
      intro h1
      have := h.wn
      unfold larfWorksize at this
      rw [if_neg (by simp), if_pos ⟨rfl, hn⟩, if_pos ⟨hm, h1⟩] at this
      exact this)) ?_
  rintro _ ν ⟨a, b, c⟩
  have hve : ventry μ (xpart dir v) = fun i => ventry μ v (skip dir i) := funext fun i => by
    unfold ventry; rw [xpart_cell]
  have hC0 : ∀ (ν : Store L T) j, ventry ν (C.colv 0 C.m (pidx dir C.n)) j = entry ν C j (pidx dir C.n) := fun ν j => by
    simp [ventry, MatV.colv, entry]
  have hC1 : ∀ (ν : Store L T) i j, entry ν (restCols dir C) i j = entry ν C i (skip dir j) := fun ν i j => by
    unfold entry; rw [restCols_cell]
  have hsum : ∀ i, ∑ s ∈ range C.n, entry μ C i s * hvec dir store C.n (ventry μ v) s =
      entry μ C i (pidx dir C.n) + ∑ s ∈ range (C.n - 1), entry μ C i (skip dir s) *
        uOf store (ventry μ (xpart dir v)) s := by
    intro j
    rw [sum_pivot dir hn, hvec_pidx, mul_one]
    congr 1
    refine Finset.sum_congr rfl fun s hs => ?_
    rw [hve, uOf_hvec (mem_range.1 hs)]
  refine ⟨fun i j hi hj => ?_, fun l h1 h2 => c l (fun ho => h1 (hrow l ho)) (fun ho => h1 (hrest l ho)) h2⟩
  unfold applyR
  rw [hsum i]
  rcases pidx_cases (dir := dir) hj with rfl | ⟨k, hk, rfl⟩
  · have := a i (by simpa [MatV.colv] using hi)
    simp only [hC0, hC1, restCols_n] at this
    rw [this, hvec_pidx, star_one, mul_one]
  · have := b i k (by rw [restCols_m]; exact hi) (by rw [restCols_n]; exact hk)
    simp only [hC0, hC1, restCols_n] at this
    rw [this, ← uOf_hvec hk, hve]

end TLA
