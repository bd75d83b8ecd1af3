import Verif.Proofs.PanelView
import Verif.Proofs.Lahr2Top
import Verif.Model.Gebrd

/-!
# A family of disjoint matrices

The contents of a family of pairwise disjoint matrices as a function `f k r c`; the routines as updates of that function.
-/

set_option linter.unusedSectionVars false
set_option linter.unusedTactic false
set_option linter.unreachableTactic false
set_option linter.unusedVariables false

namespace TLA
open Finset
variable {L K 𝕜 : Type} [DecidableEq L] [DecidableEq K] [RCLike 𝕜] [DecidableEq 𝕜] {p : HhPar}

structure Fam (B : K → MatV L) : Prop where
  inj : ∀ k, (B k).Inj
  disj : ∀ k k', k ≠ k' → (B k).Disj (B k')

theorem Fam.cell {B : K → MatV L} (h : Fam B) {k k' : K} {r c r' c' : Nat} (hr : r < (B k).m) (hc : c < (B k).n)
    (hr' : r' < (B k').m) (hc' : c' < (B k').n) (e : (B k).cell r c = (B k').cell r' c') : k = k' ∧ r = r' ∧ c = c' := by
  by_cases hk : k = k'
  · subst hk
    exact ⟨rfl, h.inj k _ _ _ _ hr hc hr' hc' e⟩
  · exact absurd ⟨r', c', hr', hc', e.symm⟩ (h.disj k k' hk r c hr hc)

/-- The contents of the family are `f`. -/
def LS (B : K → MatV L) (f : K → Nat → Nat → 𝕜) (ν : Store L 𝕜) : Prop :=
  ∀ k r c, r < (B k).m → c < (B k).n → entry ν (B k) r c = f k r c

/-- Nothing outside of the family changed. -/
def Fr (B : K → MatV L) (μ ν : Store L 𝕜) : Prop := ∀ l, (∀ k, ¬ (B k).Owns l) → ν l = μ l

theorem Fr.refl {B : K → MatV L} {μ : Store L 𝕜} : Fr B μ μ := fun _ _ => rfl
theorem Fr.trans {B : K → MatV L} {μ ν ξ : Store L 𝕜} (h : Fr B μ ν) (h' : Fr B ν ξ) : Fr B μ ξ :=
  fun l hl => (h' l hl).trans (h l hl)

theorem LS.congr {B : K → MatV L} {f g : K → Nat → Nat → 𝕜} {ν : Store L 𝕜} (h : LS B f ν)
    (e : ∀ k r c, r < (B k).m → c < (B k).n → g k r c = f k r c) : LS B g ν :=
  fun k r c hr hc => (h k r c hr hc).trans (e k r c hr hc).symm

theorem LS.self {B : K → MatV L} {ν : Store L 𝕜} : LS B (fun k => entry ν (B k)) ν := fun _ _ _ _ _ => rfl

/-- Part of a row or of a column of a member. -/
structure Vd (K : Type) where
  k : K
  row : Bool
  i : Nat
  lo : Nat
  hi : Nat

def Vd.vec (B : K → MatV L) (d : Vd K) : VecV L :=
  match d.row with
  | true => (B d.k).rowv d.i d.lo d.hi
  | false => (B d.k).colv d.lo d.hi d.i

def Vd.r (d : Vd K) (x : Nat) : Nat := match d.row with | true => d.i | false => d.lo + x
def Vd.c (d : Vd K) (x : Nat) : Nat := match d.row with | true => d.lo + x | false => d.i

/-- Where the vector lies in its matrix. -/
def Vd.has (d : Vd K) (r c : Nat) : Prop :=
  match d.row with | true => r = d.i ∧ d.lo ≤ c ∧ c < d.hi | false => c = d.i ∧ d.lo ≤ r ∧ r < d.hi

instance (d : Vd K) (r c : Nat) : Decidable (d.has r c) := by unfold Vd.has; cases d.row <;> infer_instance

def Vd.at (d : Vd K) (f : K → Nat → Nat → 𝕜) (x : Nat) : 𝕜 := f d.k (d.r x) (d.c x)

def Vd.ok (B : K → MatV L) (d : Vd K) : Prop :=
  match d.row with | true => d.i < (B d.k).m ∧ d.hi ≤ (B d.k).n | false => d.i < (B d.k).n ∧ d.hi ≤ (B d.k).m

/-- The position in the vector. -/
def Vd.idx (d : Vd K) (r c : Nat) : Nat := (match d.row with | true => c | false => r) - d.lo

theorem Vd.idx_at (d : Vd K) (x : Nat) : d.idx (d.r x) (d.c x) = x := by
  unfold Vd.idx Vd.r Vd.c; cases d.row <;> simp

/-- The family function with the vector `d` replaced by `g`. -/
def updV (f : K → Nat → Nat → 𝕜) (d : Vd K) (g : Nat → 𝕜) : K → Nat → Nat → 𝕜 := fun k r c =>
  if k = d.k ∧ d.has r c then g (d.idx r c) else f k r c

theorem updV_in {f : K → Nat → Nat → 𝕜} {d : Vd K} {g : Nat → 𝕜} {x : Nat} (hx : x < d.hi - d.lo) :
    updV f d g d.k (d.r x) (d.c x) = g x := by
  have : d.has (d.r x) (d.c x) := by
    unfold Vd.has Vd.r Vd.c; cases d.row <;> simp <;> omega
  unfold updV
  rw [if_pos ⟨rfl, this⟩, Vd.idx_at]

theorem updV_out {f : K → Nat → Nat → 𝕜} {d : Vd K} {g : Nat → 𝕜} {k : K} {r c : Nat} (h : ¬ (k = d.k ∧ d.has r c)) :
    updV f d g k r c = f k r c := if_neg h

def updE (f : K → Nat → Nat → 𝕜) (k0 : K) (r0 c0 : Nat) (v : 𝕜) : K → Nat → Nat → 𝕜 := fun k r c =>
  if k = k0 ∧ r = r0 ∧ c = c0 then v else f k r c

theorem Vd.vec_n {B : K → MatV L} {d : Vd K} : (d.vec B).n = d.hi - d.lo := by
  unfold Vd.vec; cases h : d.row <;> rfl

theorem Vd.vec_cell {B : K → MatV L} {d : Vd K} (x : Nat) : (d.vec B).cell x = (B d.k).cell (d.r x) (d.c x) := by
  unfold Vd.vec Vd.r Vd.c; cases h : d.row <;> rfl

theorem Vd.r_lt {B : K → MatV L} {d : Vd K} (h : d.ok B) {x : Nat} (hx : x < d.hi - d.lo) : d.r x < (B d.k).m := by
  unfold Vd.ok at h; unfold Vd.r; cases e : d.row <;> simp only [e] at h ⊢ <;> omega
theorem Vd.c_lt {B : K → MatV L} {d : Vd K} (h : d.ok B) {x : Nat} (hx : x < d.hi - d.lo) : d.c x < (B d.k).n := by
  unfold Vd.ok at h; unfold Vd.c; cases e : d.row <;> simp only [e] at h ⊢ <;> omega

theorem Vd.has_iff {d : Vd K} {r c : Nat} : d.has r c ↔ ∃ x, x < d.hi - d.lo ∧ r = d.r x ∧ c = d.c x := by
  unfold Vd.has Vd.r Vd.c
  cases e : d.row <;> simp only
  · constructor
    · rintro ⟨h1, h2, h3⟩; exact ⟨r - d.lo, by omega, by omega, h1⟩
    · rintro ⟨x, h1, h2, h3⟩; omega
  · constructor
    · rintro ⟨h1, h2, h3⟩; exact ⟨c - d.lo, by omega, h1, by omega⟩
    · rintro ⟨x, h1, h2, h3⟩; omega

theorem Vd.vec_inj {B : K → MatV L} (hB : Fam B) {d : Vd K} (h : d.ok B) : (d.vec B).Inj := by
  intro x y hx hy e
  rw [Vd.vec_n] at hx hy
  rw [Vd.vec_cell, Vd.vec_cell] at e
  have := hB.inj d.k _ _ _ _ (Vd.r_lt h hx) (Vd.c_lt h hx) (Vd.r_lt h hy) (Vd.c_lt h hy) e
  unfold Vd.r Vd.c at this
  cases e : d.row <;> simp only [e] at this <;> omega

theorem Vd.ventry_eq {B : K → MatV L} {d : Vd K} (h : d.ok B) {f : K → Nat → Nat → 𝕜} {ν : Store L 𝕜} (hf : LS B f ν)
    {x : Nat} (hx : x < d.hi - d.lo) : ventry ν (d.vec B) x = d.at f x := by
  unfold ventry
  rw [Vd.vec_cell]
  exact hf _ _ _ (Vd.r_lt h hx) (Vd.c_lt h hx)

/-- The effect of writing a vector of the family. -/
theorem LS.put {B : K → MatV L} (hB : Fam B) {d : Vd K} (h : d.ok B) {f : K → Nat → Nat → 𝕜} {ν ν' : Store L 𝕜} (hf : LS B f ν)
    (o : OnlyV (d.vec B) ν ν') {g : Nat → 𝕜} (e : ∀ x, x < d.hi - d.lo → ventry ν' (d.vec B) x = g x) :
    LS B (updV f d g) ν' ∧ Fr B ν ν' := by
  constructor
  · intro k r c hr hc
    unfold updV
    by_cases hh : k = d.k ∧ d.has r c
    · rw [if_pos hh]
      obtain ⟨rfl, hh⟩ := hh
      obtain ⟨x, hx, rfl, rfl⟩ := Vd.has_iff.1 hh
      have := e x hx
      unfold ventry at this
      rw [Vd.vec_cell] at this
      unfold entry
      rw [this]
      rw [Vd.idx_at]
    · rw [if_neg hh]
      refine Eq.trans ?_ (hf k r c hr hc)
      refine o _ ?_
      rintro ⟨x, hx, e⟩
      rw [Vd.vec_n] at hx
      rw [Vd.vec_cell] at e
      have := hB.cell (Vd.r_lt h hx) (Vd.c_lt h hx) hr hc e
      exact hh ⟨this.1.symm, Vd.has_iff.2 ⟨x, hx, this.2.1.symm, this.2.2.symm⟩⟩
  · intro l hl
    refine o l ?_
    rintro ⟨x, hx, e⟩
    rw [Vd.vec_n] at hx
    rw [Vd.vec_cell] at e
    exact hl d.k ⟨_, _, Vd.r_lt h hx, Vd.c_lt h hx, e⟩

/-- Two vectors of the family do not meet. -/
def Vd.dj (d e : Vd K) : Prop := ∀ x y, x < d.hi - d.lo → y < e.hi - e.lo → d.k = e.k → d.r x = e.r y → d.c x = e.c y → False

theorem Vd.dj_disj {B : K → MatV L} (hB : Fam B) {d e : Vd K} (hd : d.ok B) (he : e.ok B) (h : d.dj e) : (d.vec B).Disj (e.vec B) := by
  rintro x hx ⟨y, hy, e'⟩
  rw [Vd.vec_n] at hx hy
  rw [Vd.vec_cell, Vd.vec_cell] at e'
  have := hB.cell (Vd.r_lt he hy) (Vd.c_lt he hy) (Vd.r_lt hd hx) (Vd.c_lt hd hx) e'
  exact h x y hx hy this.1.symm this.2.1.symm this.2.2.symm

/-- `gemv` in the family. -/
theorem wp_gemv_F {B : K → MatV L} (hB : Fam B) {trans : Op} {alpha : 𝕜} {k : K} {r0 r1 c0 c1 : Nat} {d e : Vd K} {beta : 𝕜}
    {m n : Nat} {f : K → Nat → Nat → 𝕜} {ν : Store L 𝕜} (hf : LS B f ν) (hr : r1 ≤ (B k).m) (hc : c1 ≤ (B k).n)
    (hd : d.ok B) (he : e.ok B) (htr : trans ≠ .Conj)
    (hm : e.hi - e.lo = (if trans = .NoTrans then r1 - r0 else c1 - c0)) (hn : d.hi - d.lo = (if trans = .NoTrans then c1 - c0 else r1 - r0))
    (hb : 0 < d.hi - d.lo ∨ beta = 1) (dj : d.dj e)
    (dk : ∀ a b y, r0 ≤ a → a < r1 → c0 ≤ b → b < c1 → y < e.hi - e.lo → k = e.k → a = e.r y → b = e.c y → False) :
    wp (gemv trans alpha ((B k).sub r0 r1 c0 c1) (d.vec B) (.val beta) (e.vec B)) ν (fun _ ν' =>
      LS B (updV f e fun x => alpha * (∑ l ∈ range (d.hi - d.lo), opF trans (fun a b => f k (r0 + a) (c0 + b)) x l * d.at f l)
        + beta * e.at f x) ν' ∧ Fr B ν ν') := by
  have hdis : ((B k).sub r0 r1 c0 c1).DisjV (e.vec B) := by
    rintro a b ha hb' ⟨y, hy, e'⟩
    simp only [MatV.sub] at ha hb' e'
    rw [Vd.vec_n] at hy
    rw [Vd.vec_cell] at e'
    have := hB.cell (Vd.r_lt he hy) (Vd.c_lt he hy) (by omega) (by omega) e'
    exact dk (r0 + a) (c0 + b) y (by omega) (by omega) (by omega) (by omega) hy this.1.symm this.2.1.symm this.2.2.symm
  refine wp_conseq (wp_gemv_e (m := e.hi - e.lo) (n := d.hi - d.lo) ⟨?_, ?_, by rw [Vd.vec_n], by rw [Vd.vec_n], Vd.vec_inj hB he, hdis, Vd.dj_disj hB hd he dj⟩ hb) ?_
  · cases trans <;> simp [MatV.sub] at hm hn htr ⊢ <;> omega
  · cases trans <;> simp [MatV.sub] at hm hn htr ⊢ <;> omega
  rintro _ ν' ⟨o, v⟩
  refine LS.put hB he hf o fun x hx => ?_
  rw [v x (by rwa [Vd.vec_n]), Vd.ventry_eq he hf hx]
  congr 2
  refine Finset.sum_congr rfl fun l hl => ?_
  have hl := mem_range.1 hl
  rw [Vd.ventry_eq hd hf hl]
  congr 1
  have key : ∀ a b, a < r1 - r0 → b < c1 - c0 → entry ν ((B k).sub r0 r1 c0 c1) a b = f k (r0 + a) (c0 + b) := fun a b ha hb' =>
    hf k _ _ (by omega) (by omega)
  cases trans <;> simp only [opF] <;> simp at hm hn htr <;> rw [key _ _ (by omega) (by omega)]

theorem wp_conj_F {B : K → MatV L} (hB : Fam B) {d : Vd K} (hd : d.ok B) {f : K → Nat → Nat → 𝕜} {ν : Store L 𝕜} (hf : LS B f ν) :
    wp (conjugate (d.vec B)) ν (fun _ ν' => LS B (updV f d fun x => star (d.at f x)) ν' ∧ Fr B ν ν') := by
  refine wp_conseq (wp_conjugate_e (Vd.vec_inj hB hd)) ?_
  rintro _ ν' ⟨o, v⟩
  refine LS.put hB hd hf o fun x hx => ?_
  rw [v x (by rwa [Vd.vec_n]), Vd.ventry_eq hd hf hx]

theorem wp_scal_F {B : K → MatV L} (hB : Fam B) {d : Vd K} (hd : d.ok B) {f : K → Nat → Nat → 𝕜} {ν : Store L 𝕜} (hf : LS B f ν) {alpha : 𝕜} :
    wp (scal alpha (d.vec B)) ν (fun _ ν' => LS B (updV f d fun x => d.at f x * alpha) ν' ∧ Fr B ν ν') := by
  refine wp_conseq (wp_scal_e (Vd.vec_inj hB hd)) ?_
  rintro _ ν' ⟨o, v⟩
  refine LS.put hB hd hf o fun x hx => ?_
  rw [v x (by rwa [Vd.vec_n]), Vd.ventry_eq hd hf hx]

theorem LS.set {B : K → MatV L} (hB : Fam B) {k : K} {r c : Nat} {f : K → Nat → Nat → 𝕜} {ν : Store L 𝕜} (hf : LS B f ν) (hr : r < (B k).m)
    (hc : c < (B k).n) (v : 𝕜) : LS B (updE f k r c v) (upd ν ((B k).cell r c) v) ∧ Fr B ν (upd ν ((B k).cell r c) v) := by
  constructor
  · intro k' r' c' hr' hc'
    unfold updE entry
    by_cases h : k' = k ∧ r' = r ∧ c' = c
    · obtain ⟨rfl, rfl, rfl⟩ := h
      rw [if_pos ⟨rfl, rfl, rfl⟩]
      simp [upd]
    · rw [if_neg h, upd_ne_cell]
      · exact hf k' r' c' hr' hc'
      · intro e
        exact h (hB.cell hr' hc' hr hc (by first | exact e | exact e.symm))
  · intro l hl
    exact upd_ne_cell (fun e => hl k ⟨r, c, hr, hc, by first | exact e | exact e.symm⟩)

theorem Fam.not_owns {B : K → MatV L} {μ ν : Store L 𝕜} (h : Fr B μ ν) {l : L} (hl : ∀ k, ¬ (B k).Owns l) : ν l = μ l := h l hl

/-- A cell outside of the family is written. -/
theorem LS.outside {B : K → MatV L} {f : K → Nat → Nat → 𝕜} {ν : Store L 𝕜} (hf : LS B f ν) {l : L} (hl : ∀ k, ¬ (B k).Owns l) (v : 𝕜) :
    LS B f (upd ν l v) := by
  intro k r c hr hc
  refine Eq.trans ?_ (hf k r c hr hc)
  unfold entry
  exact upd_ne_cell (fun e => hl k ⟨r, c, hr, hc, by first | exact e | exact e.symm⟩)

/-- `conjugate(x); gemv(..., x, ...); conjugate(x)`. -/
theorem wp_gemvConj_F {B : K → MatV L} (hB : Fam B) {trans : Op} {k : K} {r0 r1 c0 c1 : Nat} {d e : Vd K}
    {f : K → Nat → Nat → 𝕜} {ν : Store L 𝕜} (hf : LS B f ν) (hr : r1 ≤ (B k).m) (hc : c1 ≤ (B k).n)
    (hd : d.ok B) (he : e.ok B) (htr : trans ≠ .Conj)
    (hm : e.hi - e.lo = (if trans = .NoTrans then r1 - r0 else c1 - c0)) (hn : d.hi - d.lo = (if trans = .NoTrans then c1 - c0 else r1 - r0))
    (dj : d.dj e)
    (dk : ∀ a b y, r0 ≤ a → a < r1 → c0 ≤ b → b < c1 → y < e.hi - e.lo → k = e.k → a = e.r y → b = e.c y → False)
    (dk' : ∀ a b y, r0 ≤ a → a < r1 → c0 ≤ b → b < c1 → y < d.hi - d.lo → k = d.k → a = d.r y → b = d.c y → False) :
    wp (gemvConj trans ((B k).sub r0 r1 c0 c1) (d.vec B) (e.vec B)) ν (fun _ ν' =>
      LS B (updV f e fun x => e.at f x - ∑ l ∈ range (d.hi - d.lo), opF trans (fun a b => f k (r0 + a) (c0 + b)) x l * star (d.at f l)) ν' ∧
      Fr B ν ν') := by
  unfold gemvConj
  simp only [wp_bind]
  refine wp_conseq (wp_conj_F hB hd hf) fun _ ν1 ⟨h1, g1⟩ => ?_
  refine wp_conseq (wp_gemv_F hB h1 hr hc hd he htr hm hn (Or.inr rfl) dj dk (m := e.hi - e.lo) (n := d.hi - d.lo)) fun _ ν2 ⟨h2, g2⟩ => ?_
  refine wp_conseq (wp_conj_F hB hd h2) fun _ ν3 ⟨h3, g3⟩ => ⟨?_, (g1.trans g2).trans g3⟩
  refine h3.congr fun k' r c hr' hc' => ?_
  have dhas : ∀ x, x < d.hi - d.lo → d.has (d.r x) (d.c x) := fun x hx => Vd.has_iff.2 ⟨x, hx, rfl, rfl⟩
  have nde : ∀ r c, d.has r c → d.k = e.k → ¬ e.has r c := by
    rintro r c h1 hk h2
    obtain ⟨x, hx, rfl, rfl⟩ := Vd.has_iff.1 h1
    obtain ⟨y, hy, h3, h4⟩ := Vd.has_iff.1 h2
    exact dj x y hx hy hk h3 h4
  have at1 : ∀ l, l < d.hi - d.lo → d.at (updV f d fun x => star (d.at f x)) l = star (d.at f l) := fun l hl => updV_in hl
  have eat : ∀ x, x < e.hi - e.lo → e.at (updV f d fun x => star (d.at f x)) x = e.at f x := fun x hx => updV_out (by
    rintro ⟨hk, h⟩
    exact nde _ _ h hk.symm (Vd.has_iff.2 ⟨x, hx, rfl, rfl⟩))
  by_cases hE : k' = e.k ∧ e.has r c
  · rw [updV_out (d := d) (by rintro ⟨hk, h⟩; exact nde r c h (hk.symm.trans hE.1) hE.2)]
    obtain ⟨rfl, hE⟩ := hE
    obtain ⟨x, hx, rfl, rfl⟩ := Vd.has_iff.1 hE
    rw [updV_in hx, updV_in hx, eat x hx, one_mul, neg_one_mul, add_comm, ← sub_eq_add_neg]
    congr 1
    refine Finset.sum_congr rfl fun l hl => ?_
    have hl := mem_range.1 hl
    rw [at1 l hl]
    congr 1
    have key : ∀ a b, a < r1 - r0 → b < c1 - c0 → updV f d (fun x => star (d.at f x)) k (r0 + a) (c0 + b) = f k (r0 + a) (c0 + b) := by
      intro a b ha hb
      refine updV_out ?_
      rintro ⟨hk, h⟩
      obtain ⟨y, hy, h3, h4⟩ := Vd.has_iff.1 h
      exact dk' (r0 + a) (c0 + b) y (by omega) (by omega) (by omega) (by omega) hy hk h3 h4
    cases trans <;> simp only [opF] <;> simp at hm hn htr <;> rw [key _ _ (by omega) (by omega)]
  · rw [updV_out hE]
    by_cases hD : k' = d.k ∧ d.has r c
    · obtain ⟨rfl, hh⟩ := hD
      obtain ⟨x, hx, rfl, rfl⟩ := Vd.has_iff.1 hh
      rw [updV_in hx]
      unfold Vd.at
      rw [updV_out hE, updV_in hx, star_star]
    · rw [updV_out hD, updV_out hE, updV_out hD]

end TLA
