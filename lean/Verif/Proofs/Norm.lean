import Verif.SpecNorm
import Verif.Proofs.Scan
import Verif.Proofs.HouseScalar

/-! Matrix norms: the loops. -/

set_option linter.unusedSectionVars false
set_option linter.unusedVariables false

namespace TLA
open Finset
variable {L T R : Type} [DecidableEq L]

/-- Outcome of scanning the values `S`, starting from `x0`. -/
def MRes (o : NOps T R) (x0 : R) (S : R → Prop) (r : R ⊕ R) : Prop :=
  match r with
  | .inl x => (∀ v, S v → o.isnan v = false) ∧ (x = x0 ∨ S x ∧ o.gt x x0 = true) ∧
      (∀ v, S v → o.gt v x = false) ∧ o.isnan x = false
  | .inr v => S v ∧ o.isnan v = true

variable {o : NOps T R} {nn : R → Prop}

theorem MRes.start (hl : NanLaws o nn) {x0 : R} (h : o.isnan x0 = false) :
    MRes o x0 (fun _ => False) (.inl x0) :=
  ⟨fun _ h => h.elim, .inl rfl, fun _ h => h.elim, h⟩

theorem MRes.upd (hl : NanLaws o nn) {x0 t : R} (h : o.isnan x0 = false) :
    MRes o x0 (fun v => v = t) (normUpd o x0 t) := by
  unfold normUpd
  split
  · rename_i hg
    refine ⟨?_, .inr ⟨rfl, hg⟩, ?_, hl.gt_nan _ _ hg⟩
    · rintro v rfl; exact hl.gt_nan _ _ hg
    · rintro v rfl; exact hl.irrefl _
  · rename_i hg
    split
    · exact ⟨rfl, ‹_›⟩
    · rename_i hn
      refine ⟨?_, .inl rfl, ?_, h⟩
      · rintro v rfl; simpa using hn
      · rintro v rfl; simpa using hg

theorem MRes.comp (hl : NanLaws o nn) {x0 x : R} {S1 S2 S : R → Prop} {r : R ⊕ R}
    (h1 : MRes o x0 S1 (.inl x)) (h2 : MRes o x S2 r) (hS : ∀ v, S v ↔ S1 v ∨ S2 v) :
    MRes o x0 S r := by
  cases r with
  | inr v => exact ⟨(hS _).2 (.inr h2.1), h2.2⟩
  | inl y =>
    obtain ⟨a1, a2, a3, a5⟩ := h1
    obtain ⟨b1, b2, b3, b5⟩ := h2
    refine ⟨fun v hv => ((hS v).1 hv).elim (a1 v) (b1 v), ?_, fun v hv => ?_, b5⟩
    · rcases b2 with rfl | ⟨b2, b2'⟩
      · exact a2.imp id (fun h => ⟨(hS _).2 (.inl h.1), h.2⟩)
      · right
        refine ⟨(hS _).2 (.inr b2), ?_⟩
        rcases a2 with rfl | ⟨a2, a2'⟩
        · exact b2'
        · by_contra hc
          have := hl.trans _ _ _ a2' (by simpa using hc) b5
          rw [b2'] at this
          cases this
    · rcases (hS v).1 hv with h | h
      · rcases b2 with rfl | ⟨b2, b2'⟩
        · exact a3 v h
        · exact hl.trans _ _ _ b2' (a3 v h) (a1 v h)
      · exact b3 v h

theorem MRes.early {x0 : R} {S S' : R → Prop} {v : R} (h : MRes o x0 S (.inr v))
    (hS : ∀ v, S v → S' v) : MRes o x0 S' (.inr v) := ⟨hS _ h.1, h.2⟩

theorem MRes.congr {x0 : R} {S S' : R → Prop} {r : R ⊕ R} (h : MRes o x0 S r)
    (hS : ∀ v, S' v ↔ S v) : MRes o x0 S' r := by
  have : S' = S := funext fun v => propext (hS v)
  rwa [this]

/-- NaN exactly when a scanned value is. -/
theorem MRes.nan {x0 : R} {S : R → Prop} {r : R ⊕ R} (h : MRes o x0 S r) :
    o.isnan (normRet r) = true ↔ ∃ v, S v ∧ o.isnan v = true := by
  cases r with
  | inr v => exact ⟨fun _ => ⟨v, h.1, h.2⟩, fun _ => h.2⟩
  | inl x =>
    obtain ⟨a1, a2, a3, a5⟩ := h
    refine ⟨fun hc => ?_, fun ⟨v, hv, hc⟩ => ?_⟩
    · simp only [normRet] at hc; rw [a5] at hc; cases hc
    · rw [a1 v hv] at hc; cases hc

/-- The loop over one row or column; the loop body may write memory. -/
theorem wp_maxLoopG (hl : NanLaws o nn) {lo hi : Nat} {x0 : R} (h0 : o.isnan x0 = false)
    {f : Nat → M L T R} (g : Nat → R) (I : Nat → Store L T → Prop) (K : Store L T → Prop)
    {μ : Store L T} (hI : I lo μ) (hK : ∀ i ν, lo ≤ i → I i ν → K ν)
    (hf : ∀ i ν, lo ≤ i → i < hi → I i ν → wp (f i) ν (fun v ν' => v = g i ∧ I (i + 1) ν')) :
    wp (maxLoop o lo hi x0 f) μ (fun r ν => K ν ∧
      MRes o x0 (fun v => ∃ i, lo ≤ i ∧ i < hi ∧ v = g i) r) := by
  unfold maxLoop
  refine wp_forRet' (fun k x ν => lo ≤ k ∧ I k ν ∧ MRes o x0 (fun v => ∃ i, lo ≤ i ∧ i < k ∧ v = g i) (.inl x))
    ⟨le_refl _, hI, (MRes.start hl h0).congr fun v => ⟨fun ⟨i, h1, h2, _⟩ => by omega, fun h => h.elim⟩⟩ ?_ ?_
  · rintro i x ν h1 h2 ⟨_, hi', hm⟩
    simp only [wp_bind]
    refine wp_mono (hf i ν h1 h2 hi') ?_ (fun _ _ h => h.elim)
    rintro v ν' ⟨rfl, hi''⟩
    rw [wp_pure]
    have step := MRes.upd hl (t := g i) hm.2.2.2
    have hS : ∀ v, (∃ i', lo ≤ i' ∧ i' < i + 1 ∧ v = g i') ↔
        (∃ i', lo ≤ i' ∧ i' < i ∧ v = g i') ∨ v = g i := by
      intro v
      constructor
      · rintro ⟨i', a, b, rfl⟩
        rcases Nat.lt_succ_iff_lt_or_eq.1 b with b | rfl
        · exact .inl ⟨i', a, b, rfl⟩
        · exact .inr rfl
      · rintro (⟨i', a, b, rfl⟩ | rfl)
        · exact ⟨i', a, by omega, rfl⟩
        · exact ⟨i, h1, by omega, rfl⟩
    rcases hu : normUpd o x (g i) with y | y
    · rw [hu] at step
      exact ⟨by omega, hi'', hm.comp hl step hS⟩
    · rw [hu] at step
      exact ⟨hK _ _ (by omega) hi'', (hm.comp hl step hS).early
        (fun v ⟨i', a, b, e⟩ => ⟨i', a, by omega, e⟩)⟩
  · rintro x ν ⟨hk, hi', hm⟩
    refine ⟨hK _ _ hk hi', hm.congr fun v => ?_⟩
    constructor
    · rintro ⟨i, a, b, e⟩; exact ⟨i, a, by omega, e⟩
    · rintro ⟨i, a, b, e⟩; exact ⟨i, a, by omega, e⟩

theorem wp_maxLoop (hl : NanLaws o nn) {lo hi : Nat} {x0 : R} (h0 : o.isnan x0 = false)
    {f : Nat → M L T R} (g : Nat → R) {μ : Store L T}
    (hf : ∀ i, lo ≤ i → i < hi → wp (f i) μ (fun v ν => v = g i ∧ ν = μ)) :
    wp (maxLoop o lo hi x0 f) μ (fun r ν => ν = μ ∧
      MRes o x0 (fun v => ∃ i, lo ≤ i ∧ i < hi ∧ v = g i) r) :=
  wp_maxLoopG hl h0 g (fun _ ν => ν = μ) (fun ν => ν = μ) rfl (fun _ _ _ h => h)
    (by rintro i ν h1 h2 rfl; exact hf i h1 h2)

theorem wp_getAbs {A : MatV L} {i j : Nat} {μ : Store L T} (hi : i < A.m) (hj : j < A.n) :
    wp (getAbs o A i j) μ (fun v ν => v = o.abs (entry μ A i j) ∧ ν = μ) := by
  unfold getAbs
  simp only [wp_bind, wp_get, wp_pure]
  exact ⟨⟨hi, hj⟩, rfl, trivial⟩

theorem wp_getAbsRe {A : MatV L} {i j : Nat} {μ : Store L T} (hi : i < A.m) (hj : j < A.n) :
    wp (getAbsRe o A i j) μ (fun v ν => v = o.absRe (entry μ A i j) ∧ ν = μ) := by
  unfold getAbsRe
  simp only [wp_bind, wp_get, wp_pure]
  exact ⟨⟨hi, hj⟩, rfl, trivial⟩

/-- The loop nest of the max norm: `P j` is the set of values of column `j`. -/
theorem wp_maxNest (hl : NanLaws o nn) {n : Nat} {x0 : R} (h0 : o.isnan x0 = false)
    {f : Nat → R → M L T (R ⊕ R)} (P : Nat → R → Prop) {μ : Store L T}
    (hf : ∀ j x, j < n → o.isnan x = false → wp (f j x) μ (fun r ν => ν = μ ∧ MRes o x (P j) r)) :
    wp (forRet 0 n x0 f) μ (fun r ν => ν = μ ∧ MRes o x0 (fun v => ∃ j, j < n ∧ P j v) r) := by
  refine wp_forRet (fun k x ν => ν = μ ∧ MRes o x0 (fun v => ∃ j, j < k ∧ P j v) (.inl x)) (Nat.zero_le _)
    ⟨rfl, (MRes.start hl h0).congr fun v => ⟨fun ⟨i, h1, _⟩ => by omega, fun h => h.elim⟩⟩ ?_
    (fun _ _ h => h)
  rintro j x ν _ hj ⟨rfl, hm⟩
  refine wp_mono (hf j x hj hm.2.2.2) ?_ (fun _ _ h => h)
  rintro r ν' ⟨rfl, hr⟩
  have hc := hm.comp hl hr (S := fun v => ∃ j', j' < j + 1 ∧ P j' v) (fun v => by
    constructor
    · rintro ⟨j', a, b⟩
      rcases Nat.lt_succ_iff_lt_or_eq.1 a with a | rfl
      · exact .inl ⟨j', a, b⟩
      · exact .inr b
    · rintro (⟨j', a, b⟩ | b)
      · exact ⟨j', by omega, b⟩
      · exact ⟨j, by omega, b⟩)
  cases r with
  | inl y => exact ⟨rfl, hc⟩
  | inr y => exact ⟨rfl, hc.early fun v ⟨j', a, b⟩ => ⟨j', by omega, b⟩⟩

theorem wp_maxRegion (hl : NanLaws o nn) {A : MatV L} {x0 : R} (h0 : o.isnan x0 = false)
    {lo hi : Nat → Nat} {n : Nat} (hn : n ≤ A.n) {μ : Store L T}
    (hhi : ∀ j, j < n → lo j < hi j → hi j ≤ A.m) :
    wp (maxRegion o A n x0 lo hi) μ (fun x ν => ν = μ ∧ ∃ r, x = normRet r ∧
      MRes o x0 (fun v => ∃ j, j < n ∧ ∃ i, lo j ≤ i ∧ i < hi j ∧ v = o.abs (entry μ A i j)) r) := by
  unfold maxRegion
  simp only [wp_bind]
  refine wp_mono (wp_maxNest hl h0
    (fun j v => ∃ i, lo j ≤ i ∧ i < hi j ∧ v = o.abs (entry μ A i j)) fun j x hj hx => ?_) ?_ (fun _ _ h => h)
  · exact wp_maxLoop hl hx (fun i => o.abs (entry μ A i j)) fun i h1 h2 =>
      wp_getAbs (by have := hhi j hj (by omega); omega) (by omega)
  · rintro r ν ⟨rfl, h⟩
    rw [wp_pure]
    exact ⟨rfl, r, rfl, h⟩

/-- The value of a summation loop. -/
def sumV (o : NOps T R) (lo hi : Nat) (s : R) (g : Nat → T) : R :=
  foldUp lo hi s fun i acc => o.add acc (o.abs (g i))

theorem wp_sumLoopN {lo hi : Nat} {s : R} {f : Nat → M L T T} (g : Nat → T) {μ : Store L T}
    (hf : ∀ i, lo ≤ i → i < hi → wp (f i) μ (fun v ν => v = g i ∧ ν = μ)) :
    wp (sumLoop o lo hi s f) μ (fun v ν => v = sumV o lo hi s g ∧ ν = μ) := by
  unfold sumLoop sumV
  by_cases h : lo ≤ hi
  · refine wp_sumLoop _ h fun i acc h1 h2 => ?_
    simp only [wp_bind]
    refine wp_mono (hf i h1 h2) ?_ (fun _ _ h => h)
    rintro v ν ⟨rfl, rfl⟩
    rw [wp_pure]
    exact ⟨rfl, rfl⟩
  · unfold forUp foldUp
    rw [show hi - lo = 0 by omega]
    exact ⟨rfl, rfl⟩

theorem wp_getE' {A : MatV L} {i j : Nat} {μ : Store L T} (hi : i < A.m) (hj : j < A.n) :
    wp (A.get i j) μ (fun v ν => v = entry μ A i j ∧ ν = μ) := by
  rw [wp_get]; exact ⟨⟨hi, hj⟩, rfl, rfl⟩

theorem sumV_nan (hl : NanLaws o nn) {lo hi : Nat} {s : R} (hs : nn s) (g : Nat → T) :
    nn (sumV o lo hi s g) ∧ (o.isnan (sumV o lo hi s g) = true ↔
      o.isnan s = true ∨ ∃ i, lo ≤ i ∧ i < hi ∧ o.isnan (o.abs (g i)) = true) := by
  unfold sumV
  by_cases h : lo ≤ hi
  · induction hi, h using Nat.le_induction with
    | base => simp; exact ⟨hs, fun i h1 h2 => by omega⟩
    | succ k hk ih =>
      rw [foldUp_succ hk]
      refine ⟨hl.nn_add _ _ ih.1 (hl.nn_abs _), ?_⟩
      rw [hl.add _ _ ih.1 (hl.nn_abs _), ih.2, or_assoc]
      refine or_congr_right ?_
      constructor
      · rintro (⟨i, a, b, c⟩ | c)
        · exact ⟨i, a, by omega, c⟩
        · exact ⟨k, hk, by omega, c⟩
      · rintro ⟨i, a, b, c⟩
        rcases Nat.lt_succ_iff_lt_or_eq.1 b with b | rfl
        · exact .inl ⟨i, a, b, c⟩
        · exact .inr c
  · unfold foldUp
    rw [show hi - lo = 0 by omega]
    refine ⟨hs, ?_⟩
    simp only [foldUpN]
    constructor
    · exact .inl
    · rintro (h | ⟨i, a, b, c⟩)
      · exact h
      · omega

/-! ### Values scanned by the routines -/

/-- lange. -/
def langeS (o : NOps T R) (nt : Norm) (m n : Nat) (a : Nat → Nat → T) (v : R) : Prop :=
  match nt with
  | .Max => ∃ j, j < n ∧ ∃ i, 0 ≤ i ∧ i < m ∧ v = o.abs (a i j)
  | .Inf => ∃ i, 0 ≤ i ∧ i < m ∧ v = sumV o 0 n o.zero fun j => a i j
  | .One => ∃ j, 0 ≤ j ∧ j < n ∧ v = sumV o 0 m o.zero fun i => a i j
  | _ => False

theorem wp_langeG (hl : NanLaws o nn) {A : MatV L} {nt : Norm} (h1 : nt ≠ .Two) (h2 : nt ≠ .Fro) {fro : M L T R}
    (hm : 0 < A.m) (hn : 0 < A.n) {μ : Store L T} :
    wp (langeG o fro nt A) μ (fun x ν => ν = μ ∧ ∃ r, x = normRet r ∧
      MRes o o.zero (langeS o nt A.m A.n (entry μ A)) r) := by
  unfold langeG
  simp only [wp_bind, wp_check]
  have hok : normOK nt = true := by cases nt <;> first | rfl | exact absurd rfl h1
  rw [if_pos hok, if_neg (by omega)]
  cases nt with
  | Two => exact absurd rfl h1
  | Fro => exact absurd rfl h2
  | Max => exact wp_maxRegion hl hl.zero (le_refl _) (fun _ _ _ => le_refl _)
  | Inf =>
    simp only [wp_bind]
    refine wp_mono (wp_maxLoop hl hl.zero (fun i => sumV o 0 A.n o.zero fun j => entry μ A i j)
      fun i _ hi => wp_sumLoopN _ fun j _ hj => wp_getE' hi hj) ?_ (fun _ _ h => h)
    rintro r ν ⟨rfl, h⟩
    rw [wp_pure]
    exact ⟨rfl, r, rfl, h⟩
  | One =>
    simp only [wp_bind]
    refine wp_mono (wp_maxLoop hl hl.zero (fun j => sumV o 0 A.m o.zero fun i => entry μ A i j)
      fun i _ hi => wp_sumLoopN _ fun j _ hj => wp_getE' hj hi) ?_ (fun _ _ h => h)
    rintro r ν ⟨rfl, h⟩
    rw [wp_pure]
    exact ⟨rfl, r, rfl, h⟩

/-- Row sums of lantr. -/
def lantrRowV (o : NOps T R) (uplo : Uplo) (diag : Diag) (n : Nat) (a : Nat → Nat → T) (i : Nat) : R :=
  if uplo = .Upper then
    if diag = .NonUnit then sumV o i n o.zero fun j => a i j
    else sumV o (i + 1) n o.one fun j => a i j
  else
    if diag = .NonUnit ∨ i ≥ n then sumV o 0 (min i (n - 1) + 1) o.zero fun j => a i j
    else sumV o 0 i o.one fun j => a i j

theorem wp_lantrRow {uplo : Uplo} {diag : Diag} {A : MatV L} (hn : 0 < A.n) {μ : Store L T} {i : Nat} (hi : i < A.m) :
    wp (lantrRow o uplo diag A A.n i) μ (fun v ν => v = lantrRowV o uplo diag A.n (entry μ A) i ∧ ν = μ) := by
  unfold lantrRow lantrRowV
  split <;> split <;> exact wp_sumLoopN _ fun j _ hj => wp_getE' (by omega) (by omega)

/-- Column sums of lantr. -/
def lantrColV (o : NOps T R) (uplo : Uplo) (diag : Diag) (m : Nat) (a : Nat → Nat → T) (j : Nat) : R :=
  if uplo = .Upper then
    if diag = .NonUnit ∨ j ≥ m then sumV o 0 (min j (m - 1) + 1) o.zero fun i => a i j
    else sumV o 0 j o.one fun i => a i j
  else
    if diag = .NonUnit then sumV o j m o.zero fun i => a i j
    else sumV o (j + 1) m o.one fun i => a i j

theorem wp_lantrCol {uplo : Uplo} {diag : Diag} {A : MatV L} (hm : 0 < A.m) {μ : Store L T} {j : Nat} (hj : j < A.n) :
    wp (lantrCol o uplo diag A A.m j) μ (fun v ν => v = lantrColV o uplo diag A.m (entry μ A) j ∧ ν = μ) := by
  unfold lantrCol lantrColV
  split <;> split <;> exact wp_sumLoopN _ fun i _ hi => wp_getE' (by omega) (by omega)

/-- lantr. -/
def lantrS (o : NOps T R) (nt : Norm) (uplo : Uplo) (diag : Diag) (m n : Nat) (a : Nat → Nat → T) (v : R) : Prop :=
  match nt with
  | .Max => ∃ i j, i < m ∧ j < n ∧ inTri uplo i j ∧ (diag = .Unit → i ≠ j) ∧ v = o.abs (a i j)
  | .Inf => ∃ i, 0 ≤ i ∧ i < m ∧ v = lantrRowV o uplo diag n a i
  | .One => ∃ j, 0 ≤ j ∧ j < n ∧ v = lantrColV o uplo diag m a j
  | _ => False

theorem wp_lantrG (hl : NanLaws o nn) {A : MatV L} {nt : Norm} (h1 : nt ≠ .Two) (h2 : nt ≠ .Fro) {fro : M L T R}
    {uplo : Uplo} {diag : Diag} (hu : uplo = .Upper ∨ uplo = .Lower)
    (hm : 0 < A.m) (hn : 0 < A.n) {μ : Store L T} :
    wp (lantrG o fro nt uplo diag A) μ (fun x ν => ν = μ ∧ ∃ r, x = normRet r ∧
      MRes o (if nt = .Max ∧ diag = .Unit then o.one else o.zero)
        (lantrS o nt uplo diag A.m A.n (entry μ A)) r) := by
  unfold lantrG
  simp only [wp_bind, wp_check]
  have hok : normOK nt = true := by cases nt <;> first | rfl | exact absurd rfl h1
  rw [if_pos hok, if_pos (by rcases hu with rfl | rfl <;> simp), if_neg (by omega)]
  cases nt with
  | Two => exact absurd rfl h1
  | Fro => exact absurd rfl h2
  | Max =>
    unfold lantrMax
    have go : ∀ (x0 : R) (lo hi : Nat → Nat) (hx : o.isnan x0 = false)
        (hlh : ∀ i j, j < A.n → (lo j ≤ i ∧ i < hi j ↔ i < A.m ∧ inTri uplo i j ∧ (diag = .Unit → i ≠ j))),
        wp (maxRegion o A A.n x0 lo hi) μ (fun x ν => ν = μ ∧ ∃ r, x = normRet r ∧
          MRes o x0 (lantrS o .Max uplo diag A.m A.n (entry μ A)) r) := by
      intro x0 lo hi hx hlh
      refine wp_mono (wp_maxRegion hl hx (le_refl _) (fun j hj hlt => ?_)) ?_ (fun _ _ h => h)
      · have := ((hlh (hi j - 1) j hj).1 ⟨by omega, by omega⟩).1
        omega
      · rintro x ν ⟨rfl, r, rfl, h⟩
        refine ⟨rfl, r, rfl, h.congr fun v => ?_⟩
        simp only [lantrS]
        constructor
        · rintro ⟨i, j, a, b, c, d, e⟩
          have := (hlh i j b).2 ⟨a, c, d⟩
          exact ⟨j, b, i, this.1, this.2, e⟩
        · rintro ⟨j, b, i, a, c, e⟩
          have := (hlh i j b).1 ⟨a, c⟩
          exact ⟨i, j, this.1, b, this.2.1, this.2.2, e⟩
    cases diag <;> rcases hu with rfl | rfl <;> simp only [reduceCtorEq, if_true, if_false, and_false, and_true] <;>
      (refine go _ _ _ ?_ fun i j hj => ?_) <;>
      first | exact hl.zero | exact hl.one | (simp [inTri]; try omega)
  | Inf =>
    simp only [wp_bind, reduceCtorEq, false_and, if_false]
    refine wp_mono (wp_maxLoop hl hl.zero (fun i => lantrRowV o uplo diag A.n (entry μ A) i)
      fun i _ hi => wp_lantrRow hn hi) ?_ (fun _ _ h => h)
    rintro r ν ⟨rfl, h⟩
    rw [wp_pure]
    exact ⟨rfl, r, rfl, h⟩
  | One =>
    simp only [wp_bind, reduceCtorEq, false_and, if_false]
    refine wp_mono (wp_maxLoop hl hl.zero (fun j => lantrColV o uplo diag A.m (entry μ A) j)
      fun i _ hi => wp_lantrCol hm hi) ?_ (fun _ _ h => h)
    rintro r ν ⟨rfl, h⟩
    rw [wp_pure]
    exact ⟨rfl, r, rfl, h⟩

/-- Sums of lansy. -/
def lansySumV (o : NOps T R) (uplo : Uplo) (n : Nat) (a : Nat → Nat → T) (j : Nat) : R :=
  if uplo = .Upper then sumV o (j + 1) n (sumV o 0 (j + 1) o.zero fun i => a i j) fun i => a j i
  else sumV o (j + 1) n (sumV o 0 (j + 1) o.zero fun i => a j i) fun i => a i j

theorem wp_lansySum {uplo : Uplo} {A : MatV L} (hA : A.m = A.n) {μ : Store L T} {j : Nat} (hj : j < A.m) :
    wp (lansySum o uplo A A.m j) μ (fun v ν => v = lansySumV o uplo A.m (entry μ A) j ∧ ν = μ) := by
  unfold lansySum lansySumV
  split
  all_goals
    simp only [wp_bind]
    refine wp_mono (wp_sumLoopN _ fun i _ hi => wp_getE' (by omega) (by omega)) ?_ (fun _ _ h => h)
    rintro s ν ⟨rfl, rfl⟩
    exact wp_sumLoopN _ fun i _ hi => wp_getE' (by omega) (by omega)

/-- Sums of lanhe. -/
def lanheSumV (o : NOps T R) (uplo : Uplo) (n : Nat) (a : Nat → Nat → T) (j : Nat) : R :=
  if uplo = .Upper then
    sumV o (j + 1) n (o.add (sumV o 0 j o.zero fun i => a i j) (o.absRe (a j j))) fun i => a j i
  else sumV o (j + 1) n (o.add (sumV o 0 j o.zero fun i => a j i) (o.absRe (a j j))) fun i => a i j

theorem wp_lanheSum {uplo : Uplo} {A : MatV L} (hA : A.m = A.n) {μ : Store L T} {j : Nat} (hj : j < A.m) :
    wp (lanheSum o uplo A A.m j) μ (fun v ν => v = lanheSumV o uplo A.m (entry μ A) j ∧ ν = μ) := by
  unfold lanheSum lanheSumV
  split
  all_goals
    simp only [wp_bind]
    refine wp_mono (wp_sumLoopN _ fun i _ hi => wp_getE' (by omega) (by omega)) ?_ (fun _ _ h => h)
    rintro s ν ⟨rfl, rfl⟩
    refine wp_mono (wp_getAbsRe (by omega) (by omega)) ?_ (fun _ _ h => h)
    rintro s ν' ⟨rfl, rfl⟩
    exact wp_sumLoopN _ fun i _ hi => wp_getE' (by omega) (by omega)

/-- lansy. -/
def lansyS (o : NOps T R) (nt : Norm) (uplo : Uplo) (n : Nat) (a : Nat → Nat → T) (v : R) : Prop :=
  match nt with
  | .Max => ∃ i j, i < n ∧ j < n ∧ inTri uplo i j ∧ v = o.abs (a i j)
  | .Fro => False
  | _ => ∃ j, 0 ≤ j ∧ j < n ∧ v = lansySumV o uplo n a j

theorem wp_lansyG (hl : NanLaws o nn) {A : MatV L} {nt : Norm} (h1 : nt ≠ .Two) (h2 : nt ≠ .Fro) {fro : M L T R}
    {uplo : Uplo} (hu : uplo = .Upper ∨ uplo = .Lower) (hA : A.m = A.n) (hm : 0 < A.m) {μ : Store L T} :
    wp (lansyG o fro nt uplo A) μ (fun x ν => ν = μ ∧ ∃ r, x = normRet r ∧
      MRes o o.zero (lansyS o nt uplo A.m (entry μ A)) r) := by
  unfold lansyG
  simp only [wp_bind, wp_check]
  have hok : normOK nt = true := by cases nt <;> first | rfl | exact absurd rfl h1
  rw [if_pos hok, if_pos (by rcases hu with rfl | rfl <;> simp), if_neg (by omega)]
  have hsum : wp (do
        let r ← maxLoop o 0 A.m o.zero fun j => lansySum o uplo A A.m j
        pure (normRet r)) μ (fun x ν => ν = μ ∧ ∃ r, x = normRet r ∧
      MRes o o.zero (fun v => ∃ j, 0 ≤ j ∧ j < A.m ∧ v = lansySumV o uplo A.m (entry μ A) j) r) := by
    simp only [wp_bind]
    refine wp_mono (wp_maxLoop hl hl.zero (fun i => lansySumV o uplo A.m (entry μ A) i)
      fun i _ hi => wp_lansySum hA hi) ?_ (fun _ _ h => h)
    rintro r ν ⟨rfl, h⟩
    rw [wp_pure]
    exact ⟨rfl, r, rfl, h⟩
  cases nt with
  | Two => exact absurd rfl h1
  | Fro => exact absurd rfl h2
  | Inf => exact hsum
  | One => exact hsum
  | Max =>
    have go : ∀ (lo hi : Nat → Nat)
        (hlh : ∀ i j, j < A.m → (lo j ≤ i ∧ i < hi j ↔ i < A.m ∧ inTri uplo i j)),
        wp (maxRegion o A A.m o.zero lo hi) μ (fun x ν => ν = μ ∧ ∃ r, x = normRet r ∧
          MRes o o.zero (lansyS o .Max uplo A.m (entry μ A)) r) := by
      intro lo hi hlh
      refine wp_mono (wp_maxRegion hl hl.zero (le_of_eq hA) (fun j hj hlt => ?_)) ?_ (fun _ _ h => h)
      · have := ((hlh (hi j - 1) j hj).1 ⟨by omega, by omega⟩).1
        omega
      · rintro x ν ⟨rfl, r, rfl, h⟩
        refine ⟨rfl, r, rfl, h.congr fun v => ?_⟩
        simp only [lansyS]
        constructor
        · rintro ⟨i, j, a, b, c, e⟩
          have := (hlh i j b).2 ⟨a, c⟩
          exact ⟨j, b, i, this.1, this.2, e⟩
        · rintro ⟨j, b, i, a, c, e⟩
          have := (hlh i j b).1 ⟨a, c⟩
          exact ⟨i, j, this.1, b, this.2, e⟩
    rcases hu with rfl | rfl <;> simp only [reduceCtorEq, if_true, if_false] <;>
      (refine go _ _ fun i j hj => ?_) <;> (simp [inTri]; try omega)

/-- lanhe. -/
def lanheS (o : NOps T R) (nt : Norm) (uplo : Uplo) (n : Nat) (a : Nat → Nat → T) (v : R) : Prop :=
  match nt with
  | .Max => ∃ j, j < n ∧ ((∃ i, i < n ∧ i ≠ j ∧ inTri uplo i j ∧ v = o.abs (a i j)) ∨ v = o.absRe (a j j))
  | .Fro => False
  | _ => ∃ j, 0 ≤ j ∧ j < n ∧ v = lanheSumV o uplo n a j

theorem wp_lanheG (hl : NanLaws o nn) {A : MatV L} {nt : Norm} (h1 : nt ≠ .Two) (h2 : nt ≠ .Fro) {fro : M L T R}
    {uplo : Uplo} (hu : uplo = .Upper ∨ uplo = .Lower) (hA : A.m = A.n) (hm : 0 < A.m) {μ : Store L T} :
    wp (lanheG o fro nt uplo A) μ (fun x ν => ν = μ ∧ ∃ r, x = normRet r ∧
      MRes o o.zero (lanheS o nt uplo A.m (entry μ A)) r) := by
  unfold lanheG
  simp only [wp_bind, wp_check]
  have hok : normOK nt = true := by cases nt <;> first | rfl | exact absurd rfl h1
  rw [if_pos hok, if_pos (by rcases hu with rfl | rfl <;> simp), if_neg (by omega)]
  have hsum : wp (do
        let r ← maxLoop o 0 A.m o.zero fun j => lanheSum o uplo A A.m j
        pure (normRet r)) μ (fun x ν => ν = μ ∧ ∃ r, x = normRet r ∧
      MRes o o.zero (fun v => ∃ j, 0 ≤ j ∧ j < A.m ∧ v = lanheSumV o uplo A.m (entry μ A) j) r) := by
    simp only [wp_bind]
    refine wp_mono (wp_maxLoop hl hl.zero (fun i => lanheSumV o uplo A.m (entry μ A) i)
      fun i _ hi => wp_lanheSum hA hi) ?_ (fun _ _ h => h)
    rintro r ν ⟨rfl, h⟩
    rw [wp_pure]
    exact ⟨rfl, r, rfl, h⟩
  cases nt with
  | Two => exact absurd rfl h1
  | Fro => exact absurd rfl h2
  | Inf => exact hsum
  | One => exact hsum
  | Max =>
    simp only [wp_bind]
    refine wp_mono (wp_maxNest hl hl.zero
      (fun j v => (∃ i, i < A.m ∧ i ≠ j ∧ inTri uplo i j ∧ v = o.abs (entry μ A i j)) ∨ v = o.absRe (entry μ A j j))
      fun j x hj hx => ?_) ?_ (fun _ _ h => h)
    · rcases hu with rfl | rfl
      · rw [if_pos rfl]
        unfold lanheMaxU
        simp only [wp_bind]
        refine wp_mono (wp_maxLoop hl hx (fun i => o.abs (entry μ A i j)) fun i _ hi =>
          wp_getAbs (by omega) (by omega)) ?_ (fun _ _ h => h)
        rintro r ν ⟨rfl, h⟩
        cases r with
        | inr v =>
          simp only [wp_pure]
          refine ⟨trivial, h.early ?_⟩
          rintro v ⟨i, _, hi, rfl⟩
          exact .inl ⟨i, by omega, by omega, by simp only [inTri]; omega, rfl⟩
        | inl y =>
          simp only [wp_bind]
          refine wp_mono (wp_getAbsRe (by omega) (by omega)) ?_ (fun _ _ h => h)
          rintro v ν' ⟨rfl, rfl⟩
          rw [wp_pure]
          refine ⟨rfl, h.comp hl (MRes.upd hl h.2.2.2) fun v => or_congr_left ?_⟩
          constructor
          · rintro ⟨i, a, b, c, e⟩
            simp only [inTri] at c
            exact ⟨i, by omega, by omega, e⟩
          · rintro ⟨i, _, a, e⟩
            exact ⟨i, by omega, by omega, by simp only [inTri]; omega, e⟩
      · rw [if_neg (by simp)]
        unfold lanheMaxL
        simp only [wp_bind]
        refine wp_mono (wp_getAbsRe (by omega) (by omega)) ?_ (fun _ _ h => h)
        rintro v ν ⟨rfl, rfl⟩
        have h := MRes.upd hl (t := o.absRe (entry ν A j j)) hx
        rcases hu : normUpd o x (o.absRe (entry ν A j j)) with y | y
        · rw [hu] at h
          simp only []
          refine wp_mono (wp_maxLoop hl h.2.2.2 (fun i => o.abs (entry ν A i j)) fun i _ hi =>
            wp_getAbs (by omega) (by omega)) ?_ (fun _ _ h => h)
          rintro r ν' ⟨rfl, h'⟩
          refine ⟨rfl, h.comp hl h' fun v => ?_⟩
          rw [or_comm]
          refine or_congr_right ?_
          constructor
          · rintro ⟨i, a, b, c, e⟩
            simp only [inTri] at c
            exact ⟨i, by omega, by omega, e⟩
          · rintro ⟨i, _, a, e⟩
            exact ⟨i, by omega, by omega, by simp only [inTri]; omega, e⟩
        · rw [hu] at h
          simp only [wp_pure]
          exact ⟨trivial, h.early fun v e => .inr e⟩
    · rintro r ν ⟨rfl, h⟩
      rw [wp_pure]
      exact ⟨rfl, r, rfl, h⟩

end TLA
