import Verif.Proofs.Fam
import Verif.Proofs.Bidiag

/-! # The pieces of labrd -/

set_option linter.unusedSectionVars false
set_option linter.unusedTactic false
set_option linter.unreachableTactic false
set_option linter.unusedVariables false

namespace TLA
open Finset
variable {L 𝕜 : Type} [DecidableEq L] [RCLike 𝕜] [DecidableEq 𝕜] {p : HhPar}

inductive K3 | a | x | y
deriving DecidableEq

def B3 (A X Y : MatV L) : K3 → MatV L
  | .a => A
  | .x => X
  | .y => Y

/-- The views of a panel. -/
structure BpOK (A X Y : MatV L) (m n nb : Nat) : Prop where
  fam : Fam (B3 A X Y)
  Am : A.m = m
  An : A.n = n
  Xm : X.m = m
  Xn : X.n = nb
  Ym : Y.m = n
  Yn : Y.n = nb
  hm : nb ≤ m
  hn : nb ≤ n

/-- Column `i` from row `r0` on, or row `i` from column `c0` on, replaced. -/
def updC (f : K3 → Nat → Nat → 𝕜) (k : K3) (i r0 : Nat) (g : Nat → 𝕜) : K3 → Nat → Nat → 𝕜 := fun k' r c =>
  if k' = k ∧ c = i ∧ r0 ≤ r then g r else f k' r c
def updR (f : K3 → Nat → Nat → 𝕜) (k : K3) (i c0 : Nat) (g : Nat → 𝕜) : K3 → Nat → Nat → 𝕜 := fun k' r c =>
  if k' = k ∧ r = i ∧ c0 ≤ c then g c else f k' r c

theorem LS.toC {A X Y : MatV L} {f : K3 → Nat → Nat → 𝕜} {k : K3} {i r0 r1 : Nat} {g g' : Nat → 𝕜} {ν : Store L 𝕜}
    (h : LS (B3 A X Y) (updV f ⟨k, false, i, r0, r1⟩ g) ν) (hr : r1 = (B3 A X Y k).m)
    (e : ∀ x, r0 + x < r1 → g' (r0 + x) = g x) : LS (B3 A X Y) (updC f k i r0 g') ν := by
  refine h.congr fun k' r c hr' hc' => ?_
  unfold updC updV Vd.has Vd.idx
  by_cases hh : k' = k ∧ c = i ∧ r0 ≤ r
  · obtain ⟨rfl, rfl, h0⟩ := hh
    rw [if_pos ⟨rfl, rfl, h0⟩, if_pos ⟨rfl, rfl, h0, by dsimp only; omega⟩, ← e (r - r0) (by omega)]
    congr 1
    omega
  · rw [if_neg hh, if_neg (by dsimp only; tauto)]

theorem LS.toR {A X Y : MatV L} {f : K3 → Nat → Nat → 𝕜} {k : K3} {i c0 c1 : Nat} {g g' : Nat → 𝕜} {ν : Store L 𝕜}
    (h : LS (B3 A X Y) (updV f ⟨k, true, i, c0, c1⟩ g) ν) (hr : c1 = (B3 A X Y k).n)
    (e : ∀ x, c0 + x < c1 → g' (c0 + x) = g x) : LS (B3 A X Y) (updR f k i c0 g') ν := by
  refine h.congr fun k' r c hr' hc' => ?_
  unfold updR updV Vd.has Vd.idx
  by_cases hh : k' = k ∧ r = i ∧ c0 ≤ c
  · obtain ⟨rfl, rfl, h0⟩ := hh
    rw [if_pos ⟨rfl, rfl, h0⟩, if_pos ⟨rfl, rfl, h0, by dsimp only; omega⟩, ← e (c - c0) (by omega)]
    congr 1
    omega
  · rw [if_neg hh, if_neg (by dsimp only; tauto)]

variable {A X Y : MatV L} {m n nb : Nat}

theorem wp_brdColY (ok : BpOK A X Y m n nb) {r0 k1 i : Nat} (hr0 : r0 ≤ m) (hk1 : k1 ≤ i) (hi : i < n) (hin : k1 ≤ nb) 
    {f : K3 → Nat → Nat → 𝕜} {ν : Store L 𝕜} (hf : LS (B3 A X Y) f ν) :
    wp (brdColY r0 k1 i A Y) ν (fun _ ν' => LS (B3 A X Y) (updC f .a i r0 fun r => f .a r i - ∑ l ∈ range k1, f .a r l * star (f .y i l)) ν' ∧
      Fr (B3 A X Y) ν ν') := by
  obtain ⟨fam, Am, An, Xm, Xn, Ym, Yn, hm, hn⟩ := ok
  unfold brdColY
  simp only [wp_bind]
  refine wp_sliceRow (by omega) (by omega) (by omega) ?_
  refine wp_slice (by omega) (by omega) (by omega) (by omega) ?_
  refine wp_sliceCol (by omega) (by omega) (by omega) ?_
  refine wp_conseq (wp_gemvConj_F fam (k := .a) (d := ⟨.y, true, i, 0, k1⟩) (e := ⟨.a, false, i, r0, A.m⟩) hf (by simp [B3]) (by simp [B3]; omega)
    ⟨by simp [B3]; omega, by simp [B3]; omega⟩ ⟨by simp [B3]; omega, by simp [B3]⟩ (by simp) (by simp) (by simp)
    (by intro x y _ _ h; simp at h) (by intro a b y _ _ _ h _ _ _ h'; simp only [Vd.c] at h'; omega) (by intro a b y _ _ _ _ _ h; simp at h)) ?_
  rintro _ ν' ⟨h, g⟩
  refine ⟨h.toC rfl fun x hx => ?_, g⟩
  simp only [Vd.at, Vd.r, Vd.c, Nat.zero_add, Nat.sub_zero, opF]

theorem wp_brdRowX (ok : BpOK A X Y m n nb) {c0 i : Nat} (hc0 : c0 ≤ n) (hi : i < m) (hc : i ≤ c0) (hin : i ≤ nb)
    {f : K3 → Nat → Nat → 𝕜} {ν : Store L 𝕜} (hf : LS (B3 A X Y) f ν) :
    wp (brdRowX c0 i A X) ν (fun _ ν' => LS (B3 A X Y) (updR f .a i c0 fun c => f .a i c - ∑ l ∈ range i, star (f .a l c) * star (f .x i l)) ν' ∧
      Fr (B3 A X Y) ν ν') := by
  obtain ⟨fam, Am, An, Xm, Xn, Ym, Yn, hm, hn⟩ := ok
  unfold brdRowX
  simp only [wp_bind]
  refine wp_sliceRow (by omega) (by omega) (by omega) ?_
  refine wp_slice (by omega) (by omega) (by omega) (by omega) ?_
  refine wp_sliceRow (by omega) (by omega) (by omega) ?_
  refine wp_conseq (wp_gemvConj_F fam (k := .a) (d := ⟨.x, true, i, 0, i⟩) (e := ⟨.a, true, i, c0, A.n⟩) hf (by simp [B3]; omega) (by simp [B3])
    ⟨by simp [B3]; omega, by simp [B3]; omega⟩ ⟨by simp [B3]; omega, by simp [B3]⟩ (by simp) (by simp) (by simp)
    (by intro x y _ _ h; simp at h) (by intro a b y _ h _ _ _ _ h' _; simp only [Vd.r] at h'; omega) (by intro a b y _ _ _ _ _ h; simp at h)) ?_
  rintro _ ν' ⟨h, g⟩
  refine ⟨h.toR rfl fun x hx => ?_, g⟩
  simp only [Vd.at, Vd.r, Vd.c, Nat.zero_add, Nat.sub_zero, opF]

theorem Fr.vec {A X Y : MatV L} {μ ν : Store L 𝕜} (h : Fr (B3 A X Y) μ ν) {t : VecV L} (ht : ∀ i, i < t.n → ∀ k, ¬ (B3 A X Y k).Owns (t.cell i))
    {i : Nat} (hi : i < t.n) : ν (t.cell i) = μ (t.cell i) := h _ (ht i hi)

set_option maxHeartbeats 1000000 in
/-- Column `i` of `Y`. -/
theorem wp_brdY (ok : BpOK A X Y m n nb) {r0 k2 i : Nat} (hr0 : r0 < m) (hk2 : i ≤ k2) (hk2' : k2 ≤ i + 1) (hi : i + 1 < n) (hin : i < nb) (him : i < m)
    (hir : i ≤ r0) (hkr : k2 ≤ r0) 
    {tauq : VecV L} (ht : ∀ i, i < tauq.n → ∀ k, ¬ (B3 A X Y k).Owns (tauq.cell i)) (hit : i < tauq.n)
    {f : K3 → Nat → Nat → 𝕜} {ν : Store L 𝕜} (hf : LS (B3 A X Y) f ν) :
    wp (brdY r0 k2 i A X Y (A.colv r0 A.m i) tauq) ν (fun _ ν' => ∃ f', LS (B3 A X Y) f' ν' ∧ Fr (B3 A X Y) ν ν' ∧
      (∀ k r c, k ≠ .y ∨ c ≠ i → f' k r c = f k r c) ∧
      ∀ c, i < c → c < n → f' .y c i = ((∑ r ∈ range (m - r0), star (f .a (r0 + r) c) * f .a (r0 + r) i)
        - (∑ j ∈ range i, f .y c j * ∑ r ∈ range (m - r0), star (f .a (r0 + r) j) * f .a (r0 + r) i)
        - ∑ j ∈ range k2, star (f .a j c) * ∑ r ∈ range (m - r0), star (f .x (r0 + r) j) * f .a (r0 + r) i) * ventry ν tauq i) := by
  obtain ⟨fam, Am, An, Xm, Xn, Ym, Yn, hm, hn⟩ := ok
  unfold brdY
  simp only [wp_bind]
  refine wp_sliceCol (by omega) (by omega) (by omega) ?_
  refine wp_slice (by omega) (by omega) (by omega) (by omega) ?_
  have ey : Vd.ok (B3 A X Y) ⟨.y, false, i, i + 1, A.n⟩ := ⟨by simp [B3]; omega, by simp [B3]; omega⟩
  have et : ∀ k, k ≤ n → Vd.ok (B3 A X Y) ⟨.y, false, i, 0, k⟩ := fun k hk => ⟨by simp [B3]; omega, by simp [B3]; omega⟩
  have ev : Vd.ok (B3 A X Y) ⟨.a, false, i, r0, A.m⟩ := ⟨by simp [B3]; omega, by simp [B3]⟩
  refine wp_conseq (wp_gemv_F fam (k := .a) (d := ⟨.a, false, i, r0, A.m⟩) (e := ⟨.y, false, i, i + 1, A.n⟩) (m := 0) (n := 0) hf (by simp [B3]) (by simp [B3])
    ev ey (by simp) (by simp) (by simp) (Or.inl (by simp; omega))
    (by intro x y _ _ h; simp at h) (by intro a b y _ _ _ _ _ h; simp at h)) fun _ ν1 ⟨h1, g1⟩ => ?_
  refine wp_slice (by omega) (by omega) (by omega) (by omega) ?_
  refine wp_sliceCol (by omega) (by omega) (by omega) ?_
  refine wp_conseq (wp_gemv_F fam (k := .a) (d := ⟨.a, false, i, r0, A.m⟩) (e := ⟨.y, false, i, 0, i⟩) (m := 0) (n := 0) h1 (by simp [B3]) (by simp [B3]; omega)
    ev (et i (by omega)) (by simp) (by simp) (by simp) (Or.inl (by simp; omega))
    (by intro x y _ _ h; simp at h) (by intro a b y _ _ _ _ _ h; simp at h)) fun _ ν2 ⟨h2, g2⟩ => ?_
  refine wp_slice (by omega) (by omega) (by omega) (by omega) ?_
  refine wp_conseq (wp_gemv_F fam (k := .y) (d := ⟨.y, false, i, 0, i⟩) (e := ⟨.y, false, i, i + 1, A.n⟩) (m := 0) (n := 0) h2 (by simp [B3]; omega) (by simp [B3]; omega)
    (et i (by omega)) ey (by simp) (by simp) (by simp) (Or.inr rfl)
    (by intro x y hx _ _ h _; simp [Vd.r] at h hx; omega) (by intro a b y _ _ _ h _ _ _ h'; simp [Vd.c] at h'; omega)) fun _ ν3 ⟨h3, g3⟩ => ?_
  refine wp_sliceCol (by omega) (by omega) (by omega) ?_
  refine wp_slice (by omega) (by omega) (by omega) (by omega) ?_
  refine wp_conseq (wp_gemv_F fam (k := .x) (d := ⟨.a, false, i, r0, A.m⟩) (e := ⟨.y, false, i, 0, k2⟩) (m := 0) (n := 0) h3 (by simp [B3]; omega) (by simp [B3]; omega)
    ev (et k2 (by omega)) (by simp) (by simp) (by simp) (Or.inl (by simp; omega))
    (by intro x y _ _ h; simp at h) (by intro a b y _ _ _ _ _ h; simp at h)) fun _ ν4 ⟨h4, g4⟩ => ?_
  refine wp_slice (by omega) (by omega) (by omega) (by omega) ?_
  refine wp_conseq (wp_gemv_F fam (k := .a) (d := ⟨.y, false, i, 0, k2⟩) (e := ⟨.y, false, i, i + 1, A.n⟩) (m := 0) (n := 0) h4 (by simp [B3]; omega) (by simp [B3])
    (et k2 (by omega)) ey (by simp) (by simp) (by simp) (Or.inr rfl)
    (by intro x y hx _ _ h _; simp [Vd.r] at h hx; omega) (by intro a b y _ _ _ _ _ h; simp at h)) fun _ ν5 ⟨h5, g5⟩ => ?_
  refine wp_vgetE hit ?_
  refine wp_conseq (wp_scal_F fam (d := ⟨.y, false, i, i + 1, A.n⟩) ey h5) fun _ ν6 ⟨h6, g6⟩ => ?_
  have gg : Fr (B3 A X Y) ν ν5 := (((g1.trans g2).trans g3).trans g4).trans g5
  refine ⟨_, h6, gg.trans g6, fun k r c hk => ?_, fun c hc0 hc1 => ?_⟩
  · have hno : ∀ lo hi, ¬ (k = K3.y ∧ Vd.has (⟨.y, false, i, lo, hi⟩ : Vd K3) r c) := by
      rintro lo hi ⟨h1, h2⟩
      simp only [Vd.has] at h2
      rcases hk with hk | hk
      · exact hk h1
      · exact hk h2.1
    rw [updV_out (hno _ _), updV_out (hno _ _), updV_out (hno _ _), updV_out (hno _ _), updV_out (hno _ _), updV_out (hno _ _)]
  · obtain ⟨z, rfl⟩ : ∃ z, c = i + 1 + z := ⟨c - (i + 1), by omega⟩
    have hz : z < A.n - (i + 1) := by omega
    have tt : ν5 (tauq.cell i) = ventry ν tauq i := gg _ (ht i hit)
    rw [tt]
    -- reading a vector of column `i`
    have rd : ∀ (f : K3 → Nat → Nat → 𝕜) g, updV f ⟨.y, false, i, i + 1, A.n⟩ g .y (i + 1 + z) i = g z := fun f g =>
      updV_in (d := ⟨K3.y, false, i, i + 1, A.n⟩) hz
    have no : ∀ (f : K3 → Nat → Nat → 𝕜) g k, k ≤ i + 1 → updV f ⟨.y, false, i, 0, k⟩ g .y (i + 1 + z) i = f .y (i + 1 + z) i := fun f g k hk =>
      updV_out (by simp only [Vd.has]; omega)
    have rt : ∀ (f : K3 → Nat → Nat → 𝕜) g k l, l < k → updV f ⟨.y, false, i, 0, k⟩ g .y l i = g l := fun f g k l hk => by
      have := updV_in (f := f) (d := ⟨.y, false, i, 0, k⟩) (g := g) (x := l) (by simpa using hk)
      simpa [Vd.r, Vd.c] using this
    have na : ∀ (f : K3 → Nat → Nat → 𝕜) (d : Nat × Nat) g k r c, k ≠ K3.y → updV f ⟨.y, false, i, d.1, d.2⟩ g k r c = f k r c := fun f d g k r c hk =>
      updV_out (by rintro ⟨h, _⟩; exact hk h)
    have nc : ∀ (f : K3 → Nat → Nat → 𝕜) lo hi g r c, c ≠ i → updV f ⟨.y, false, i, lo, hi⟩ g .y r c = f .y r c := fun f lo hi g r c hk =>
      updV_out (by rintro ⟨_, h⟩; simp only [Vd.has] at h; exact hk h.1)
    have na1 : ∀ (f : K3 → Nat → Nat → 𝕜) lo hi g r c, updV f ⟨.y, false, i, lo, hi⟩ g .a r c = f .a r c := fun f lo hi g r c => na f (lo, hi) g _ _ _ (by simp)
    have na2 : ∀ (f : K3 → Nat → Nat → 𝕜) lo hi g r c, updV f ⟨.y, false, i, lo, hi⟩ g .x r c = f .x r c := fun f lo hi g r c => na f (lo, hi) g _ _ _ (by simp)
    rw [rd]
    congr 1
    simp only [Vd.at, Vd.r, Vd.c, rd, no _ _ k2 hk2', no _ _ i (by omega), na1, na2, Nat.zero_add, Nat.sub_zero, opF]
    have s1 : ∀ (f : K3 → Nat → Nat → 𝕜) g k (F : Nat → 𝕜), ∑ x ∈ range k, F x * updV f ⟨.y, false, i, 0, k⟩ g .y x i = ∑ x ∈ range k, F x * g x := fun f g k F =>
      Finset.sum_congr rfl fun x hx => by rw [rt _ _ _ _ (mem_range.1 hx)]
    rw [s1, s1]
    have s2 : ∀ (f : K3 → Nat → Nat → 𝕜) lo hi g r (F : Nat → 𝕜), ∑ x ∈ range i, updV f ⟨.y, false, i, lo, hi⟩ g .y r x * F x = ∑ x ∈ range i, f .y r x * F x := fun f lo hi g r F =>
      Finset.sum_congr rfl fun x hx => by rw [nc _ _ _ _ _ _ (by have := mem_range.1 hx; omega)]
    rw [s2, s2, Am]
    ring_nf

set_option maxHeartbeats 1000000 in
/-- The corrections to column `i` of `X`. -/
theorem wp_brdXrest (ok : BpOK A X Y m n nb) {c0 k1 i : Nat} (hc0 : c0 < n) (hk1 : i ≤ k1) (hk1' : k1 ≤ i + 1) (hi : i + 1 < m) (hin : i < nb)
    (hic : i ≤ c0) (hkc : k1 ≤ c0)
    {f : K3 → Nat → Nat → 𝕜} {ν : Store L 𝕜} (hf : LS (B3 A X Y) f ν) :
    wp (brdXrest c0 k1 i A X Y (A.rowv i c0 A.n) (X.colv (i + 1) A.m i)) ν (fun _ ν' => ∃ f', LS (B3 A X Y) f' ν' ∧ Fr (B3 A X Y) ν ν' ∧
      (∀ k r c, k ≠ .x ∨ c ≠ i → f' k r c = f k r c) ∧
      ∀ r, i < r → r < m → f' .x r i = f .x r i
        - (∑ j ∈ range k1, f .a r j * ∑ c ∈ range (n - c0), star (f .y (c0 + c) j) * f .a i (c0 + c))
        - ∑ j ∈ range i, f .x r j * ∑ c ∈ range (n - c0), f .a j (c0 + c) * f .a i (c0 + c)) := by
  obtain ⟨fam, Am, An, Xm, Xn, Ym, Yn, hm, hn⟩ := ok
  unfold brdXrest
  simp only [wp_bind]
  have ey : Vd.ok (B3 A X Y) ⟨.x, false, i, i + 1, A.m⟩ := ⟨by simp [B3]; omega, by simp [B3]; omega⟩
  have et : ∀ k, k ≤ m → Vd.ok (B3 A X Y) ⟨.x, false, i, 0, k⟩ := fun k hk => ⟨by simp [B3]; omega, by simp [B3]; omega⟩
  have ev : Vd.ok (B3 A X Y) ⟨.a, true, i, c0, A.n⟩ := ⟨by simp [B3]; omega, by simp [B3]⟩
  refine wp_slice (by omega) (by omega) (by omega) (by omega) ?_
  refine wp_sliceCol (by omega) (by omega) (by omega) ?_
  refine wp_conseq (wp_gemv_F fam (k := .y) (r1 := A.n) (d := ⟨.a, true, i, c0, A.n⟩) (e := ⟨.x, false, i, 0, k1⟩) (m := 0) (n := 0) hf (by simp [B3]; omega) (by simp [B3]; omega)
    ev (et k1 (by omega)) (by simp) (by simp) (by simp) (Or.inl (by simp; omega))
    (by intro x y _ _ h; simp at h) (by intro a b y _ _ _ _ _ h; simp at h)) fun _ ν2 ⟨h2, g2⟩ => ?_
  refine wp_slice (by omega) (by omega) (by omega) (by omega) ?_
  refine wp_conseq (wp_gemv_F fam (k := .a) (d := ⟨.x, false, i, 0, k1⟩) (e := ⟨.x, false, i, i + 1, A.m⟩) (m := 0) (n := 0) h2 (by simp [B3]) (by simp [B3]; omega)
    (et k1 (by omega)) ey (by simp) (by simp) (by simp) (Or.inr rfl)
    (by intro x y hx _ _ h _; simp [Vd.r] at h hx; omega) (by intro a b y _ _ _ _ _ h; simp at h)) fun _ ν3 ⟨h3, g3⟩ => ?_
  refine wp_slice (by omega) (by omega) (by omega) (by omega) ?_
  refine wp_sliceCol (by omega) (by omega) (by omega) ?_
  refine wp_conseq (wp_gemv_F fam (k := .a) (d := ⟨.a, true, i, c0, A.n⟩) (e := ⟨.x, false, i, 0, i⟩) (m := 0) (n := 0) h3 (by simp [B3]; omega) (by simp [B3])
    ev (et i (by omega)) (by simp) (by simp) (by simp) (Or.inl (by simp; omega))
    (by intro x y _ _ h; simp at h) (by intro a b y _ _ _ _ _ h; simp at h)) fun _ ν4 ⟨h4, g4⟩ => ?_
  refine wp_slice (by omega) (by omega) (by omega) (by omega) ?_
  refine wp_conseq (wp_gemv_F fam (k := .x) (d := ⟨.x, false, i, 0, i⟩) (e := ⟨.x, false, i, i + 1, A.m⟩) (m := 0) (n := 0) h4 (by simp [B3]; omega) (by simp [B3]; omega)
    (et i (by omega)) ey (by simp) (by simp) (by simp) (Or.inr rfl)
    (by intro x y hx _ _ h _; simp [Vd.r] at h hx; omega) (by intro a b y _ _ _ h _ _ _ h'; simp [Vd.c] at h'; omega)) fun _ ν5 ⟨h5, g5⟩ => ?_
  have gg : Fr (B3 A X Y) ν ν5 := ((g2.trans g3).trans g4).trans g5
  refine ⟨_, h5, gg, fun k r c hk => ?_, fun c hc0 hc1 => ?_⟩
  · have hno : ∀ lo hi, ¬ (k = K3.x ∧ Vd.has (⟨.x, false, i, lo, hi⟩ : Vd K3) r c) := by
      rintro lo hi ⟨h1, h2⟩
      simp only [Vd.has] at h2
      rcases hk with hk | hk
      · exact hk h1
      · exact hk h2.1
    rw [updV_out (hno _ _), updV_out (hno _ _), updV_out (hno _ _), updV_out (hno _ _)]
  · obtain ⟨z, rfl⟩ : ∃ z, c = i + 1 + z := ⟨c - (i + 1), by omega⟩
    have hz : z < A.m - (i + 1) := by omega
    -- reading a vector of column `i`
    have rd : ∀ (f : K3 → Nat → Nat → 𝕜) g, updV f ⟨.x, false, i, i + 1, A.m⟩ g .x (i + 1 + z) i = g z := fun f g =>
      updV_in (d := ⟨K3.x, false, i, i + 1, A.m⟩) hz
    have no : ∀ (f : K3 → Nat → Nat → 𝕜) g k, k ≤ i + 1 → updV f ⟨.x, false, i, 0, k⟩ g .x (i + 1 + z) i = f .x (i + 1 + z) i := fun f g k hk =>
      updV_out (by simp only [Vd.has]; omega)
    have rt : ∀ (f : K3 → Nat → Nat → 𝕜) g k l, l < k → updV f ⟨.x, false, i, 0, k⟩ g .x l i = g l := fun f g k l hk => by
      have := updV_in (f := f) (d := ⟨.x, false, i, 0, k⟩) (g := g) (x := l) (by simpa using hk)
      simpa [Vd.r, Vd.c] using this
    have na : ∀ (f : K3 → Nat → Nat → 𝕜) (d : Nat × Nat) g k r c, k ≠ K3.x → updV f ⟨.x, false, i, d.1, d.2⟩ g k r c = f k r c := fun f d g k r c hk =>
      updV_out (by rintro ⟨h, _⟩; exact hk h)
    have nc : ∀ (f : K3 → Nat → Nat → 𝕜) lo hi g r c, c ≠ i → updV f ⟨.x, false, i, lo, hi⟩ g .x r c = f .x r c := fun f lo hi g r c hk =>
      updV_out (by rintro ⟨_, h⟩; simp only [Vd.has] at h; exact hk h.1)
    have na1 : ∀ (f : K3 → Nat → Nat → 𝕜) lo hi g r c, updV f ⟨.x, false, i, lo, hi⟩ g .a r c = f .a r c := fun f lo hi g r c => na f (lo, hi) g _ _ _ (by simp)
    have na2 : ∀ (f : K3 → Nat → Nat → 𝕜) lo hi g r c, updV f ⟨.x, false, i, lo, hi⟩ g .y r c = f .y r c := fun f lo hi g r c => na f (lo, hi) g _ _ _ (by simp)
    rw [rd]
    simp only [Vd.at, Vd.r, Vd.c, rd, no _ _ k1 hk1', no _ _ i (by omega), na1, na2, Nat.zero_add, Nat.sub_zero, opF]
    have s1 : ∀ (f : K3 → Nat → Nat → 𝕜) g k (F : Nat → 𝕜), ∑ x ∈ range k, F x * updV f ⟨.x, false, i, 0, k⟩ g .x x i = ∑ x ∈ range k, F x * g x := fun f g k F =>
      Finset.sum_congr rfl fun x hx => by rw [rt _ _ _ _ (mem_range.1 hx)]
    rw [s1, s1]
    have s2 : ∀ (f : K3 → Nat → Nat → 𝕜) lo hi g r (F : Nat → 𝕜), ∑ x ∈ range i, updV f ⟨.x, false, i, lo, hi⟩ g .x r x * F x = ∑ x ∈ range i, f .x r x * F x := fun f lo hi g r F =>
      Finset.sum_congr rfl fun x hx => by rw [nc _ _ _ _ _ _ (by have := mem_range.1 hx; omega)]
    rw [s2, s2, s2, An]
    ring_nf

set_option maxHeartbeats 1000000 in
/-- Column `i` of `X`. -/
theorem wp_brdX (ok : BpOK A X Y m n nb) {c0 k1 i : Nat} {guard : Bool} (hg : guard = false → i = 0 ∧ k1 = 0) (hc0 : c0 < n) (hk1 : i ≤ k1) (hk1' : k1 ≤ i + 1) (hi : i + 1 < m) (hin : i < nb)
    (hic : i ≤ c0) (hkc : k1 ≤ c0)
    {taup : VecV L} (ht : ∀ i, i < taup.n → ∀ k, ¬ (B3 A X Y k).Owns (taup.cell i)) (hit : i < taup.n)
    {f : K3 → Nat → Nat → 𝕜} {ν : Store L 𝕜} (hf : LS (B3 A X Y) f ν) :
    wp (brdX c0 k1 i guard A X Y (A.rowv i c0 A.n) taup) ν (fun _ ν' => ∃ f', LS (B3 A X Y) f' ν' ∧ Fr (B3 A X Y) ν ν' ∧
      (∀ r c, r < m → c < n → f' .a r c = if r = i ∧ c0 ≤ c then star (f .a r c) else f .a r c) ∧
      (∀ r c, f' .y r c = f .y r c) ∧ (∀ r c, c ≠ i → f' .x r c = f .x r c) ∧
      ∀ r, i < r → r < m → f' .x r i = ((∑ c ∈ range (n - c0), f .a r (c0 + c) * f .a i (c0 + c))
        - (∑ j ∈ range k1, f .a r j * ∑ c ∈ range (n - c0), star (f .y (c0 + c) j) * f .a i (c0 + c))
        - ∑ j ∈ range i, f .x r j * ∑ c ∈ range (n - c0), f .a j (c0 + c) * f .a i (c0 + c)) * ventry ν taup i) := by
  have ok' := ok
  obtain ⟨fam, Am, An, Xm, Xn, Ym, Yn, hm, hn⟩ := ok
  unfold brdX
  simp only [wp_bind]
  have ey : Vd.ok (B3 A X Y) ⟨.x, false, i, i + 1, A.m⟩ := ⟨by simp [B3]; omega, by simp [B3]; omega⟩
  have ev : Vd.ok (B3 A X Y) ⟨.a, true, i, c0, A.n⟩ := ⟨by simp [B3]; omega, by simp [B3]⟩
  refine wp_sliceCol (by omega) (by omega) (by omega) ?_
  refine wp_slice (by omega) (by omega) (by omega) (by omega) ?_
  refine wp_conseq (wp_gemv_F fam (k := .a) (d := ⟨.a, true, i, c0, A.n⟩) (e := ⟨.x, false, i, i + 1, A.m⟩) (m := 0) (n := 0) hf (by simp [B3]) (by simp [B3])
    ev ey (by simp) (by simp) (by simp) (Or.inl (by simp; omega))
    (by intro x y _ _ h; simp at h) (by intro a b y _ _ _ _ _ h; simp at h)) fun _ ν1 ⟨h1, g1⟩ => ?_
  set f1 := updV f ⟨.x, false, i, i + 1, A.m⟩ fun x => 1 * (∑ l ∈ range (A.n - c0), opF .NoTrans (fun a b => f .a (i + 1 + a) (c0 + b)) x l * Vd.at ⟨.a, true, i, c0, A.n⟩ f l)
        + 0 * Vd.at ⟨.x, false, i, i + 1, A.m⟩ f x with hf1
  have h1a : ∀ k r c, k ≠ .x ∨ c ≠ i → f1 k r c = f k r c := fun k r c hk => updV_out (by
    rintro ⟨h1, h2⟩; simp only [Vd.has] at h2; rcases hk with hk | hk; exact hk h1; exact hk h2.1)
  have h1x : ∀ r, i < r → r < m → f1 .x r i = ∑ c ∈ range (n - c0), f .a r (c0 + c) * f .a i (c0 + c) := by
    intro r hr0 hr1
    obtain ⟨z, rfl⟩ : ∃ z, r = i + 1 + z := ⟨r - (i + 1), by omega⟩
    refine (updV_in (d := ⟨K3.x, false, i, i + 1, A.m⟩) (x := z) (by simp; omega)).trans ?_
    simp only [Vd.at, Vd.r, Vd.c, opF, An]
    ring
  have rest : wp (if guard = true then brdXrest c0 k1 i A X Y (A.rowv i c0 A.n) (X.colv (i + 1) A.m i) else pure ()) ν1 (fun _ ν' => ∃ f', LS (B3 A X Y) f' ν' ∧ Fr (B3 A X Y) ν1 ν' ∧
      (∀ k r c, k ≠ .x ∨ c ≠ i → f' k r c = f1 k r c) ∧
      ∀ r, i < r → r < m → f' .x r i = f1 .x r i
        - (∑ j ∈ range k1, f1 .a r j * ∑ c ∈ range (n - c0), star (f1 .y (c0 + c) j) * f1 .a i (c0 + c))
        - ∑ j ∈ range i, f1 .x r j * ∑ c ∈ range (n - c0), f1 .a j (c0 + c) * f1 .a i (c0 + c)) := by
    by_cases hgd : guard = true
    · rw [if_pos hgd]
      exact wp_brdXrest ok' hc0 hk1 hk1' hi hin hic hkc h1
    · rw [if_neg hgd, wp_pure]
      obtain ⟨h0, h0'⟩ := hg (by simpa using hgd)
      refine ⟨f1, h1, Fr.refl, fun _ _ _ _ => rfl, fun r _ _ => ?_⟩
      rw [h0', h0]; simp
  refine wp_conseq rest ?_
  rintro _ ν2 ⟨f2, h2, g2, k2, x2⟩
  refine wp_vgetE hit ?_
  refine wp_conseq (wp_scal_F fam (d := ⟨.x, false, i, i + 1, A.m⟩) ey h2) fun _ ν3 ⟨h3, g3⟩ => ?_
  refine wp_conseq (wp_conj_F fam (d := ⟨.a, true, i, c0, A.n⟩) ev h3) fun _ ν4 ⟨h4, g4⟩ => ?_
  have gg : Fr (B3 A X Y) ν ν2 := g1.trans g2
  have tt : ν2 (taup.cell i) = ventry ν taup i := gg _ (ht i hit)
  have nx : ∀ (f : K3 → Nat → Nat → 𝕜) g k r c, k ≠ .x ∨ c ≠ i → updV f ⟨.x, false, i, i + 1, A.m⟩ g k r c = f k r c := fun f g k r c hk => updV_out (by
    rintro ⟨h1, h2⟩; simp only [Vd.has] at h2; rcases hk with hk | hk; exact hk h1; exact hk h2.1)
  have na : ∀ (f : K3 → Nat → Nat → 𝕜) g k r c, k ≠ .a ∨ r ≠ i ∨ c < c0 → updV f ⟨.a, true, i, c0, A.n⟩ g k r c = f k r c := fun f g k r c hk => updV_out (by
    rintro ⟨h1, h2⟩; simp only [Vd.has] at h2; rcases hk with hk | hk; exact hk h1; omega)
  rw [tt] at h4
  refine ⟨_, h4, (gg.trans g3).trans g4, fun r c hr hc => ?_, fun r c => ?_, fun r c hc => ?_, fun r hr0 hr1 => ?_⟩
  · by_cases hh : r = i ∧ c0 ≤ c
    · obtain ⟨rfl, hh⟩ := hh
      obtain ⟨z, rfl⟩ : ∃ z, c = c0 + z := ⟨c - c0, by omega⟩
      rw [if_pos ⟨rfl, hh⟩]
      refine (updV_in (d := ⟨K3.a, true, r, c0, A.n⟩) (x := z) (by simp; omega)).trans ?_
      congr 1
      simp only [Vd.at, Vd.r, Vd.c]
      rw [nx _ _ _ _ _ (Or.inl (by simp)), k2 _ _ _ (Or.inl (by simp)), h1a _ _ _ (Or.inl (by simp))]
    · rw [if_neg hh, na _ _ _ _ _ (Or.inr (by omega)), nx _ _ _ _ _ (Or.inl (by simp)), k2 _ _ _ (Or.inl (by simp)), h1a _ _ _ (Or.inl (by simp))]
  · rw [na _ _ _ _ _ (Or.inl (by simp)), nx _ _ _ _ _ (Or.inl (by simp)), k2 _ _ _ (Or.inl (by simp)), h1a _ _ _ (Or.inl (by simp))]
  · rw [na _ _ _ _ _ (Or.inl (by simp)), nx _ _ _ _ _ (Or.inr hc), k2 _ _ _ (Or.inr hc), h1a _ _ _ (Or.inr hc)]
  · rw [na _ _ _ _ _ (Or.inl (by simp))]
    obtain ⟨z, rfl⟩ : ∃ z, r = i + 1 + z := ⟨r - (i + 1), by omega⟩
    refine (updV_in (d := ⟨K3.x, false, i, i + 1, A.m⟩) (x := z) (by simp; omega)).trans ?_
    simp only [Vd.at, Vd.r, Vd.c]
    rw [x2 _ hr0 hr1, h1x _ hr0 hr1]
    congr 1
    have a1 : ∀ r c, f1 .a r c = f .a r c := fun r c => h1a _ _ _ (Or.inl (by simp))
    have a2 : ∀ r c, f1 .y r c = f .y r c := fun r c => h1a _ _ _ (Or.inl (by simp))
    simp only [a1, a2]
    congr 1
    refine Finset.sum_congr rfl fun j hj => ?_
    rw [h1a _ _ _ (Or.inr (by have := mem_range.1 hj; omega))]

end TLA
