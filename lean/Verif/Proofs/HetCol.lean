import Verif.Proofs.LdlInv
import Verif.Proofs.Fam
import Verif.Proofs.LuRec
import Verif.Model.Hetrf
set_option linter.unusedTactic false
set_option linter.unusedVariables false
set_option linter.unusedSimpArgs false
set_option linter.unreachableTactic false
set_option linter.unusedSectionVars false

/-! # hetf3: the columns of W, the interchanges, the pivots -/

namespace TLA
open Finset
variable {L 𝕜 : Type} [DecidableEq L] [RCLike 𝕜] [DecidableEq 𝕜]

section Family
variable {K : Type} [DecidableEq K]

theorem wp_copy_F {B : K → MatV L} (hB : Fam B) {d e : Vd K} (hd : d.ok B) (he : e.ok B) (hn : d.hi - d.lo = e.hi - e.lo) (dj : d.dj e)
    {f : K → Nat → Nat → 𝕜} {ν : Store L 𝕜} (hf : LS B f ν) :
    wp (copy (d.vec B) (e.vec B)) ν (fun _ ν' => LS B (updV f e (d.at f)) ν' ∧ Fr B ν ν') := by
  refine wp_conseq (wp_copy_e (Vd.vec_inj hB he) (by rw [Vd.vec_n, Vd.vec_n, hn]) (Vd.dj_disj hB hd he dj)) ?_
  rintro _ ν' ⟨o, v⟩
  refine LS.put hB he hf o fun x hx => ?_
  rw [v x (by rwa [Vd.vec_n]), Vd.ventry_eq hd hf (by omega)]

theorem wp_swap_F {B : K → MatV L} (hB : Fam B) {d e : Vd K} (hd : d.ok B) (he : e.ok B) (hn : d.hi - d.lo = e.hi - e.lo) (dj : d.dj e)
    {f : K → Nat → Nat → 𝕜} {ν : Store L 𝕜} (hf : LS B f ν) :
    wp (swap (d.vec B) (e.vec B)) ν (fun _ ν' => LS B (updV (updV f e (d.at f)) d (e.at f)) ν' ∧ Fr B ν ν') := by
  refine wp_conseq (wp_swap (Vd.vec_inj hB hd) (Vd.vec_inj hB he) (by rw [Vd.vec_n, Vd.vec_n, hn]) (Vd.dj_disj hB hd he dj)) ?_
  rintro _ ν' ⟨v1, v2, o⟩
  constructor
  · intro k r c hr hc
    unfold updV
    by_cases h1 : k = d.k ∧ d.has r c
    · rw [if_pos h1]
      obtain ⟨rfl, h1⟩ := h1
      obtain ⟨x, hx, rfl, rfl⟩ := Vd.has_iff.1 h1
      have := v1 x (by rwa [Vd.vec_n])
      rw [Vd.ventry_eq he hf (by omega)] at this
      unfold ventry at this
      rw [Vd.vec_cell] at this
      rw [Vd.idx_at]; exact this
    · rw [if_neg h1]
      by_cases h2 : k = e.k ∧ e.has r c
      · rw [if_pos h2]
        obtain ⟨rfl, h2⟩ := h2
        obtain ⟨x, hx, rfl, rfl⟩ := Vd.has_iff.1 h2
        have := v2 x (by rwa [Vd.vec_n])
        rw [Vd.ventry_eq hd hf (by omega)] at this
        unfold ventry at this
        rw [Vd.vec_cell] at this
        rw [Vd.idx_at]; exact this
      · rw [if_neg h2]
        refine Eq.trans ?_ (hf k r c hr hc)
        refine o _ ?_ ?_
        · rintro ⟨x, hx, q⟩
          rw [Vd.vec_n] at hx
          rw [Vd.vec_cell] at q
          have := hB.cell (Vd.r_lt hd hx) (Vd.c_lt hd hx) hr hc q
          exact h1 ⟨this.1.symm, Vd.has_iff.2 ⟨x, hx, this.2.1.symm, this.2.2.symm⟩⟩
        · rintro ⟨x, hx, q⟩
          rw [Vd.vec_n] at hx
          rw [Vd.vec_cell] at q
          have := hB.cell (Vd.r_lt he hx) (Vd.c_lt he hx) hr hc q
          exact h2 ⟨this.1.symm, Vd.has_iff.2 ⟨x, hx, this.2.1.symm, this.2.2.symm⟩⟩
  · intro l hl
    refine o l ?_ ?_
    · rintro ⟨x, hx, q⟩
      rw [Vd.vec_n] at hx
      rw [Vd.vec_cell] at q
      exact hl d.k ⟨_, _, Vd.r_lt hd hx, Vd.c_lt hd hx, q⟩
    · rintro ⟨x, hx, q⟩
      rw [Vd.vec_n] at hx
      rw [Vd.vec_cell] at q
      exact hl e.k ⟨_, _, Vd.r_lt he hx, Vd.c_lt he hx, q⟩

end Family

/-- The matrix and the workspace. -/
def hB (A W : MatV L) : Bool → MatV L
  | true => A
  | false => W

/-- Their contents. -/
def pr (a w : Nat → Nat → 𝕜) : Bool → Nat → Nat → 𝕜
  | true => a
  | false => w

/-- The shapes. -/
structure HSz (A W : MatV L) (n nb : Nat) : Prop where
  fam : Fam (hB A W)
  am : A.m = n
  an : A.n = n
  wm : W.m = n
  wn : W.n = nb

variable {A W : MatV L} {n nb : Nat} {herm : Bool} {a w : Nat → Nat → 𝕜} {ν : Store L 𝕜}

theorem HSz.sz (h : HSz A W n nb) : (hB A W true).m = n ∧ (hB A W true).n = n ∧ (hB A W false).m = n ∧ (hB A W false).n = nb := ⟨h.am, h.an, h.wm, h.wn⟩

theorem re_cj (x : 𝕜) (h : cjH 𝕜 true x = x) : re x = x := by
  have : (RCLike.re x : 𝕜) = x := by rw [← RCLike.conj_eq_iff_re]; exact h
  exact this

abbrev col (k : Bool) (i lo hi : Nat) : Vd Bool := ⟨k, false, i, lo, hi⟩
abbrev row (k : Bool) (i lo hi : Nat) : Vd Bool := ⟨k, true, i, lo, hi⟩

macro "vds" : tactic => `(tactic| simp only [updV, updE, Vd.has, Vd.idx, Vd.at, Vd.r, Vd.c, pr, reduceCtorEq, false_and, and_false, true_and, if_false, opF])

theorem wp_hetLowUpd (hz : HSz A W n nb) {j i c : Nat} (hj : j ≤ c) (hc : c < nb) (hjn : j ≤ i) (hi : i < n) (hnb : nb ≤ n ∨ True) (hjb : j ≤ nb)
    (hf : LS (hB A W) (pr a w) ν) :
    wp (hetLowUpd herm A W n j i c) ν (fun _ ν' => ∃ w', LS (hB A W) (pr a w') ν' ∧ Fr (hB A W) ν ν' ∧ (∀ r l, l ≠ c → w' r l = w r l) ∧
      ∀ r, j ≤ r → r < n → w' r c = (if herm = true ∧ r = i ∧ 0 < j then re (w r c - ∑ l ∈ range j, a r l * cjH 𝕜 herm (w i l))
        else w r c - ∑ l ∈ range j, a r l * cjH 𝕜 herm (w i l))) := by
  obtain ⟨hB', am, an, wm, wn⟩ := hz
  unfold hetLowUpd
  by_cases h0 : 0 < j
  · rw [if_pos h0]
    cases herm
    · rw [if_neg (by simp)]
      simp only [wp_bind]
      refine wp_slice (by omega) (by omega) (by omega) (by omega) ?_
      refine wp_sliceRow (by omega) (by omega) (by omega) ?_
      refine wp_sliceCol (by omega) (by omega) (by omega) ?_
      refine wp_conseq (wp_gemv_F hB' (k := true) (r0 := j) (r1 := n) (c0 := 0) (c1 := j) (d := row false i 0 j) (e := col false c j n) (m := 0) (n := 0)
        (trans := .NoTrans) (beta := 1) hf (by show n ≤ A.m; omega) (by show j ≤ A.n; omega) (by show i < W.m ∧ j ≤ W.n; omega) (by show c < W.n ∧ n ≤ W.m; omega) (by simp) rfl rfl (.inr rfl)
        (fun x y hx hy _ _ h => by simp only [Vd.c] at h hx; omega) (fun _ _ _ _ _ _ _ _ h => by simp at h)) ?_
      rintro _ ν' ⟨h1, g1⟩
      refine ⟨_, h1.congr (g := pr a (fun r l => if l = c ∧ j ≤ r ∧ r < n then w r c - ∑ t ∈ range j, a r t * w i t else w r l)) ?_, g1, ?_, ?_⟩
      · intro k r l _ _
        cases k
        · vds
          split_ifs with h
          · obtain ⟨rfl, h2, h3⟩ := h
            simp only [Nat.sub_zero, Nat.zero_add, show j + (r - j) = r by omega]
            rw [neg_one_mul, one_mul, add_comm, ← sub_eq_add_neg]
          · rfl
        · vds
      · intro r l hl; beta_reduce; rw [if_neg (fun h => hl h.1)]
      · intro r h1 h2
        beta_reduce
        rw [if_pos ⟨rfl, h1, h2⟩, if_neg (by simp)]; rfl
    · rw [if_pos rfl]
      simp only [wp_bind]
      refine wp_sliceRow (by omega) (by omega) (by omega) ?_
      refine wp_sliceCol (by omega) (by omega) (by omega) ?_
      refine wp_conseq (wp_copy_F hB' (d := row false i 0 j) (e := col false c 0 j) (by show i < W.m ∧ j ≤ W.n; omega) (by show c < W.n ∧ j ≤ W.m; omega) rfl
        (fun x y hx hy _ _ h => by simp only [Vd.c] at h hx; omega) hf) ?_
      rintro _ ν1 ⟨h1, g1⟩
      refine wp_sliceCol (by omega) (by omega) (by omega) ?_
      refine wp_conseq (wp_conj_F hB' (d := col false c 0 j) (by show c < W.n ∧ j ≤ W.m; omega) h1) ?_
      rintro _ ν2 ⟨h2, g2⟩
      have h2 := h2.congr (g := pr a (fun r l => if l = c ∧ r < j then star (w i r) else w r l)) (by
        intro k r l _ _
        cases k
        · vds
          by_cases h : l = c ∧ r < j
          · rw [if_pos h, if_pos (by omega), if_pos (by omega)]
            simp
          · rw [if_neg h, if_neg (by omega), if_neg (by omega)]
        · vds)
      refine wp_slice (by omega) (by omega) (by omega) (by omega) ?_
      refine wp_sliceCol (by omega) (by omega) (by omega) ?_
      refine wp_sliceCol (by omega) (by omega) (by omega) ?_
      refine wp_conseq (wp_gemv_F hB' (k := true) (r0 := j) (r1 := n) (c0 := 0) (c1 := j) (d := col false c 0 j) (e := col false c j n) (m := 0) (n := 0)
        (trans := .NoTrans) (beta := 1) h2 (by show n ≤ A.m; omega) (by show j ≤ A.n; omega) (by show c < W.n ∧ j ≤ W.m; omega) (by show c < W.n ∧ n ≤ W.m; omega) (by simp) rfl rfl (.inr rfl)
        (fun x y hx hy _ h _ => by simp only [Vd.r] at h hx; omega) (fun _ _ _ _ _ _ _ _ h => by simp at h)) ?_
      rintro _ ν3 ⟨h3, g3⟩
      have h3 := h3.congr (g := pr a (fun r l => if l = c ∧ r < j then star (w i r) else if l = c ∧ j ≤ r ∧ r < n then w r c - ∑ t ∈ range j, a r t * star (w i t) else w r l)) (by
        intro k r l _ _
        cases k
        · vds
          by_cases h : l = c ∧ r < j
          · rw [if_pos h, if_neg (by omega), if_pos h]
          · rw [if_neg h]
            by_cases h' : l = c ∧ j ≤ r ∧ r < n
            · rw [if_pos h', if_pos h', if_neg (by omega)]
              obtain ⟨rfl, h4, h5⟩ := h'
              simp only [Nat.sub_zero, Nat.zero_add, show j + (r - j) = r by omega, if_true, true_and]
              rw [neg_one_mul, one_mul, add_comm, ← sub_eq_add_neg]
              congr 1
              refine Finset.sum_congr rfl fun t ht => ?_
              rw [if_pos (mem_range.1 ht)]
            · rw [if_neg h', if_neg h', if_neg h]
        · vds)
      rw [wp_get]
      refine ⟨⟨by omega, by omega⟩, ?_⟩
      rw [wp_set]
      refine ⟨⟨by omega, by omega⟩, ?_⟩
      have e3 : ν3 (W.cell i c) = w i c - ∑ t ∈ range j, a i t * star (w i t) := by
        have := h3 false i c (by show i < W.m; omega) (by show c < W.n; omega)
        refine this.trans ?_
        show (if _ then _ else _) = _
        rw [if_neg (by omega), if_pos (by omega)]
      have h4 := LS.set hB' (k := false) (r := i) (c := c) h3 (by show i < W.m; omega) (by show c < W.n; omega) (re (ν3 (W.cell i c)))
      refine ⟨_, h4.1.congr (g := pr a (updE (pr a (fun r l => if l = c ∧ r < j then star (w i r) else if l = c ∧ j ≤ r ∧ r < n then w r c - ∑ t ∈ range j, a r t * star (w i t) else w r l)) false i c (re (ν3 (W.cell i c))) false)) ?_,
        ((g1.trans g2).trans g3).trans h4.2, ?_, ?_⟩
      · intro k r l _ _
        cases k
        · rfl
        · vds
      · intro r l hl
        vds
        rw [if_neg (by omega), if_neg (by omega), if_neg (by omega)]
      · intro r h5 h6
        vds
        by_cases h7 : r = i
        · subst h7
          rw [if_pos (by simp), if_pos (by omega), e3]; rfl
        · rw [if_neg (by omega), if_neg (by omega), if_pos (by omega), if_neg (by omega)]; rfl
  · rw [if_neg h0]
    refine ⟨w, hf, Fr.refl, fun _ _ _ => rfl, fun r _ _ => ?_⟩
    rw [if_neg (by omega)]
    obtain rfl : j = 0 := by omega
    simp

set_option maxHeartbeats 1000000 in
theorem wp_hetLowCol (hz : HSz A W n nb) {j : Nat} (hjb : j < nb) (hjn : j < n) (hf : LS (hB A W) (pr a w) ν)
    (hs : herm = true → cjH 𝕜 herm (schurF herm j a w j j) = schurF herm j a w j j) :
    wp (hetLowCol herm A W n j) ν (fun _ ν' => ∃ w', LS (hB A W) (pr a w') ν' ∧ Fr (hB A W) ν ν' ∧ (∀ r l, l ≠ j → w' r l = w r l) ∧
      ∀ r, j ≤ r → r < n → w' r j = schurF herm j a w r j) := by
  have hz' := hz
  obtain ⟨hB', am, an, wm, wn⟩ := hz
  unfold hetLowCol
  simp only [wp_bind]
  refine wp_sliceCol (by omega) (by omega) (by omega) ?_
  refine wp_sliceCol (by omega) (by omega) (by omega) ?_
  refine wp_conseq (wp_copy_F hB' (d := col true j j n) (e := col false j j n) (by show j < A.n ∧ n ≤ A.m; omega) (by show j < W.n ∧ n ≤ W.m; omega) rfl
    (fun x y hx hy h _ _ => by simp at h) hf) ?_
  rintro _ ν1 ⟨h1, g1⟩
  have h1 := h1.congr (g := pr a (fun r l => if l = j ∧ j ≤ r ∧ r < n then a r j else w r l)) (by
    intro k r l _ _
    cases k
    · vds
      split_ifs with h
      · rw [show j + (r - j) = r by omega]
      · rfl
    · vds)
  have hre : wp (realIf herm W j j) ν1 (fun _ ν' => ∃ w', LS (hB A W) (pr a w') ν' ∧ Fr (hB A W) ν1 ν' ∧ (∀ r l, l ≠ j → w' r l = w r l) ∧
      ∀ r, j ≤ r → r < n → w' r j = fullF herm .Lower a r j) := by
    unfold realIf
    cases herm
    · refine ⟨_, h1, Fr.refl, fun r l hl => by beta_reduce; rw [if_neg (by omega)], fun r h2 h3 => ?_⟩
      beta_reduce
      rw [if_pos ⟨rfl, h2, h3⟩]
      rcases Nat.lt_or_ge j r with q | q
      · rw [fullF_lt _ q]
      · obtain rfl : r = j := by omega
        rw [fullF_diag]; rfl
    · rw [if_pos rfl]
      simp only [wp_bind]
      rw [wp_get]
      refine ⟨⟨by omega, by omega⟩, ?_⟩
      rw [wp_set]
      refine ⟨⟨by omega, by omega⟩, ?_⟩
      have e3 : ν1 (W.cell j j) = a j j := by
        refine (h1 false j j (by show j < W.m; omega) (by show j < W.n; omega)).trans ?_
        show (if _ then _ else _) = _
        rw [if_pos (by omega)]
      rw [e3]
      have h4 := LS.set hB' (k := false) (r := j) (c := j) h1 (by show j < W.m; omega) (by show j < W.n; omega) (re (a j j))
      refine ⟨_, h4.1.congr (g := pr a (fun r l => if r = j ∧ l = j then re (a j j) else if l = j ∧ j ≤ r ∧ r < n then a r j else w r l)) ?_, h4.2,
        fun r l hl => ?_, fun r h2 h3 => ?_⟩
      · intro k r l _ _
        cases k
        · vds
        · vds
      · beta_reduce
        rw [if_neg (by omega), if_neg (by omega)]
      · beta_reduce
        rcases Nat.lt_or_ge j r with q | q
        · rw [if_neg (by omega), if_pos (by omega), fullF_lt _ q]
        · obtain rfl : r = j := by omega
          rw [if_pos (by omega), fullF_diag]; rfl
  refine wp_conseq hre ?_
  rintro _ ν2 ⟨w2, h2, g2, o2, e2⟩
  refine wp_conseq (wp_hetLowUpd hz' (le_refl j) hjb (le_refl j) hjn (.inr trivial) (by omega) h2) ?_
  rintro _ ν3 ⟨w3, h3, g3, o3, e3⟩
  refine ⟨w3, h3, (g1.trans g2).trans g3, fun r l hl => (o3 r l hl).trans (o2 r l hl), fun r h5 h6 => ?_⟩
  rw [e3 r h5 h6, e2 r h5 h6]
  have es : ∑ l ∈ range j, a r l * cjH 𝕜 herm (w2 j l) = ∑ l ∈ range j, a r l * cjH 𝕜 herm (w j l) :=
    Finset.sum_congr rfl fun l hl => by rw [o2 j l (by have := mem_range.1 hl; omega)]
  rw [es]
  split_ifs with q
  · obtain ⟨rfl, rfl, _⟩ := q
    exact re_cj _ (hs rfl)
  · rfl

set_option maxHeartbeats 1000000 in
theorem wp_hetLowCol2 (hz : HSz A W n nb) {j i : Nat} (hjb : j + 1 < nb) (hjn : j < i) (hi : i < n) (hf : LS (hB A W) (pr a w) ν)
    (hs : herm = true → cjH 𝕜 herm (schurF herm j a w i i) = schurF herm j a w i i) :
    wp (hetLowCol2 herm A W n j i) ν (fun _ ν' => ∃ w', LS (hB A W) (pr a w') ν' ∧ Fr (hB A W) ν ν' ∧ (∀ r l, l ≠ j + 1 → w' r l = w r l) ∧
      ∀ r, j ≤ r → r < n → w' r (j + 1) = schurF herm j a w r i) := by
  have hz' := hz
  obtain ⟨hB', am, an, wm, wn⟩ := hz
  unfold hetLowCol2
  simp only [wp_bind]
  refine wp_sliceRow (by omega) (by omega) (by omega) ?_
  refine wp_sliceCol (by omega) (by omega) (by omega) ?_
  refine wp_conseq (wp_copy_F hB' (d := row true i j i) (e := col false (j + 1) j i) (by show i < A.m ∧ i ≤ A.n; omega) (by show j + 1 < W.n ∧ i ≤ W.m; omega) rfl
    (fun x y hx hy h _ _ => by simp at h) hf) ?_
  rintro _ ν1 ⟨h1, g1⟩
  have h1 := h1.congr (g := pr a (fun r l => if l = j + 1 ∧ j ≤ r ∧ r < i then a i r else w r l)) (by
    intro k r l _ _
    cases k
    · vds
      split_ifs with h
      · rw [show j + (r - j) = r by omega]
      · rfl
    · vds)
  refine wp_sliceCol (by omega) (by omega) (by omega) ?_
  refine wp_sliceCol (by omega) (by omega) (by omega) ?_
  refine wp_conseq (wp_copy_F hB' (d := col true i i n) (e := col false (j + 1) i n) (by show i < A.n ∧ n ≤ A.m; omega) (by show j + 1 < W.n ∧ n ≤ W.m; omega) rfl
    (fun x y hx hy h _ _ => by simp at h) h1) ?_
  rintro _ ν2 ⟨h2, g2⟩
  have h2 := h2.congr (g := pr a (fun r l => if l = j + 1 ∧ i ≤ r ∧ r < n then a r i else if l = j + 1 ∧ j ≤ r ∧ r < i then a i r else w r l)) (by
    intro k r l _ _
    cases k
    · vds
      by_cases q : l = j + 1 ∧ i ≤ r ∧ r < n
      · rw [if_pos q, if_pos q, show i + (r - i) = r by omega]
      · rw [if_neg q, if_neg q]
    · vds)
  have hre : wp (if herm then do
      let v ← W.get i (j + 1)
      W.set i (j + 1) (re v)
      let y ← W.sliceCol j i (j + 1)
      conjugate y
    else pure () : M L 𝕜 Unit) ν2 (fun _ ν' => ∃ w', LS (hB A W) (pr a w') ν' ∧ Fr (hB A W) ν2 ν' ∧ (∀ r l, l ≠ j + 1 → w' r l = w r l) ∧
      ∀ r, j ≤ r → r < n → w' r (j + 1) = fullF herm .Lower a r i) := by
    cases herm
    · refine ⟨_, h2, Fr.refl, fun r l hl => by beta_reduce; rw [if_neg (by omega), if_neg (by omega)], fun r h2 h3 => ?_⟩
      beta_reduce
      rcases lt_trichotomy i r with q | q | q
      · rw [fullF_lt _ q, if_pos (by omega)]
      · subst q
        rw [fullF_diag, if_pos (by omega)]; rfl
      · rw [fullF_gt _ q, if_neg (by omega), if_pos (by omega)]; rfl
    · rw [if_pos rfl]
      simp only [wp_bind]
      rw [wp_get]
      refine ⟨⟨by omega, by omega⟩, ?_⟩
      rw [wp_set]
      refine ⟨⟨by omega, by omega⟩, ?_⟩
      have e3 : ν2 (W.cell i (j + 1)) = a i i := by
        refine (h2 false i (j + 1) (by show i < W.m; omega) (by show j + 1 < W.n; omega)).trans ?_
        show (if _ then _ else _) = _
        rw [if_pos (by omega)]
      rw [e3]
      have h4 := LS.set hB' (k := false) (r := i) (c := j + 1) h2 (by show i < W.m; omega) (by show j + 1 < W.n; omega) (re (a i i))
      refine wp_sliceCol (by omega) (by omega) (by omega) ?_
      refine wp_conseq (wp_conj_F hB' (d := col false (j + 1) j i) (by show j + 1 < W.n ∧ i ≤ W.m; omega) h4.1) ?_
      rintro _ ν5 ⟨h5, g5⟩
      refine ⟨_, h5.congr (g := pr a (fun r l => if l = j + 1 ∧ j ≤ r ∧ r < i then star (a i r) else if r = i ∧ l = j + 1 then re (a i i) else if l = j + 1 ∧ i ≤ r ∧ r < n then a r i else w r l)) ?_, h4.2.trans g5,
        fun r l hl => ?_, fun r h2 h3 => ?_⟩
      · intro k r l _ _
        cases k
        · vds
          by_cases q : l = j + 1 ∧ j ≤ r ∧ r < i
          · rw [if_pos q, if_pos q, show j + (r - j) = r by omega, if_neg (by omega), if_neg (by omega), if_pos (by omega)]
          · rw [if_neg q, if_neg q]
            by_cases q' : r = i ∧ l = j + 1
            · rw [if_pos q', if_pos q']
            · rw [if_neg q', if_neg q']
              by_cases q'' : l = j + 1 ∧ i ≤ r ∧ r < n
              · rw [if_pos q'', if_pos q'']
              · rw [if_neg q'', if_neg q'', if_neg q]
        · vds
      · beta_reduce
        rw [if_neg (by omega), if_neg (by omega), if_neg (by omega)]
      · beta_reduce
        rcases lt_trichotomy i r with q | q | q
        · rw [if_neg (by omega), if_neg (by omega), if_pos (by omega), fullF_lt _ q]
        · subst q
          rw [if_neg (by omega), if_pos (by omega), fullF_diag]; rfl
        · rw [if_pos (by omega), fullF_gt _ q]; rfl
  refine wp_conseq hre ?_
  rintro _ ν3 ⟨w3, h3, g3, o3, e3⟩
  refine wp_conseq (wp_hetLowUpd hz' (show j ≤ j + 1 by omega) hjb (le_of_lt hjn) hi (.inr trivial) (by omega) h3) ?_
  rintro _ ν4 ⟨w4, h4, g4, o4, e4⟩
  refine ⟨w4, h4, ((g1.trans g2).trans g3).trans g4, fun r l hl => (o4 r l hl).trans (o3 r l hl), fun r h5 h6 => ?_⟩
  rw [e4 r h5 h6, e3 r h5 h6]
  have es : ∑ l ∈ range j, a r l * cjH 𝕜 herm (w3 i l) = ∑ l ∈ range j, a r l * cjH 𝕜 herm (w i l) :=
    Finset.sum_congr rfl fun l hl => by rw [o3 i l (by have := mem_range.1 hl; omega)]
  rw [es]
  split_ifs with q
  · obtain ⟨rfl, rfl, _⟩ := q
    exact re_cj _ (hs rfl)
  · rfl

end TLA
