import Verif.Proofs.HetSwap
set_option linter.unusedTactic false
set_option linter.unusedVariables false
set_option linter.unusedSimpArgs false
set_option linter.unreachableTactic false
set_option linter.unusedSectionVars false

/-! # hetf3: one step of the panel -/

namespace TLA
open Finset
variable {L 𝕜 : Type} [DecidableEq L] [RCLike 𝕜] [DecidableEq 𝕜]
variable {isReal : Bool} {isinf : ℝ → Bool} {safeMin safeMax : ℝ}
variable {A W : MatV L} {n nb : Nat} {herm : Bool} {a w : Nat → Nat → 𝕜} {ν : Store L 𝕜}

theorem cjIf_eq (x : 𝕜) : cjIf herm x = cjH 𝕜 herm x := by cases herm <;> rfl

theorem wp_divE {x y : 𝕜} (hy : y ≠ 0) {Q : 𝕜 → Store L 𝕜 → Prop} {E} (h : Q (x / y) ν) : wp (divE x y) ν Q E := by
  unfold divE; rw [if_neg hy]; exact h

/-- The panel after a pivot of order 2. -/
noncomputable def twoA (herm : Bool) (j : Nat) (w a : Nat → Nat → 𝕜) : Nat → Nat → 𝕜 := fun r c =>
  let e := w (j + 1) j
  let d := 1 / (reIf herm (w (j + 1) (j + 1) / e * (w j j / cjH 𝕜 herm e)) - 1)
  if r = j + 1 ∧ c = j + 1 then w (j + 1) (j + 1) else if r = j + 1 ∧ c = j then e else if r = j ∧ c = j then w j j else
  if c = j ∧ j + 2 ≤ r then cjH 𝕜 herm (d / e) * (w (j + 1) (j + 1) / e * w r j - w r (j + 1)) else
  if c = j + 1 ∧ j + 2 ≤ r then d / e * (w j j / cjH 𝕜 herm e * w r (j + 1) - w r j) else a r c

set_option maxHeartbeats 1000000 in
theorem wp_hetLowTwo (hz : HSz A W n nb) {j : Nat} (hjb : j + 1 < nb) (hjn : j + 1 < n) (hf : LS (hB A W) (pr a w) ν)
    (h0 : w (j + 1) j ≠ 0) (h1 : reIf herm (w (j + 1) (j + 1) / w (j + 1) j * (w j j / cjH 𝕜 herm (w (j + 1) j))) - 1 ≠ 0) :
    wp (hetLowTwo herm A W n j) ν (fun _ ν' => LS (hB A W) (pr (twoA herm j w a) w) ν' ∧ Fr (hB A W) ν ν') := by
  have am := hz.am; have an := hz.an; have wm := hz.wm; have wn := hz.wn
  have h0' : cjH 𝕜 herm (w (j + 1) j) ≠ 0 := fun h => h0 (by rw [← cjH_cjH (herm := herm) (w (j + 1) j), h, map_zero])
  unfold hetLowTwo
  simp only [wp_bind]
  rw [wp_get]
  refine ⟨⟨by omega, by omega⟩, ?_⟩
  rw [hf.rdW hz (by omega) (by omega), wp_get]
  refine ⟨⟨by omega, by omega⟩, ?_⟩
  rw [hf.rdW hz (by omega) (by omega), cjIf_eq]
  refine wp_divE h0' ?_
  rw [wp_get]
  refine ⟨⟨by omega, by omega⟩, ?_⟩
  rw [hf.rdW hz (by omega) (by omega)]
  refine wp_divE h0 ?_
  refine wp_divE h1 ?_
  refine wp_divE h0 ?_
  obtain ⟨e, he⟩ : ∃ e, e = w (j + 1) j := ⟨_, rfl⟩
  obtain ⟨d, hd⟩ : ∃ d, d = 1 / (reIf herm (w (j + 1) (j + 1) / w (j + 1) j * (w j j / cjH 𝕜 herm (w (j + 1) j))) - 1) := ⟨_, rfl⟩
  rw [← hd, ← he]
  refine wp_forUp_ (fun k ν' => LS (hB A W) (pr (fun r c =>
    if c = j ∧ j + 2 ≤ r ∧ r < k then cjH 𝕜 herm (d / e) * (w (j + 1) (j + 1) / e * w r j - w r (j + 1)) else
    if c = j + 1 ∧ j + 2 ≤ r ∧ r < k then d / e * (w j j / cjH 𝕜 herm e * w r (j + 1) - w r j) else a r c) w) ν' ∧ Fr (hB A W) ν ν') (by omega) ?_ ?_ ?_
  · refine ⟨hf.congr fun k r c _ _ => ?_, Fr.refl⟩
    cases k
    · vds
    · vds
      rw [if_neg (by omega), if_neg (by omega)]
  · rintro k μ h2 h3 ⟨h4, g4⟩
    rw [wp_bind, wp_get]
    refine ⟨⟨by omega, by omega⟩, ?_⟩
    rw [h4.rdW hz (by omega) (by omega), wp_bind, wp_get]
    refine ⟨⟨by omega, by omega⟩, ?_⟩
    rw [h4.rdW hz (by omega) (by omega), wp_bind, wp_set]
    refine ⟨⟨by omega, by omega⟩, ?_⟩
    rw [wp_set]
    refine ⟨⟨by omega, by omega⟩, ?_⟩
    have h5 := LS.set hz.fam (k := true) (r := k) (c := j) h4 (by show k < A.m; omega) (by show j < A.n; omega) (cjIf herm (d / e) * (w (j + 1) (j + 1) / e * w k j - w k (j + 1)))
    have h6 := LS.set hz.fam (k := true) (r := k) (c := j + 1) h5.1 (by show k < A.m; omega) (by show j + 1 < A.n; omega) (d / e * (w j j / cjH 𝕜 herm e * w k (j + 1) - w k j))
    refine ⟨h6.1.congr fun b r c _ _ => ?_, (g4.trans h5.2).trans h6.2⟩
    cases b
    · vds
    · vds
      rw [cjIf_eq]
      by_cases q : r = k
      · subst q
        by_cases q1 : c = j
        · subst q1
          rw [if_pos (by omega), if_neg (by omega), if_pos (by omega)]
        · by_cases q2 : c = j + 1
          · subst q2
            rw [if_neg (by omega), if_pos (by omega), if_pos (by omega)]
          · rw [if_neg (by omega), if_neg (by omega), if_neg (by omega), if_neg (by omega), if_neg (by omega), if_neg (by omega)]
      · rw [if_neg (show ¬ (r = k ∧ c = j + 1) by omega), if_neg (show ¬ (r = k ∧ c = j) by omega)]
        by_cases q1 : c = j ∧ j + 2 ≤ r ∧ r < k
        · rw [if_pos (by omega), if_pos q1]
        · rw [if_neg (by omega), if_neg q1]
          by_cases q2 : c = j + 1 ∧ j + 2 ≤ r ∧ r < k
          · rw [if_pos (by omega), if_pos q2]
          · rw [if_neg (by omega), if_neg q2]
  · rintro μ ⟨h4, g4⟩
    rw [wp_get]
    refine ⟨⟨by omega, by omega⟩, ?_⟩
    rw [h4.rdW hz (by omega) (by omega), wp_set]
    refine ⟨⟨by omega, by omega⟩, ?_⟩
    have h5 := LS.set hz.fam (k := true) (r := j) (c := j) h4 (by show j < A.m; omega) (by show j < A.n; omega) (w j j)
    have h5' := h5.1.congr (g := pr (updE (pr (fun r c =>
      if c = j ∧ j + 2 ≤ r ∧ r < n then cjH 𝕜 herm (d / e) * (w (j + 1) (j + 1) / e * w r j - w r (j + 1)) else
      if c = j + 1 ∧ j + 2 ≤ r ∧ r < n then d / e * (w j j / cjH 𝕜 herm e * w r (j + 1) - w r j) else a r c) w) true j j (w j j) true) w) (fun k r c _ _ => by
        cases k
        · vds
        · rfl)
    rw [wp_get]
    refine ⟨⟨by omega, by omega⟩, ?_⟩
    have q1 := h5'.rdW hz (i := j + 1) (c := j) (by omega) (by omega)
    change upd μ ((hB A W true).cell j j) (w j j) (W.cell (j + 1) j) = _ at q1
    erw [q1]
    rw [wp_set]
    refine ⟨⟨by omega, by omega⟩, ?_⟩
    have h6 := LS.set hz.fam (k := true) (r := j + 1) (c := j) h5' (by show j + 1 < A.m; omega) (by show j < A.n; omega) (w (j + 1) j)
    have h6' := h6.1.congr (g := pr (updE (pr (updE (pr (fun r c =>
      if c = j ∧ j + 2 ≤ r ∧ r < n then cjH 𝕜 herm (d / e) * (w (j + 1) (j + 1) / e * w r j - w r (j + 1)) else
      if c = j + 1 ∧ j + 2 ≤ r ∧ r < n then d / e * (w j j / cjH 𝕜 herm e * w r (j + 1) - w r j) else a r c) w) true j j (w j j) true) w) true (j + 1) j (w (j + 1) j) true) w) (fun k r c _ _ => by
        cases k
        · vds
        · rfl)
    rw [wp_get]
    refine ⟨⟨by omega, by omega⟩, ?_⟩
    have q2 := h6'.rdW hz (i := j + 1) (c := j + 1) (by omega) (by omega)
    erw [q2]
    rw [wp_set]
    refine ⟨⟨by omega, by omega⟩, ?_⟩
    have h7 := LS.set hz.fam (k := true) (r := j + 1) (c := j + 1) h6' (by show j + 1 < A.m; omega) (by show j + 1 < A.n; omega) (w (j + 1) (j + 1))
    refine ⟨h7.1.congr fun b r c hr _ => ?_, ((g4.trans h5.2).trans h6.2).trans h7.2⟩
    cases b
    · vds
    · replace hr : r < A.m := hr
      unfold twoA
      rw [← he]
      simp only [← hd, he ▸ hd]
      vds
      by_cases p1 : r = j + 1 ∧ c = j + 1
      · rw [if_pos p1, if_pos p1]
      · rw [if_neg p1, if_neg p1]
        by_cases p2 : r = j + 1 ∧ c = j
        · rw [if_pos p2, if_pos p2, he]
        · rw [if_neg p2, if_neg p2]
          by_cases p3 : r = j ∧ c = j
          · rw [if_pos p3, if_pos p3]
          · rw [if_neg p3, if_neg p3]
            by_cases p4 : c = j ∧ j + 2 ≤ r
            · rw [if_pos p4, if_pos (show c = j ∧ j + 2 ≤ r ∧ r < n by omega)]
            · rw [if_neg p4, if_neg (show ¬ (c = j ∧ j + 2 ≤ r ∧ r < n) by omega)]
              by_cases p5 : c = j + 1 ∧ j + 2 ≤ r
              · rw [if_pos p5, if_pos (show c = j + 1 ∧ j + 2 ≤ r ∧ r < n by omega)]
              · rw [if_neg p5, if_neg (show ¬ (c = j + 1 ∧ j + 2 ≤ r ∧ r < n) by omega)]

/-- The interchange, also if there is none. -/
theorem wp_hetLowSwap' (hz : HSz A W n nb) {j s p : Nat} (hjs : j ≤ s) (hsb : s + 1 ≤ nb) (hp : s ≤ p) (hpn : p < n) (hf : LS (hB A W) (pr a w) ν) :
    wp (hetLowSwap herm A W n j s p) ν (fun _ ν' => ∃ a' w', LS (hB A W) (pr a' w') ν' ∧ Fr (hB A W) ν ν' ∧
      (∀ r c, c < j → a' r c = a (Equiv.swap s p r) c) ∧ (∀ r c, c ≤ s → w' r c = w (Equiv.swap s p r) c) ∧ (∀ r c, r < c → a' r c = a r c) ∧
      ∀ i k, s < i → s < k → i < n → k < n → fullF herm .Lower a' i k = fullF herm .Lower a (Equiv.swap s p i) (Equiv.swap s p k)) := by
  by_cases e : p = s
  · subst e
    unfold hetLowSwap
    rw [if_neg (by simp)]
    refine ⟨a, w, hf, Fr.refl, ?_, ?_, fun _ _ _ => rfl, ?_⟩ <;> intros <;> simp
  · refine wp_conseq (wp_hetLowSwap hz hjs hsb (by omega) hpn hf) ?_
    rintro _ ν' ⟨h1, g1⟩
    refine ⟨_, _, h1, g1, fun r c hc => swA_left hc, fun r c hc => ?_, fun r c hrc => ?_, fun i k h1 h2 h3 h4 => swA_full hjs (by omega) hpn h1 h2 h3 h4⟩
    · beta_reduce; rw [if_pos (by omega)]
    · unfold swA
      by_cases q : c < j
      · rw [if_pos q, swapN_id (m := j) (by omega) (by omega) (by omega)]
      · rw [if_neg q, if_neg (by omega), if_neg (by omega), if_neg (by omega)]

/-- The state of the panel at column `j`. -/
structure PSt (herm : Bool) (A W : MatV L) (n j : Nat) (S0 a0 : Nat → Nat → 𝕜) (μ : Store L 𝕜) (a w : Nat → Nat → 𝕜) (bl : List Blk) (Z : Nat → Bool) (ν : Store L 𝕜) : Prop where
  ls : LS (hB A W) (pr a w) ν
  fr : Fr (hB A W) μ ν
  inv : PInv herm n j S0 a w bl Z
  zin : ∀ c, j ≤ c → Z c = false
  up : ∀ r c, r < c → a r c = a0 r c

/-- What a step returns. -/
def StepRet (n j info : Nat) (ipiv : ZArr) (Z : Nat → Bool) (b : Blk) (Z' : Nat → Bool) (r : Nat × Nat × ZArr) : Prop :=
  b.k = j ∧ r.1 = j + b.sz ∧ j + b.sz ≤ n ∧ b.s .Lower ≤ b.p ∧ b.p < n ∧ r.2.2.n = ipiv.n ∧
  (∀ i, i < j ∨ j + b.sz ≤ i → r.2.2.f i = ipiv.f i) ∧ (b.two = false → r.2.2.f j = b.p) ∧
  (b.two = true → r.2.2.f j = -(b.p : Int) - 1 ∧ r.2.2.f (j + 1) = -(b.p : Int) - 1) ∧
  ((Z' = Z ∧ r.2.1 = info) ∨ (b.two = false ∧ Z' = (fun c => if c = j then true else Z c) ∧ r.2.1 = if info = 0 then j + 1 else info))

theorem twoA_apply {j r c : Nat} : twoA herm j w a r c =
  if r = j + 1 ∧ c = j + 1 then w (j + 1) (j + 1) else if r = j + 1 ∧ c = j then w (j + 1) j else if r = j ∧ c = j then w j j else
  if c = j ∧ j + 2 ≤ r then cjH 𝕜 herm (1 / (reIf herm (w (j + 1) (j + 1) / w (j + 1) j * (w j j / cjH 𝕜 herm (w (j + 1) j))) - 1) / w (j + 1) j) *
    (w (j + 1) (j + 1) / w (j + 1) j * w r j - w r (j + 1)) else
  if c = j + 1 ∧ j + 2 ≤ r then 1 / (reIf herm (w (j + 1) (j + 1) / w (j + 1) j * (w j j / cjH 𝕜 herm (w (j + 1) j))) - 1) / w (j + 1) j *
    (w j j / cjH 𝕜 herm (w (j + 1) j) * w r (j + 1) - w r j) else a r c := rfl

theorem twoA_up {j r c : Nat} (h : r < c) : twoA herm j w a r c = a r c := by
  rw [twoA_apply]
  rw [if_neg (by omega), if_neg (by omega), if_neg (by omega), if_neg (by omega), if_neg (by omega)]

theorem reIf_cj {x : 𝕜} (h : cjH 𝕜 herm x = x) : reIf herm x = x := by
  cases herm
  · rfl
  · exact re_cj x h

set_option maxHeartbeats 2000000 in
theorem wp_hetLowStep (hz : HSz A W n nb) (hl : LuLaws 𝕜 isReal safeMin safeMax) {alpha : ℝ} (ha0 : 0 < alpha) (ha : 2 * alpha ^ 2 ≤ 1) {j info : Nat}
    {ipiv : ZArr} (hip : n ≤ ipiv.n) (hjb : j + 1 < nb) (hjn : j + 1 < n) {S0 a0 : Nat → Nat → 𝕜} {μ : Store L 𝕜} {bl : List Blk} {Z : Nat → Bool}
    (h : PSt herm A W n j S0 a0 μ a w bl Z ν) :
    wp (hetLowStep (hetOps isReal isinf safeMin safeMax) alpha herm A W n j info ipiv) ν (fun r ν' => ∃ a' w' b Z',
      PSt herm A W n (j + b.sz) S0 a0 μ a' w' (bl ++ [b]) Z' ν' ∧ StepRet n j info ipiv Z b Z' r) := by
  obtain ⟨ls, fr, inv, zin, up⟩ := h
  have am := hz.am; have an := hz.an; have wm := hz.wm; have wn := hz.wn
  unfold hetLowStep
  simp only [wp_bind]
  obtain ⟨C, hC⟩ : ∃ C, C = schurF herm j a w := ⟨_, rfl⟩
  have sym := inv.sym
  rw [← hC] at sym
  refine wp_conseq (wp_hetLowCol hz (by omega) (by omega) ls fun _ => by rw [← hC]; exact (sym j j (by omega) (by omega) (by omega) (by omega)).symm) ?_
  rintro _ ν1 ⟨w1, h1, g1, o1, e1⟩
  rw [← hC] at e1
  have hC1 : C = schurF herm j a w1 := by
    rw [hC]; exact (schurF_congr fun r c hc => o1 r c (by omega)).symm
  refine wp_conseq (wp_hetLowPiv hz ha0 ha hjb hjn h1 hC1 sym e1) ?_
  rintro pv ν2 ⟨w2, h2, g2, o2, e2⟩
  have o2' : ∀ r c, c < j → w2 r c = w r c := fun r c hc => (o2 r c (by omega) (by omega)).trans (o1 r c (by omega))
  cases pv with
  | zero =>
    simp only [wp_bind]
    rw [wp_get]
    refine ⟨⟨by omega, by omega⟩, ?_⟩
    rw [wp_set]
    refine ⟨⟨by omega, by omega⟩, ?_⟩
    rw [h2.rdA hz (by omega) (by omega)]
    have h3 := LS.set hz.fam (k := true) (r := j) (c := j) h2 (by show j < A.m; omega) (by show j < A.n; omega) (re (a j j))
    unfold ZArr.set
    rw [if_pos (by omega)]
    have h3' := h3.1.congr (g := pr (fun r c => if r = j ∧ c = j then re (a j j) else a r c) w2) (fun k r c _ _ => by
        cases k <;> vds)
    refine ⟨_, w2, ⟨j, false, j⟩, fun c => if c = j then true else Z c, ⟨h3', ((fr.trans g1).trans g2).trans h3.2, ?_, fun c hc => ?_, fun r c hrc => ?_⟩, ?_⟩
    · have sid : ∀ i : Nat, Equiv.swap ((⟨j, false, j⟩ : Blk).s .Lower) j i = i := fun i => by
        show Equiv.swap j j i = i
        simp
      refine inv.step rfl (by show j + 1 ≤ n; omega) (le_refl j) (by show j < n; omega) (fun c hc => show (if c = j then true else Z c) = Z c from if_neg (by omega)) (fun i c hi hc => ?_) (fun i c _ hi hc => ?_)
        (fun i k h1 h2 h3 h4 => ?_) (fun i c h1 h2 h3 => ?_) (fun i k h1 h2 h3 h4 => ?_) (fun i k h1 h2 h3 h4 => ?_) (fun c i h1 h2 h3 h4 => ?_)
      · rw [sid, if_neg (by omega)]
      · rw [sid, o2' i c hc]
      · replace h1 : j + 1 ≤ i := h1
        replace h2 : j + 1 ≤ k := h2
        rw [sid, sid]
        rcases lt_trichotomy i k with q | q | q
        · rw [fullF_gt _ q, fullF_gt _ q, if_neg (by omega)]
        · subst q; rw [fullF_diag, fullF_diag, show (if i = j ∧ i = j then re (a j j) else a i i) = a i i from if_neg (by omega)]
        · rw [fullF_lt _ q, fullF_lt _ q, if_neg (by omega)]
      · replace h3 : c < 1 := h3
        obtain rfl : c = 0 := by omega
        rw [sid, sid, ← hC]
        exact (e2 i h1 h2).2.trans (e2 i h1 h2).1.symm
      · replace h2 : i < j + 1 := h2
        replace h4 : k < j + 1 := h4
        obtain rfl : i = j := by omega
        obtain rfl : k = i := by omega
        rw [sid, ← hC, (e2 k (by omega) (by omega)).1, fullF_diag]
        have m0 : ∀ f : Nat → Nat → 𝕜, maskC (fun c => if c = k then true else Z c) f k k = 0 := fun f => if_pos (if_pos rfl)
        rw [m0]
        cases herm
        · rfl
        · show ((RCLike.re (0 : 𝕜) : ℝ) : 𝕜) = 0
          simp
      · replace h4 : k < j + 1 := h4
        obtain rfl : k = j := by omega
        replace h1 : k + 1 ≤ i := h1
        rw [sid, sid, ← hC, (e2 i (by omega) h2).1]
        show 0 = ∑ c ∈ range 1, _
        rw [Finset.sum_range_one]
        have m0 : ∀ f : Nat → Nat → 𝕜, maskC (fun c => if c = k then true else Z c) f i (k + 0) = 0 := fun f => if_pos (if_pos rfl)
        rw [m0, zero_mul]
      · replace h1 : c < 1 := h1
        obtain rfl : c = 0 := by omega
        exact (e2 i h3 h4).2
    · replace hc : j + 1 ≤ c := hc
      beta_reduce
      rw [if_neg (by omega)]; exact zin c (by omega)
    · beta_reduce
      rw [if_neg (by omega)]; exact up r c hrc
    · refine ⟨rfl, rfl, by show j + 1 ≤ n; omega, le_refl j, by show j < n; omega, rfl, fun i hi => ?_, fun _ => if_pos rfl, fun h => by simp at h, .inr ⟨rfl, rfl, rfl⟩⟩
      replace hi : i < j ∨ j + 1 ≤ i := hi
      exact if_neg (by omega)
  | one p =>
    obtain ⟨p1, p2, p3, p4⟩ := e2
    simp only [wp_bind]
    refine wp_conseq (wp_hetLowSwap' hz (le_refl j) (by omega) p1 p2 h2) ?_
    rintro _ ν3 ⟨a3, w3, h3, g3, l3, v3, u3, f3⟩
    have sj : Equiv.swap j p j = p := Equiv.swap_apply_left _ _
    have σlt : ∀ i, i < n → Equiv.swap j p i < n := fun i hi => swapN_lt (by omega) p2 hi
    have σge : ∀ i, j ≤ i → j ≤ Equiv.swap j p i := fun i hi => swapN_ge (le_refl j) p1 hi
    have wv : ∀ i, j ≤ i → i < n → w3 i j = C (Equiv.swap j p i) p := fun i h4 h5 => by
      rw [v3 i j (le_refl j), p4 _ (σge i h4) (σlt i h5)]
    have wjj : w3 j j = C p p := by rw [wv j (le_refl j) (by omega), sj]
    have rjj : reIf herm (w3 j j) = C p p := by
      rw [wjj]; exact reIf_cj (sym p p p1 p1 p2 p2).symm
    refine wp_conseq (wp_hetLowOne hz hl (by omega) hjn h3 (by rw [rjj]; exact p3)) ?_
    rintro _ ν4 ⟨h4, g4⟩
    unfold ZArr.set
    rw [if_pos (by omega)]
    refine ⟨_, w3, ⟨j, false, p⟩, Z, ⟨h4, (((fr.trans g1).trans g2).trans g3).trans g4, ?_, fun c hc => zin c (by omega), fun r c hrc => ?_⟩, ?_⟩
    · have sid : (⟨j, false, p⟩ : Blk).s .Lower = j := rfl
      have Zj : Z j = false := zin j (le_refl j)
      refine inv.step rfl (by show j + 1 ≤ n; omega) p1 p2 (fun c hc => rfl) (fun i c hi hc => ?_) (fun i c _ hi hc => ?_)
        (fun i k h1 h2 h3 h4 => ?_) (fun i c h1 h2 h3 => ?_) (fun i k h1 h2 h3 h4 => ?_) (fun i k h1 h2 h3 h4 => ?_) (fun c i h1 h2 h3 h4 => ?_)
      · rw [sid, if_neg (by omega), l3 i c hc]
      · rw [sid, v3 i c (by omega), o2' _ c hc]
      · replace h1 : j + 1 ≤ i := h1
        replace h2 : j + 1 ≤ k := h2
        rw [sid, ← f3 i k (by omega) (by omega) h3 h4]
        rcases lt_trichotomy i k with q | q | q
        · rw [fullF_gt _ q, fullF_gt _ q, if_neg (by omega)]
        · subst q; rw [fullF_diag, fullF_diag]; beta_reduce; rw [if_neg (show ¬ (i = j ∧ j ≤ i) by omega)]
        · rw [fullF_lt _ q, fullF_lt _ q, if_neg (by omega)]
      · replace h3 : c < 1 := h3
        obtain rfl : c = 0 := by omega
        rw [sid, ← hC, Nat.add_zero, sj]
        exact wv i h1 h2
      · replace h2 : i < j + 1 := h2
        replace h4 : k < j + 1 := h4
        obtain rfl : i = j := by omega
        obtain rfl : k = i := by omega
        rw [sid, ← hC, sj, fullF_diag]
        have m0 : ∀ f : Nat → Nat → 𝕜, maskC Z f k k = f k k := fun f => if_neg (by rw [Zj]; simp)
        rw [m0]
        beta_reduce
        rw [if_pos (show k = k ∧ k ≤ k from ⟨rfl, le_refl k⟩), if_pos (show k = k from rfl)]
        exact rjj
      · replace h4 : k < j + 1 := h4
        obtain rfl : k = j := by omega
        replace h1 : k + 1 ≤ i := h1
        rw [sid, ← hC]
        show _ = ∑ c ∈ range 1, _
        rw [Finset.sum_range_one, Nat.add_zero, sj]
        have m0 : ∀ f : Nat → Nat → 𝕜, maskC Z f i k = f i k := fun f => if_neg (by rw [Zj]; simp)
        rw [m0]
        beta_reduce
        rw [if_pos (by omega), if_neg (by omega), rjj, wv i (by omega) h2]
        field_simp
      · replace h1 : c < 1 := h1
        obtain rfl : c = 0 := by omega
        rw [Nat.add_zero, Zj] at h2
        simp at h2
    · beta_reduce
      rw [if_neg (by omega), u3 r c hrc]; exact up r c hrc
    · refine ⟨rfl, rfl, by show j + 1 ≤ n; omega, p1, p2, rfl, fun i hi => ?_, fun _ => if_pos rfl, fun h => by simp at h, .inl ⟨rfl, rfl⟩⟩
      replace hi : i < j ∨ j + 1 ≤ i := hi
      exact if_neg (by omega)
  | two p =>
    obtain ⟨p1, p2, p3, p5, p4⟩ := e2
    simp only [wp_bind]
    refine wp_conseq (wp_hetLowSwap' hz (show j ≤ j + 1 by omega) (by omega) p1 p2 h2) ?_
    rintro _ ν3 ⟨a3, w3, h3, g3, l3, v3, u3, f3⟩
    have sj : Equiv.swap (j + 1) p j = j := Equiv.swap_apply_of_ne_of_ne (by omega) (by omega)
    have sj1 : Equiv.swap (j + 1) p (j + 1) = p := Equiv.swap_apply_left _ _
    have σlt : ∀ i, i < n → Equiv.swap (j + 1) p i < n := fun i hi => swapN_lt (by omega) p2 hi
    have σge : ∀ i, j ≤ i → j ≤ Equiv.swap (j + 1) p i := fun i hi => swapN_ge (by omega) (by omega) hi
    have wv : ∀ i, j ≤ i → i < n → w3 i j = C (Equiv.swap (j + 1) p i) j := fun i h4 h5 => by
      rw [v3 i j (by omega), (p4 _ (σge i h4) (σlt i h5)).1]
    have wv1 : ∀ i, j ≤ i → i < n → w3 i (j + 1) = C (Equiv.swap (j + 1) p i) p := fun i h4 h5 => by
      rw [v3 i (j + 1) (le_refl _), (p4 _ (σge i h4) (σlt i h5)).2]
    have ve : w3 (j + 1) j = C p j := by rw [wv _ (by omega) (by omega), sj1]
    have vg : w3 j j = C j j := by rw [wv _ (by omega) (by omega), sj]
    have vf : w3 (j + 1) (j + 1) = C p p := by rw [wv1 _ (by omega) (by omega), sj1]
    have cg : cjH 𝕜 herm (C j j) = C j j := (sym j j (by omega) (by omega) (by omega) (by omega)).symm
    have cf : cjH 𝕜 herm (C p p) = C p p := (sym p p (by omega) (by omega) (by omega) (by omega)).symm
    obtain ⟨q, hq⟩ : ∃ q, q = C p p / C p j * (C j j / cjH 𝕜 herm (C p j)) := ⟨_, rfl⟩
    have p3' : cjH 𝕜 herm (C p j) ≠ 0 := fun h => p3 (by rw [← cjH_cjH (herm := herm) (C p j), h, map_zero])
    have cq : cjH 𝕜 herm q = q := by
      rw [hq, map_mul, map_div₀, map_div₀, cg, cf, cjH_cjH]
      field_simp
    have ncj : ‖cjH 𝕜 herm (C p j)‖ = ‖C p j‖ := by
      cases herm
      · rfl
      · exact norm_star _
    have nq : q - 1 ≠ 0 := by
      intro h
      have h1 : ‖q‖ = 1 := by rw [sub_eq_zero.1 h, norm_one]
      rw [hq, norm_mul, norm_div, norm_div, ncj] at h1
      have np : 0 < ‖C p j‖ := norm_pos_iff.2 p3
      have : ‖C p p‖ / ‖C p j‖ * (‖C j j‖ / ‖C p j‖) = (‖C j j‖ * ‖C p p‖) / ‖C p j‖ ^ 2 := by field_simp
      rw [this, div_eq_one_iff_eq (by positivity)] at h1
      linarith
    have hre : reIf herm (w3 (j + 1) (j + 1) / w3 (j + 1) j * (w3 j j / cjH 𝕜 herm (w3 (j + 1) j))) = q := by
      rw [ve, vg, vf, ← hq]; exact reIf_cj cq
    refine wp_conseq (wp_hetLowTwo hz hjb hjn h3 (by rw [ve]; exact p3) (by rw [hre]; exact nq)) ?_
    rintro _ ν4 ⟨h4, g4⟩
    unfold ZArr.set
    rw [if_pos (by omega)]
    simp only [wp_pure]
    rw [if_pos (by omega)]
    refine ⟨_, w3, ⟨j, true, p⟩, Z, ⟨h4, (((fr.trans g1).trans g2).trans g3).trans g4, ?_, fun c hc => zin c (by omega), fun r c hrc => ?_⟩, ?_⟩
    · have sid : (⟨j, true, p⟩ : Blk).s .Lower = j + 1 := rfl
      have Zj : Z j = false := zin j (le_refl j)
      have Zj1 : Z (j + 1) = false := zin (j + 1) (by omega)
      have tA : ∀ r c, c ≠ j → c ≠ j + 1 → twoA herm j w3 a3 r c = a3 r c := fun r c h1 h2 => by
        rw [twoA_apply]
        rw [if_neg (by omega), if_neg (by omega), if_neg (by omega), if_neg (by omega), if_neg (by omega)]
      have ta : ∀ i, j + 2 ≤ i → i < n → twoA herm j w3 a3 i j = 1 / (q - 1) / cjH 𝕜 herm (C p j) *
          (C p p / C p j * C (Equiv.swap (j + 1) p i) j - C (Equiv.swap (j + 1) p i) p) := fun i h5 h6 => by
        rw [twoA_apply]
        rw [if_neg (by omega), if_neg (by omega), if_neg (by omega), if_pos (by omega), hre, ve, vf, wv i (by omega) h6, wv1 i (by omega) h6, map_div₀, map_div₀, map_sub, cq,
          map_one]
      have tb : ∀ i, j + 2 ≤ i → i < n → twoA herm j w3 a3 i (j + 1) = 1 / (q - 1) / C p j *
          (C j j / cjH 𝕜 herm (C p j) * C (Equiv.swap (j + 1) p i) p - C (Equiv.swap (j + 1) p i) j) := fun i h5 h6 => by
        rw [twoA_apply]
        rw [if_neg (by omega), if_neg (by omega), if_neg (by omega), if_neg (by omega), if_pos (by omega), hre, ve, vg, wv i (by omega) h6, wv1 i (by omega) h6]
      have t1 : twoA herm j w3 a3 j j = C j j := by
        rw [twoA_apply]; rw [if_neg (by omega), if_neg (by omega), if_pos ⟨rfl, rfl⟩, vg]
      have t2 : twoA herm j w3 a3 (j + 1) j = C p j := by
        rw [twoA_apply]; rw [if_neg (by omega), if_pos ⟨rfl, rfl⟩, ve]
      have t3 : twoA herm j w3 a3 (j + 1) (j + 1) = C p p := by
        rw [twoA_apply]; rw [if_pos ⟨rfl, rfl⟩, vf]
      have mj : ∀ i, maskC Z (twoA herm j w3 a3) i j = twoA herm j w3 a3 i j := fun i => by
        unfold maskC; rw [Zj, if_neg (by simp)]
      have mj1 : ∀ i, maskC Z (twoA herm j w3 a3) i (j + 1) = twoA herm j w3 a3 i (j + 1) := fun i => by
        unfold maskC; rw [Zj1, if_neg (by simp)]
      refine inv.step rfl (by show j + 2 ≤ n; omega) p1 p2 (fun c hc => rfl) (fun i c hi hc => ?_) (fun i c _ hi hc => ?_)
        (fun i k h1 h2 h3 h4 => ?_) (fun i c h1 h2 h3 => ?_) (fun i k h1 h2 h3 h4 => ?_) (fun i k h1 h2 h3 h4 => ?_) (fun c i h1 h2 h3 h4 => ?_)
      · rw [sid, tA _ _ (by omega) (by omega), l3 i c hc]
      · rw [sid, v3 i c (by omega), o2' _ c hc]
      · replace h1 : j + 2 ≤ i := h1
        replace h2 : j + 2 ≤ k := h2
        rw [sid, ← f3 i k (by omega) (by omega) h3 h4]
        rcases lt_trichotomy i k with q | q | q
        · rw [fullF_gt _ q, fullF_gt _ q, tA _ _ (by omega) (by omega)]
        · subst q; rw [fullF_diag, fullF_diag, tA _ _ (by omega) (by omega)]
        · rw [fullF_lt _ q, fullF_lt _ q, tA _ _ (by omega) (by omega)]
      · replace h3 : c < 2 := h3
        rw [sid, ← hC]
        interval_cases c
        · rw [Nat.add_zero, sj]; exact wv i h1 h2
        · rw [sj1]; exact wv1 i h1 h2
      · replace h2 : i < j + 2 := h2
        replace h4 : k < j + 2 := h4
        rw [sid, ← hC]
        obtain rfl | rfl : i = j ∨ i = j + 1 := by omega
        · obtain rfl | rfl : k = i ∨ k = i + 1 := by omega
          · rw [sj, fullF_diag, mj, t1]
            exact reIf_cj cg
          · rw [sj, sj1, fullF_gt _ (by omega), mj, t2, ← sym p i (by omega) (by omega) (by omega) (by omega)]
        · obtain rfl | rfl : k = j ∨ k = j + 1 := by omega
          · rw [sj, sj1, fullF_lt _ (by omega), mj, t2]
          · rw [sj1, fullF_diag, mj1, t3]
            exact reIf_cj cf
      · replace h1 : j + 2 ≤ i := h1
        replace h4 : k < j + 2 := h4
        rw [sid, ← hC]
        show _ = ∑ c ∈ range 2, _
        rw [Finset.sum_range_succ, Finset.sum_range_one, Nat.add_zero]
        show C (Equiv.swap (j + 1) p i) (Equiv.swap (j + 1) p k) = maskC Z (twoA herm j w3 a3) i j * C (Equiv.swap (j + 1) p j) (Equiv.swap (j + 1) p k) +
          maskC Z (twoA herm j w3 a3) i (j + 1) * C (Equiv.swap (j + 1) p (j + 1)) (Equiv.swap (j + 1) p k)
        rw [sj, sj1, mj, mj1, ta i h1 h2, tb i h1 h2]
        have q1 : q - 1 ≠ 0 := nq
        have hq' : q * (C p j * cjH 𝕜 herm (C p j)) = C p p * C j j := by rw [hq]; field_simp
        obtain rfl | rfl : k = j ∨ k = j + 1 := by omega
        · rw [sj]
          field_simp
          linear_combination (C (Equiv.swap (k + 1) p i) k) * hq'
        · rw [sj1, sym p j (by omega) (by omega) (by omega) (by omega)]
          field_simp
          linear_combination (C (Equiv.swap (j + 1) p i) p) * hq'
      · replace h1 : c < 2 := h1
        rw [zin (j + c) (by omega)] at h2
        simp at h2
    · rw [twoA_up hrc, u3 r c hrc]; exact up r c hrc
    · refine ⟨rfl, rfl, by show j + 2 ≤ n; omega, p1, p2, rfl, fun i hi => ?_, fun h => by simp at h, fun _ => ⟨if_pos rfl, ?_⟩, .inl ⟨rfl, rfl⟩⟩
      · replace hi : i < j ∨ j + 2 ≤ i := hi
        show (if i = j then _ else if i = j + 1 then _ else _) = _
        rw [if_neg (by omega), if_neg (by omega)]
      · show (if j + 1 = j then _ else if j + 1 = j + 1 then _ else _) = _
        rw [if_neg (by omega), if_pos rfl]

end TLA
