import Verif.Proofs.HetPiv
set_option linter.unusedTactic false
set_option linter.unusedVariables false
set_option linter.unusedSimpArgs false
set_option linter.unreachableTactic false
set_option linter.unusedSectionVars false

/-! # hetf3: interchanges and elimination -/

namespace TLA
open Finset
variable {L 𝕜 : Type} [DecidableEq L] [RCLike 𝕜] [DecidableEq 𝕜]
variable {isReal : Bool} {isinf : ℝ → Bool} {safeMin safeMax : ℝ}
variable {A W : MatV L} {n nb : Nat} {herm : Bool} {a w : Nat → Nat → 𝕜} {ν : Store L 𝕜}

theorem wp_conjIf_F (hz : HSz A W n nb) {d : Vd Bool} (hd : d.ok (hB A W)) {f : Bool → Nat → Nat → 𝕜} (hf : LS (hB A W) f ν) :
    wp (conjIf herm (d.vec (hB A W))) ν (fun _ ν' => LS (hB A W) (updV f d fun x => cjH 𝕜 herm (d.at f x)) ν' ∧ Fr (hB A W) ν ν') := by
  unfold conjIf
  cases herm
  · refine ⟨hf.congr fun k r c _ _ => ?_, Fr.refl⟩
    unfold updV
    split_ifs with h
    · obtain ⟨rfl, h⟩ := h
      obtain ⟨x, hx, rfl, rfl⟩ := Vd.has_iff.1 h
      rw [Vd.idx_at]; rfl
    · rfl
  · exact wp_conj_F hz.fam hd hf

macro "fin_ite" : tactic => `(tactic| (split_ifs <;> first | rfl | (exfalso; omega) | (congr <;> omega) |
  (refine Eq.symm ((if_neg (by omega)).trans ((if_neg (by omega)).trans ?_)); congr <;> omega) |
  (refine Eq.symm ((if_neg (by omega)).trans ((if_neg (by omega)).trans ((if_neg (by omega)).trans ?_))); congr <;> omega)))

/-- The triangle after the interchange. -/
noncomputable def swA (herm : Bool) (n j s p : Nat) (a : Nat → Nat → 𝕜) : Nat → Nat → 𝕜 := fun r c =>
  if c < j then a (Equiv.swap s p r) c else
  if c = p ∧ p < r ∧ r < n then a r s else if r = p ∧ s + 1 ≤ c ∧ c < p then cjH 𝕜 herm (a c s) else if r = p ∧ c = p then a s s else a r c

set_option maxHeartbeats 1000000 in
theorem wp_hetLowSwap (hz : HSz A W n nb) {j s p : Nat} (hjs : j ≤ s) (hsb : s + 1 ≤ nb) (hp : s < p) (hpn : p < n) (hf : LS (hB A W) (pr a w) ν) :
    wp (hetLowSwap herm A W n j s p) ν (fun _ ν' => LS (hB A W) (pr (swA herm n j s p a) (fun r c => if c < s + 1 then w (Equiv.swap s p r) c else w r c)) ν' ∧
      Fr (hB A W) ν ν') := by
  have am := hz.am; have an := hz.an; have wm := hz.wm; have wn := hz.wn
  unfold hetLowSwap
  rw [if_pos (by omega)]
  simp only [wp_bind]
  rw [wp_get]
  refine ⟨⟨by omega, by omega⟩, ?_⟩
  rw [wp_set]
  refine ⟨⟨by omega, by omega⟩, ?_⟩
  rw [hf.rdA hz (by omega) (by omega)]
  have h1 := LS.set hz.fam (k := true) (r := p) (c := p) hf (by show p < A.m; omega) (by show p < A.n; omega) (a s s)
  refine wp_sliceCol (by omega) (by omega) (by omega) ?_
  refine wp_sliceRow (by omega) (by omega) (by omega) ?_
  refine wp_conseq (wp_copy_F hz.fam (d := col true s (s + 1) p) (e := row true p (s + 1) p) (by show s < A.n ∧ p ≤ A.m; omega) (by show p < A.m ∧ p ≤ A.n; omega) rfl
    (fun x y hx hy _ h _ => by simp only [Vd.r] at h hx; omega) h1.1) ?_
  rintro _ ν2 ⟨h2, g2⟩
  refine wp_sliceRow (by omega) (by omega) (by omega) ?_
  refine wp_conseq (wp_conjIf_F hz (d := row true p (s + 1) p) (by show p < A.m ∧ p ≤ A.n; omega) h2) ?_
  rintro _ ν3 ⟨h3, g3⟩
  have h3 := h3.congr (g := pr (fun r c => if r = p ∧ s + 1 ≤ c ∧ c < p then cjH 𝕜 herm (a c s) else if r = p ∧ c = p then a s s else a r c) w) (by
    intro k r c _ _
    cases k
    · vds
    · vds
      by_cases q : r = p ∧ s + 1 ≤ c ∧ c < p
      · rw [if_pos q, if_pos q, if_pos (by omega), if_neg (by omega)]
        rw [show s + 1 + (s + 1 + (c - (s + 1)) - (s + 1)) = c by omega]
      · rw [if_neg q, if_neg q, if_neg q])
  have hcp : wp (if p + 1 < n then do
      let x ← A.sliceCol (p + 1) n s
      let y ← A.sliceCol (p + 1) n p
      copy x y
    else pure () : M L 𝕜 Unit) ν3 (fun _ ν' => LS (hB A W) (pr (fun r c => if c = p ∧ p < r ∧ r < n then a r s else
        if r = p ∧ s + 1 ≤ c ∧ c < p then cjH 𝕜 herm (a c s) else if r = p ∧ c = p then a s s else a r c) w) ν' ∧ Fr (hB A W) ν3 ν') := by
    by_cases q : p + 1 < n
    · rw [if_pos q]
      simp only [wp_bind]
      refine wp_sliceCol (by omega) (by omega) (by omega) ?_
      refine wp_sliceCol (by omega) (by omega) (by omega) ?_
      refine wp_conseq (wp_copy_F hz.fam (d := col true s (p + 1) n) (e := col true p (p + 1) n) (by show s < A.n ∧ n ≤ A.m; omega) (by show p < A.n ∧ n ≤ A.m; omega) rfl
        (fun x y hx hy _ _ h => by simp only [Vd.c] at h hx; omega) h3) ?_
      rintro _ ν4 ⟨h4, g4⟩
      refine ⟨h4.congr fun k r c _ _ => ?_, g4⟩
      cases k
      · vds
      · vds
        fin_ite
    · rw [if_neg q]
      refine ⟨h3.congr fun k r c _ _ => ?_, Fr.refl⟩
      cases k
      · vds
      · vds
        rw [if_neg (by omega)]
  refine wp_conseq hcp ?_
  rintro _ ν4 ⟨h4, g4⟩
  have hsw : wp (if 0 < j then do
      let x ← A.sliceRow p 0 j
      let y ← A.sliceRow s 0 j
      swap x y
    else pure () : M L 𝕜 Unit) ν4 (fun _ ν' => LS (hB A W) (pr (swA herm n j s p a) w) ν' ∧ Fr (hB A W) ν4 ν') := by
    by_cases q : 0 < j
    · rw [if_pos q]
      simp only [wp_bind]
      refine wp_sliceRow (by omega) (by omega) (by omega) ?_
      refine wp_sliceRow (by omega) (by omega) (by omega) ?_
      refine wp_conseq (wp_swap_F hz.fam (d := row true p 0 j) (e := row true s 0 j) (by show p < A.m ∧ j ≤ A.n; omega) (by show s < A.m ∧ j ≤ A.n; omega) rfl
        (fun x y hx hy _ h _ => by simp only [Vd.r] at h hx; omega) h4) ?_
      rintro _ ν5 ⟨h5, g5⟩
      refine ⟨h5.congr fun k r c _ _ => ?_, g5⟩
      cases k
      · vds
      · unfold swA
        vds
        rw [Equiv.swap_apply_def]
        fin_ite
    · rw [if_neg q]
      refine ⟨h4.congr fun k r c _ _ => ?_, Fr.refl⟩
      cases k
      · vds
      · unfold swA
        vds
        rw [if_neg (by omega)]
  refine wp_conseq hsw ?_
  rintro _ ν5 ⟨h5, g5⟩
  refine wp_sliceRow (by omega) (by omega) (by omega) ?_
  refine wp_sliceRow (by omega) (by omega) (by omega) ?_
  refine wp_conseq (wp_swap_F hz.fam (d := row false p 0 (s + 1)) (e := row false s 0 (s + 1)) (by show p < W.m ∧ s + 1 ≤ W.n; omega) (by show s < W.m ∧ s + 1 ≤ W.n; omega) rfl
    (fun x y hx hy _ h _ => by simp only [Vd.r] at h hx; omega) h5) ?_
  rintro _ ν6 ⟨h6, g6⟩
  refine ⟨h6.congr fun k r c _ _ => ?_, ((((h1.2.trans g2).trans g3).trans g4).trans g5).trans g6⟩
  cases k
  · vds
    rw [Equiv.swap_apply_def]
    fin_ite
  · vds

theorem swA_left {j s p : Nat} {r c : Nat} (hc : c < j) : swA herm n j s p a r c = a (Equiv.swap s p r) c := by
  unfold swA; rw [if_pos hc]

theorem swA_full {j s p : Nat} (hj : j ≤ s) (hp : s < p) (hpn : p < n) {i k : Nat} (hi : s < i) (hk : s < k) (hin : i < n) (hkn : k < n) :
    fullF herm .Lower (swA herm n j s p a) i k = fullF herm .Lower a (Equiv.swap s p i) (Equiv.swap s p k) := by
  have key : ∀ i k, s < i → s < k → i < n → k < n → k ≤ i → fullF herm .Lower (swA herm n j s p a) i k = fullF herm .Lower a (Equiv.swap s p i) (Equiv.swap s p k) := by
    intro i k hi hk hin hkn hki
    have si : Equiv.swap s p i = if i = p then s else i := by
      rw [Equiv.swap_apply_def, if_neg (by omega)]
    have sk : Equiv.swap s p k = if k = p then s else k := by
      rw [Equiv.swap_apply_def, if_neg (by omega)]
    rw [si, sk]
    by_cases e : i = k
    · subst e
      rw [fullF_diag, fullF_diag]
      have : swA herm n j s p a i i = a (if i = p then s else i) (if i = p then s else i) := by
        unfold swA
        rw [if_neg (by omega), if_neg (by omega), if_neg (by omega)]
        by_cases e1 : i = p
        · rw [if_pos ⟨e1, e1⟩, if_pos e1]
        · rw [if_neg (fun h => e1 h.1), if_neg e1]
      rw [this]
    · rw [fullF_lt _ (by omega)]
      unfold swA
      rw [if_neg (by omega)]
      by_cases e1 : i = p
      · rw [if_neg (by omega), if_pos (by omega), if_pos e1, if_neg (by omega), fullF_gt _ (by omega)]
      · rw [if_neg e1]
        by_cases e2 : k = p
        · rw [if_pos (by omega), if_pos e2, fullF_lt _ (by omega)]
        · rw [if_neg (by omega), if_neg (by omega), if_neg (by omega), if_neg e2, fullF_lt _ (by omega)]
  rcases Nat.le_total k i with h | h
  · exact key i k hi hk hin hkn h
  · rw [fullF_cj (.inl rfl) _ k i, fullF_cj (.inl rfl) a _ (Equiv.swap s p i), key k i hk hi hkn hin h]

theorem rscl_hetOps (alpha : 𝕜) (x : VecV L) : rscl (hetOps (𝕜 := 𝕜) isReal isinf safeMin safeMax) alpha x = rscl (luOps isReal isinf safeMin safeMax) alpha x := rfl

set_option maxHeartbeats 1000000 in
theorem wp_hetLowOne (hz : HSz A W n nb) (hl : LuLaws 𝕜 isReal safeMin safeMax) {j : Nat} (hjb : j < nb) (hjn : j + 1 < n) (hf : LS (hB A W) (pr a w) ν)
    (h0 : reIf herm (w j j) ≠ 0) :
    wp (hetLowOne (hetOps isReal isinf safeMin safeMax) herm A W n j) ν (fun _ ν' => LS (hB A W) (pr (fun r c => if c = j ∧ j ≤ r then
      (if r = j then w j j else w r j / reIf herm (w j j)) else a r c) w) ν' ∧ Fr (hB A W) ν ν') := by
  have am := hz.am; have an := hz.an; have wm := hz.wm; have wn := hz.wn
  unfold hetLowOne
  simp only [wp_bind]
  refine wp_sliceCol (by omega) (by omega) (by omega) ?_
  refine wp_sliceCol (by omega) (by omega) (by omega) ?_
  refine wp_conseq (wp_copy_F hz.fam (d := col false j j n) (e := col true j j n) (by show j < W.n ∧ n ≤ W.m; omega) (by show j < A.n ∧ n ≤ A.m; omega) rfl
    (fun x y hx hy h _ _ => by simp at h) hf) ?_
  rintro _ ν1 ⟨h1, g1⟩
  have h1 := h1.congr (g := pr (fun r c => if c = j ∧ j ≤ r ∧ r < n then w r j else a r c) w) (by
    intro k r c _ _
    cases k
    · vds
    · vds
      split_ifs with h
      · rw [show j + (r - j) = r by omega]
      · rfl)
  rw [if_pos hjn]
  simp only [wp_bind]
  rw [wp_get]
  refine ⟨⟨by omega, by omega⟩, ?_⟩
  rw [h1.rdW hz (by omega) (by omega)]
  refine wp_sliceCol (by omega) (by omega) (by omega) ?_
  rw [rscl_hetOps]
  have dok : (col true j (j + 1) n).ok (hB A W) := by show j < A.n ∧ n ≤ A.m; omega
  refine wp_conseq (wp_rscl_exact hl (Vd.vec_inj hz.fam dok) h0) ?_
  rintro _ ν2 h2
  have h3 := LS.put hz.fam dok h1 h2.frame (g := fun x => w (j + 1 + x) j / reIf herm (w j j)) (fun x hx => by
    replace hx : x < n - (j + 1) := hx
    refine (h2.val x hx).trans ?_
    refine congrArg (· / reIf herm (w j j)) ((Vd.ventry_eq dok h1 hx).trans ?_)
    vds
    rw [if_pos (by omega)])
  refine ⟨h3.1.congr fun k r c hr _ => ?_, g1.trans h3.2⟩
  cases k
  · vds
  · replace hr : r < A.m := hr
    vds
    by_cases q : c = j ∧ j ≤ r
    · rw [if_pos q]
      by_cases q2 : r = j
      · rw [if_pos q2, if_neg (by omega), if_pos (by omega), q2]
      · rw [if_neg q2, if_pos (by omega), show j + 1 + (r - (j + 1)) = r by omega]
    · rw [if_neg q, if_neg (by omega), if_neg (by omega)]

end TLA
