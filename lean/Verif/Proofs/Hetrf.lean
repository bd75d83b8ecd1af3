import Verif.Proofs.HetPanel
import Verif.Proofs.Embed
set_option linter.unusedTactic false
set_option linter.unusedVariables false
set_option linter.unusedSimpArgs false
set_option linter.unreachableTactic false
set_option linter.unusedSectionVars false

/-! # hetrf: the loop over the panels -/

namespace TLA
open Finset Matrix
variable {L 𝕜 : Type} [DecidableEq L] [RCLike 𝕜] [DecidableEq 𝕜]
variable {isReal : Bool} {isinf : ℝ → Bool} {safeMin safeMax : ℝ}
variable {A W : MatV L} {n nb : Nat} {herm : Bool} {a w : Nat → Nat → 𝕜} {ν : Store L 𝕜}

/-- A block of a panel in the whole matrix. -/
def Blk.sh (j : Nat) (b : Blk) : Blk := ⟨b.k + j, b.two, b.p + j⟩

theorem Blk.sh_sz (j : Nat) (b : Blk) : (b.sh j).sz = b.sz := rfl
theorem Blk.sh_s (j : Nat) (b : Blk) : (b.sh j).s .Lower = b.s .Lower + j := by
  unfold Blk.s Blk.sh; simp only; split_ifs <;> omega

theorem swap_sh (s p j i : Nat) (hi : j ≤ i) : Equiv.swap (s + j) (p + j) i = Equiv.swap s p (i - j) + j := by
  rw [Equiv.swap_apply_def, Equiv.swap_apply_def]
  split_ifs <;> omega

theorem emb_ldlP {j : Nat} (hj : j ≤ n) (b : Blk) (h1 : b.s .Lower < n - j) (h2 : b.p < n - j) :
    emb n j (ldlP (𝕜 := 𝕜) .Lower (n - j) b) = ldlP .Lower n (b.sh j) := by
  unfold emb ldlP
  refine mat_ext_iff.2 fun r c hr hc => ?_
  rw [Blk.sh_s]
  show _ = if Equiv.swap (b.s .Lower + j) (b.p + j) r = c then (1 : 𝕜) else 0
  by_cases c1 : j ≤ r
  · rw [swap_sh _ _ _ _ c1]
    have hl : Equiv.swap (b.s .Lower) b.p (r - j) < n - j := swapN_lt h1 h2 (by omega)
    by_cases c2 : j ≤ c
    · rw [if_pos (by omega), toF_mat _ (by omega) (by omega)]
      by_cases e : Equiv.swap (b.s .Lower) b.p (r - j) = c - j
      · rw [if_pos e, if_pos (by omega)]
      · rw [if_neg e, if_neg (by omega)]
    · rw [if_neg (by omega), if_neg (by omega), if_neg (by omega)]
  · rw [if_neg (by omega), swapN_id (m := j) (by omega) (by omega) (by omega)]

theorem emb_ldlL {j : Nat} (hj : j ≤ n) (b : Blk) {x y : Nat → Nat → 𝕜} (e : ∀ r c, j ≤ r → j ≤ c → r < n → c < n → x r c = y (r - j) (c - j)) :
    emb n j (ldlL (𝕜 := 𝕜) .Lower (n - j) y b) = ldlL .Lower n x (b.sh j) := by
  unfold emb ldlL
  refine mat_ext_iff.2 fun r c hr hc => ?_
  rw [Blk.sh_sz]
  simp only [if_true, Blk.sh]
  by_cases c1 : j ≤ r ∧ j ≤ c
  · rw [if_pos (by omega), toF_mat _ (by omega) (by omega)]
    by_cases e1 : r = c
    · rw [if_pos (by omega), if_pos e1]
    · rw [if_neg (by omega), if_neg e1]
      by_cases e2 : (b.k + j ≤ c ∧ c < b.k + j + b.sz) ∧ b.k + j + b.sz ≤ r
      · rw [if_pos e2, if_pos (by omega), e r c c1.1 c1.2 hr hc]
      · rw [if_neg e2, if_neg (by omega)]
  · rw [if_neg (by omega)]
    by_cases e1 : r = c
    · rw [if_pos e1, if_pos e1]
    · rw [if_neg e1, if_neg e1, if_neg (by omega)]

theorem emb_ldlM {j : Nat} (hj : j ≤ n) {bl : List Blk} {s : Nat} (hb : BlksIn (n - j) s bl) (hs : s ≤ n - j) {x y : Nat → Nat → 𝕜}
    (e : ∀ r c, j ≤ r → j ≤ c → r < n → c < n → x r c = y (r - j) (c - j)) :
    emb n j (ldlM (𝕜 := 𝕜) .Lower (n - j) y bl) = ldlM .Lower n x (bl.map (Blk.sh j)) := by
  unfold ldlM
  rw [emb_list (by omega), List.map_map]
  congr 1
  refine List.map_congr_left fun b hbm => ?_
  have h1 := hb b hbm
  have h2 := b.s_le
  rw [emb_mul (by omega), emb_ldlP hj b (by omega) h1.2.2, emb_ldlL hj b e]
  rfl

/-- The product with an embedded matrix. -/
theorem emb_gF {j : Nat} (hj : j ≤ n) (M : Matrix (Fin (n - j)) (Fin (n - j)) 𝕜) (D X Y : Nat → Nat → 𝕜)
    (e : M * mat (n - j) (n - j) X = mat (n - j) (n - j) Y) :
    emb n j M * mat n n (gF j D fun r c => X (r - j) (c - j)) = mat n n (gF j D fun r c => Y (r - j) (c - j)) := by
  rw [emb_mul_mat (by omega)]
  refine mat_ext_iff.2 fun r c hr hc => ?_
  by_cases c1 : j ≤ r
  · rw [if_pos (by omega)]
    by_cases c2 : j ≤ c
    · have e2 : gF j D (fun r c => Y (r - j) (c - j)) r c = Y (r - j) (c - j) := by unfold gF; rw [if_neg (by omega), if_pos (by omega)]
      rw [e2, ← toF_mat (a := n - j) (b := n - j) Y (by omega) (by omega), ← e, toF_mul _ _ (by omega) (by omega)]
      refine Finset.sum_congr rfl fun t ht => ?_
      have ht := mem_range.1 ht
      rw [toF_mat _ ht (by omega)]
      congr 1
      unfold gF
      rw [if_neg (by omega), if_pos (by omega)]
      beta_reduce
      rw [Nat.add_sub_cancel_left]
    · have e2 : gF j D (fun r c => Y (r - j) (c - j)) r c = 0 := by unfold gF; rw [if_neg (by omega), if_neg (by omega)]
      rw [e2]
      refine Finset.sum_eq_zero fun t ht => ?_
      unfold gF
      rw [if_neg (by omega), if_neg (by omega), mul_zero]
  · rw [if_neg (by omega)]
    unfold gF
    by_cases c2 : j ≤ c
    · rw [if_neg (by omega), if_neg (by omega), if_neg (by omega), if_neg (by omega)]
    · rw [if_pos (by omega), if_pos (by omega)]

theorem adjM_gF {j : Nat} (D X : Nat → Nat → 𝕜) :
    adjM herm (mat n n (gF j D X)) = mat n n (gF j (fun r c => cjH 𝕜 herm (D c r)) fun r c => cjH 𝕜 herm (X c r)) := by
  rw [adjM_mat]
  refine mat_ext_iff.2 fun r c hr hc => ?_
  unfold gF
  by_cases c1 : r < j ∧ c < j
  · rw [if_pos c1, if_pos c1.symm]
  · rw [if_neg c1, if_neg (fun h => c1 h.symm)]
    by_cases c2 : j ≤ r ∧ j ≤ c
    · rw [if_pos c2, if_pos c2.symm]
    · rw [if_neg c2, if_neg (fun h => c2 h.symm), map_zero]

theorem gF_mul_embAdj {j : Nat} (hj : j ≤ n) (M : Matrix (Fin (n - j)) (Fin (n - j)) 𝕜) (D X Y : Nat → Nat → 𝕜)
    (e : mat (n - j) (n - j) X * adjM herm M = mat (n - j) (n - j) Y) :
    mat n n (gF j D fun r c => X (r - j) (c - j)) * adjM herm (emb n j M) = mat n n (gF j D fun r c => Y (r - j) (c - j)) := by
  have h1 : M * mat (n - j) (n - j) (fun r c => cjH 𝕜 herm (X c r)) = mat (n - j) (n - j) fun r c => cjH 𝕜 herm (Y c r) := by
    rw [← adjM_mat, ← adjM_mat, ← e, adjM_mul, adjM_adjM]
  have h2 := emb_gF hj M (fun r c => cjH 𝕜 herm (D c r)) _ _ h1
  have h3 := congrArg (adjM herm) h2
  rw [adjM_mul, adjM_gF, adjM_gF] at h3
  simp only [cjH_cjH] at h3
  exact h3

/-- The pivots of a panel in the whole matrix. -/
def shv (j : Nat) (v : Int) : Int := if 0 ≤ v then v + j else v - j

theorem IsBlks.append {f g : Nat → Int} {bl bp : List Blk} {j s : Nat} (h : IsBlks n f bl j) (hp : IsBlks (n - j) g bp s) (hj : j ≤ n)
    (e : ∀ i, i < s → f (j + i) = shv j (g i)) : IsBlks n f (bl ++ bp.map (Blk.sh j)) (j + s) := by
  induction hp with
  | nil => simpa using h
  | @one bs k p h1 h2 h3 h4 ih =>
    rw [List.map_append, ← List.append_assoc]
    have q := ih fun i hi => e i (by omega)
    have r := IsBlks.one (n := n) (ipiv := f) (p := p + j) q (by omega) (by omega) (by
      rw [e k (by omega), h4]; unfold shv; rw [if_pos (by omega)]; push_cast; rfl)
    have e1 : (⟨j + k, false, p + j⟩ : Blk) = Blk.sh j ⟨k, false, p⟩ := by unfold Blk.sh; rw [Nat.add_comm j k]
    rw [e1] at r
    exact r
  | @two bs k p h1 h2 h3 h4 h5 ih =>
    rw [List.map_append, ← List.append_assoc]
    have q := ih fun i hi => e i (by omega)
    have r := IsBlks.two (n := n) (ipiv := f) (p := p + j) q (by omega) (by omega) (by
      rw [e k (by omega), h4]; unfold shv; rw [if_neg (by omega)]; push_cast; ring) (by
      rw [show j + k + 1 = j + (k + 1) by omega, e (k + 1) (by omega), h5]; unfold shv; rw [if_neg (by omega)]; push_cast; ring)
    have e1 : (⟨j + k, true, p + j⟩ : Blk) = Blk.sh j ⟨k, true, p⟩ := by unfold Blk.sh; rw [Nat.add_comm j k]
    rw [e1] at r
    exact r

/-- The blocks in their order. -/
inductive FBlks (f : Nat → Int) : Nat → Nat → Prop
  | nil {k : Nat} : FBlks f k k
  | one {k e : Nat} : 0 ≤ f k → FBlks f (k + 1) e → FBlks f k e
  | two {k e : Nat} : f k < 0 → f (k + 1) < 0 → FBlks f (k + 2) e → FBlks f k e

theorem FBlks.snoc1 {f : Nat → Int} {k e : Nat} (h : FBlks f k e) (h1 : 0 ≤ f e) : FBlks f k (e + 1) := by
  induction h with
  | nil => exact .one h1 .nil
  | one q _ ih => exact .one q (ih h1)
  | two q1 q2 _ ih => exact .two q1 q2 (ih h1)

theorem FBlks.snoc2 {f : Nat → Int} {k e : Nat} (h : FBlks f k e) (h1 : f e < 0) (h2 : f (e + 1) < 0) : FBlks f k (e + 2) := by
  induction h with
  | nil => exact .two h1 h2 .nil
  | one q _ ih => exact .one q (ih h1 h2)
  | two q1 q2 _ ih => exact .two q1 q2 (ih h1 h2)

theorem FBlks.le {f : Nat → Int} {k e : Nat} (h : FBlks f k e) : k ≤ e := by
  induction h <;> omega

theorem FBlks.congr {f g : Nat → Int} {k e : Nat} (h : FBlks f k e) (q : ∀ i, k ≤ i → g i = f i) : FBlks g k e := by
  induction h with
  | nil => exact .nil
  | one h1 _ ih => exact .one (by rw [q _ (le_refl _)]; exact h1) (ih fun i hi => q i (by omega))
  | two h1 h2 _ ih => exact .two (by rw [q _ (le_refl _)]; exact h1) (by rw [q _ (by omega)]; exact h2) (ih fun i hi => q i (by omega))

theorem IsBlks.fwd {f : Nat → Int} {bl : List Blk} {s : Nat} (h : IsBlks n f bl s) : FBlks f 0 s := by
  induction h with
  | nil => exact .nil
  | one _ _ _ h4 ih => exact ih.snoc1 (by rw [h4]; omega)
  | two _ _ _ h4 h5 ih => exact ih.snoc2 (by rw [h4]; omega) (by rw [h5]; omega)

theorem wp_hetShift {j step : Nat} (fuel : Nat) {k : Nat} {q : ZArr} (h : FBlks q.f k step) (hf : step ≤ k + fuel) (hq : step ≤ q.n) :
    wp (hetShift j step fuel k q) ν (fun q' ν' => ν = ν' ∧ q'.n = q.n ∧ (∀ i, i < k ∨ step ≤ i → q'.f i = q.f i) ∧
      ∀ i, k ≤ i → i < step → q'.f i = shv j (q.f i)) := by
  induction fuel generalizing k q with
  | zero =>
    have := h.le
    exact ⟨rfl, rfl, fun _ _ => rfl, fun i h1 h2 => by omega⟩
  | succ fuel ih =>
    unfold hetShift
    cases h with
    | nil =>
      rw [if_neg (by omega)]
      exact ⟨rfl, rfl, fun _ _ => rfl, fun i h1 h2 => by omega⟩
    | one h1 h2 =>
      have := h2.le
      rw [if_pos (by omega)]
      simp only [ZArr.get, ZArr.set, wp_bind, wp_pure]
      rw [if_pos (by omega)]
      simp only [wp_pure]
      rw [if_pos h1, wp_bind, if_pos (by omega)]
      simp only [wp_pure]
      refine wp_conseq (ih (k := k + 1) (q := ⟨q.n, fun i => if i = k then q.f k + j else q.f i⟩) (h2.congr fun i hi => if_neg (by omega)) (by omega) hq) ?_
      rintro q' ν' ⟨e1, e2, e3, e4⟩
      refine ⟨e1, e2, fun i hi => ?_, fun i hi1 hi2 => ?_⟩
      · rw [e3 i (by omega)]; exact if_neg (by omega)
      · by_cases c : i = k
        · subst c
          rw [e3 i (by omega)]
          unfold shv
          rw [if_pos h1]; exact if_pos rfl
        · rw [e4 i (by omega) hi2]
          show shv j (if i = k then _ else _) = _
          rw [if_neg c]
    | two h1 h1' h2 =>
      have := h2.le
      rw [if_pos (by omega)]
      simp only [ZArr.get, ZArr.set, wp_bind, wp_pure]
      rw [if_pos (by omega)]
      simp only [wp_pure]
      rw [if_neg (by omega), wp_bind, if_pos (by omega)]
      simp only [wp_pure, wp_bind]
      rw [if_pos (by omega)]
      simp only [wp_pure]
      rw [if_pos (by omega)]
      simp only [wp_pure]
      refine wp_conseq (ih (k := k + 2) (q := ⟨q.n, fun i => if i = k + 1 then (if k + 1 = k then q.f k - j else q.f (k + 1)) - j else if i = k then q.f k - j else q.f i⟩)
        (h2.congr fun i hi => by show (if _ then _ else _) = _; rw [if_neg (by omega), if_neg (by omega)]) (by omega) hq) ?_
      rintro q' ν' ⟨e1, e2, e3, e4⟩
      refine ⟨e1, e2, fun i hi => ?_, fun i hi1 hi2 => ?_⟩
      · rw [e3 i (by omega)]
        show (if _ then _ else _) = _; rw [if_neg (by omega), if_neg (by omega)]
      · by_cases c : i < k + 2
        · rw [e3 i (by omega)]
          unfold shv
          obtain rfl | rfl : i = k ∨ i = k + 1 := by omega
          · rw [if_neg (show ¬ 0 ≤ q.f i by omega)]
            show (if _ then _ else _) = _; rw [if_neg (by omega), if_pos rfl]
          · rw [if_neg (show ¬ 0 ≤ q.f (k + 1) by omega)]
            show (if _ then _ else _) = _; rw [if_pos rfl, if_neg (by omega)]
        · rw [e4 i (by omega) hi2]
          show shv j (if _ then _ else _) = _
          rw [if_neg (by omega), if_neg (by omega)]

/-- Invariant of the loop over the panels. -/
structure HInv (herm : Bool) (n j : Nat) (S0 a : Nat → Nat → 𝕜) (bl : List Blk) (Z : Nat → Bool) : Prop where
  fac : mat n n S0 = ldlM .Lower n (maskC Z a) bl * mat n n (gF j (ldlD herm .Lower (maskC Z a) bl) (fullF herm .Lower a)) * adjM herm (ldlM .Lower n (maskC Z a) bl)
  blk : BlksIn n j bl
  zin : ∀ c, j ≤ c → Z c = false

set_option maxHeartbeats 1000000 in
theorem HInv.step {j s : Nat} {S0 a a' ap : Nat → Nat → 𝕜} {bl bp : List Blk} {Z Zp : Nat → Bool} (h : HInv herm n j S0 a bl Z) (hj : j ≤ n) (hs : s ≤ n - j)
    (hp : BlksIn (n - j) s bp) (hz : ∀ c, s ≤ c → Zp c = false)
    (hl : ∀ r c, r < n → c < j → a' r c = a r c) (hr : ∀ r c, j ≤ r → j ≤ c → r < n → c < n → a' r c = ap (r - j) (c - j))
    (eq : mat (n - j) (n - j) (fullF herm .Lower fun r c => a (j + r) (j + c)) = ldlM .Lower (n - j) (maskC Zp ap) bp *
      mat (n - j) (n - j) (gF s (ldlD herm .Lower (maskC Zp ap) bp) (fullF herm .Lower ap)) * adjM herm (ldlM .Lower (n - j) (maskC Zp ap) bp)) :
    HInv herm n (j + s) S0 a' (bl ++ bp.map (Blk.sh j)) fun c => if c < j then Z c else Zp (c - j) := by
  obtain ⟨fac, blk, zin⟩ := h
  obtain ⟨Z', hZ'⟩ : ∃ Z', Z' = fun c => if c < j then Z c else Zp (c - j) := ⟨_, rfl⟩
  rw [← hZ']
  have xl : ∀ r c, r < n → c < j → maskC Z' a' r c = maskC Z a r c := fun r c h1 h2 => by
    unfold maskC; rw [hZ']; beta_reduce; rw [if_pos (show c < j from h2), hl r c h1 h2]
  have xr : ∀ r c, j ≤ r → j ≤ c → r < n → c < n → maskC Z' a' r c = maskC Zp ap (r - j) (c - j) := fun r c h1 h2 h3 h4 => by
    unfold maskC; rw [hZ']; beta_reduce; rw [if_neg (show ¬ c < j by omega), hr r c h1 h2 h3 h4]
  have fr : ∀ r c, j ≤ r → j ≤ c → r < n → c < n → fullF herm .Lower a' r c = fullF herm .Lower ap (r - j) (c - j) := by
    intro r c h1 h2 h3 h4
    rcases lt_trichotomy r c with q | q | q
    · rw [fullF_gt _ q, fullF_gt _ (by omega), hr _ _ h2 h1 h4 h3]
    · subst q; rw [fullF_diag, fullF_diag, hr _ _ h1 h1 h3 h3]
    · rw [fullF_lt _ q, fullF_lt _ (by omega), hr _ _ h1 h2 h3 h4]
  have xf : ∀ r c, j ≤ r → j ≤ c → r < n → c < n → fullF herm .Lower (maskC Z' a') r c = fullF herm .Lower (maskC Zp ap) (r - j) (c - j) := by
    intro r c h1 h2 h3 h4
    rcases lt_trichotomy r c with q | q | q
    · rw [fullF_gt _ q, fullF_gt _ (by omega), xr _ _ h2 h1 h4 h3]
    · subst q; rw [fullF_diag, fullF_diag, xr _ _ h1 h1 h3 h3]
    · rw [fullF_lt _ q, fullF_lt _ (by omega), xr _ _ h1 h2 h3 h4]
  refine ⟨?_, ?_, fun c hc => ?_⟩
  · have m1 : ldlM .Lower n (maskC Z' a') (bl ++ bp.map (Blk.sh j)) = ldlM .Lower n (maskC Z a) bl * emb n j (ldlM .Lower (n - j) (maskC Zp ap) bp) := by
      rw [emb_ldlM hj hp hs xr]
      rw [← ldlM_congr blk xl]
      unfold ldlM
      rw [List.map_append, List.prod_append]
    rw [m1, adjM_mul]
    have e1 : mat n n (gF j (ldlD herm .Lower (maskC Z a) bl) (fullF herm .Lower a)) =
        mat n n (gF j (ldlD herm .Lower (maskC Z a) bl) fun r c => (fullF herm .Lower fun r c => a (j + r) (j + c)) (r - j) (c - j)) := by
      refine mat_ext_iff.2 fun r c h1 h2 => ?_
      unfold gF
      by_cases c1 : r < j ∧ c < j
      · rw [if_pos c1, if_pos c1]
      · rw [if_neg c1, if_neg c1]
        by_cases c2 : j ≤ r ∧ j ≤ c
        · rw [if_pos c2, if_pos c2]
          beta_reduce
          rcases lt_trichotomy r c with q | q | q
          · rw [fullF_gt _ q, fullF_gt _ (by omega), show j + (c - j) = c by omega, show j + (r - j) = r by omega]
          · subst q; rw [fullF_diag, fullF_diag, show j + (r - j) = r by omega]
          · rw [fullF_lt _ q, fullF_lt _ (by omega), show j + (c - j) = c by omega, show j + (r - j) = r by omega]
        · rw [if_neg c2, if_neg c2]
    have e2 : mat n n (gF (j + s) (ldlD herm .Lower (maskC Z' a') (bl ++ bp.map (Blk.sh j))) (fullF herm .Lower a')) =
        mat n n (gF j (ldlD herm .Lower (maskC Z a) bl) fun r c => gF s (ldlD herm .Lower (maskC Zp ap) bp) (fullF herm .Lower ap) (r - j) (c - j)) := by
      refine mat_ext_iff.2 fun r c h1 h2 => ?_
      have inb' : ∀ i c, InBlk bl i c → i < j ∧ c < j := by
        rintro i c ⟨b', hb', h1, h2⟩
        have h3 := (blk b' hb').1
        have h4 : b'.sz = 2 := by unfold Blk.sz; rw [if_pos h1]
        omega
      have inp : ∀ i c, InBlk (bp.map (Blk.sh j)) i c ↔ (j ≤ i ∧ j ≤ c ∧ InBlk bp (i - j) (c - j)) := by
        intro i c
        constructor
        · rintro ⟨b', hb', h1, h2⟩
          obtain ⟨b, hb, rfl⟩ := List.mem_map.1 hb'
          simp only [Blk.sh] at h1 h2
          exact ⟨by omega, by omega, b, hb, h1, by omega⟩
        · rintro ⟨h1, h2, b, hb, h3, h4⟩
          exact ⟨b.sh j, List.mem_map.2 ⟨b, hb, rfl⟩, h3, by simp only [Blk.sh]; omega⟩
      have ina : ∀ i c, InBlk (bl ++ bp.map (Blk.sh j)) i c ↔ InBlk bl i c ∨ InBlk (bp.map (Blk.sh j)) i c := by
        intro i c
        unfold InBlk
        simp only [List.mem_append, or_and_right, exists_or]
      have bps : ∀ i c, InBlk bp i c → i < s ∧ c < s := by
        rintro i c ⟨b', hb', h1, h2⟩
        have h3 := (hp b' hb').1
        have h4 : b'.sz = 2 := by unfold Blk.sz; rw [if_pos h1]
        omega
      by_cases c1 : r < j ∧ c < j
      · have g1 : ∀ D X : Nat → Nat → 𝕜, gF (j + s) D X r c = D r c := fun D X => by unfold gF; rw [if_pos (by omega)]
        have g2 : ∀ D X : Nat → Nat → 𝕜, gF j D X r c = D r c := fun D X => by unfold gF; rw [if_pos (by omega)]
        rw [g1, g2, ldlD_eq (.inl rfl), ldlD_eq (.inl rfl)]
        have ef : fullF herm .Lower (maskC Z' a') r c = fullF herm .Lower (maskC Z a) r c := by
          rcases lt_trichotomy r c with q | q | q
          · rw [fullF_gt _ q, fullF_gt _ q, xl _ _ h2 c1.1]
          · subst q; rw [fullF_diag, fullF_diag, xl _ _ h2 c1.1]
          · rw [fullF_lt _ q, fullF_lt _ q, xl _ _ h1 c1.2]
        rw [ef]
        by_cases q : r = c ∨ InBlk bl r c
        · rw [if_pos q, if_pos (q.imp_right fun h => (ina r c).2 (.inl h))]
        · rw [if_neg q, if_neg (fun h => q (h.imp_right fun h => by
            rcases (ina r c).1 h with h | h
            · exact h
            · have := (inp r c).1 h; omega))]
      · by_cases c2 : j ≤ r ∧ j ≤ c
        · have g2 : ∀ D X : Nat → Nat → 𝕜, gF j D X r c = X r c := fun D X => by unfold gF; rw [if_neg (by omega), if_pos c2]
          rw [g2]
          unfold gF
          by_cases c3 : r < j + s ∧ c < j + s
          · rw [if_pos c3, if_pos (by omega), ldlD_eq (.inl rfl), ldlD_eq (.inl rfl), xf r c c2.1 c2.2 h1 h2]
            by_cases q : r - j = c - j ∨ InBlk bp (r - j) (c - j)
            · rw [if_pos q, if_pos]
              rcases q with q | q
              · exact .inl (by omega)
              · exact .inr ((ina r c).2 (.inr ((inp r c).2 ⟨c2.1, c2.2, q⟩)))
            · rw [if_neg q, if_neg]
              rintro (q' | q')
              · exact q (.inl (by omega))
              · rcases (ina r c).1 q' with q' | q'
                · have := inb' _ _ q'; omega
                · exact q (.inr ((inp r c).1 q').2.2)
          · rw [if_neg c3, if_neg (show ¬ (r - j < s ∧ c - j < s) by omega)]
            by_cases c4 : j + s ≤ r ∧ j + s ≤ c
            · rw [if_pos c4, if_pos (by omega), fr r c c2.1 c2.2 h1 h2]
            · rw [if_neg c4, if_neg (by omega)]
        · have g2 : ∀ D X : Nat → Nat → 𝕜, gF j D X r c = 0 := fun D X => by unfold gF; rw [if_neg (by omega), if_neg (by omega)]
          rw [g2]
          unfold gF
          by_cases c3 : r < j + s ∧ c < j + s
          · rw [if_pos c3, ldlD_eq (.inl rfl), if_neg]
            rintro (q | q)
            · omega
            · rcases (ina r c).1 q with q | q
              · have := inb' _ _ q; omega
              · have := (inp r c).1 q; omega
          · rw [if_neg c3, if_neg (by omega)]
    rw [fac, e1, e2]
    obtain ⟨Mp, hMp⟩ : ∃ Mp, Mp = ldlM .Lower (n - j) (maskC Zp ap) bp := ⟨_, rfl⟩
    rw [← hMp] at eq ⊢
    obtain ⟨Yp, hYp⟩ : ∃ Yp : Nat → Nat → 𝕜, Mp * mat (n - j) (n - j) (gF s (ldlD herm .Lower (maskC Zp ap) bp) (fullF herm .Lower ap)) = mat (n - j) (n - j) Yp :=
      ⟨_, (mat_toF _).symm⟩
    have k1 := emb_gF hj Mp (ldlD herm .Lower (maskC Z a) bl) _ _ hYp
    rw [hYp] at eq
    have k2 := gF_mul_embAdj hj Mp (ldlD herm .Lower (maskC Z a) bl) _ _ eq.symm
    rw [← k2, ← k1]
    simp only [Matrix.mul_assoc]
  · intro b hb
    rcases List.mem_append.1 hb with hb | hb
    · have := blk b hb; exact ⟨by omega, this.2⟩
    · obtain ⟨b', hb', rfl⟩ := List.mem_map.1 hb
      have := hp b' hb'
      rw [Blk.sh_sz]
      simp only [Blk.sh]
      omega
  · rw [hZ']; beta_reduce; rw [if_neg (by omega)]; exact hz _ (by omega)

theorem subOwns' {A : MatV L} {a b c d : Nat} (hb : b ≤ A.m) (hd : d ≤ A.n) {l : L} (h : (A.sub a b c d).Owns l) : A.Owns l := by
  obtain ⟨i, k, hi, hk, e⟩ := h
  simp only [MatV.sub] at hi hk e
  exact ⟨a + i, c + k, by omega, by omega, e⟩

theorem entry_off_sub {A : MatV L} {work : VecV L} {μ' ν' : Store L 𝕜} {j : Nat} (hA : A.Inj) (am : A.m = n) (an : A.n = n) (hd : A.DisjV work)
    (h : ∀ l, ¬ (A.sub j n j n).Owns l → ¬ work.Owns l → ν' l = μ' l) {r c : Nat} (hr : r < n) (hc : c < n) (hq : r < j ∨ c < j) :
    entry ν' A r c = entry μ' A r c := by
  refine h _ ?_ (hd r c (by omega) (by omega))
  rintro ⟨i, k, hi, hk, e⟩
  simp only [MatV.sub] at hi hk e
  have := hA r c (j + i) (j + k) (by omega) (by omega) (by omega) (by omega) e.symm
  omega

/-- State of the loop over the panels. -/
structure HSt (herm : Bool) (A : MatV L) (work : VecV L) (n : Nat) (μ : Store L 𝕜) (j info : Nat) (q : ZArr) (bl : List Blk) (Z : Nat → Bool) (ν : Store L 𝕜) : Prop where
  inv : HInv herm n j (fullF herm .Lower (entry μ A)) (entry ν A) bl Z
  blk : IsBlks n q.f bl j
  inf : InfoZ info Z bl
  jn : j ≤ n
  qn : q.n = n
  last : j < n → 0 ≤ q.f (n - 1)
  up : ∀ r c, r < c → c < n → entry ν A r c = entry μ A r c
  fr : ∀ l, ¬ A.Owns l → ¬ work.Owns l → ν l = μ l

set_option maxHeartbeats 1000000 in
theorem wp_hetrfLowLoop {work : VecV L} {μ : Store L 𝕜} (hl : LuLaws 𝕜 isReal safeMin safeMax) {alpha : ℝ} (ha0 : 0 < alpha) (ha : 2 * alpha ^ 2 ≤ 1)
    (am : A.m = n) (an : A.n = n) (hnb : 2 ≤ nb) (hA : A.Inj) (hw : work.Inj) (hd : A.DisjV work) (hsz : n * nb ≤ work.n) (fuel : Nat) {j info : Nat}
    {ipiv : ZArr} {bl : List Blk} {Z : Nat → Bool} (h : HSt herm A work n μ j info ipiv bl Z ν) (hf : n ≤ j + fuel) :
    wp (hetrfLowLoop (hetOps isReal isinf safeMin safeMax) alpha (-1 / 2) herm nb A work fuel j info ipiv) ν (fun r ν' => ∃ j' bl' Z',
      n ≤ j' + 1 ∧ HSt herm A work n μ j' r.1 r.2 bl' Z' ν') := by
  induction fuel generalizing j info ipiv bl Z ν with
  | zero => exact ⟨j, bl, Z, by omega, h⟩
  | succ fuel ih =>
    unfold hetrfLowLoop
    simp only [am]
    by_cases hj : j + 1 < n
    swap
    · rw [if_neg hj]; exact ⟨j, bl, Z, by omega, h⟩
    rw [if_pos hj]
    simp only [wp_bind]
    refine wp_slice (by omega) (by omega) (by omega) (by omega) ?_
    simp only [ZArr.slice, h.qn]
    rw [if_pos (by omega)]
    simp only [wp_pure]
    have hsz' : (n - j) * nb ≤ work.n := le_trans (Nat.mul_le_mul_right _ (by omega)) hsz
    refine wp_conseq (wp_hetf3Low (isinf := isinf) (herm := herm) hl ha0 ha (n := n - j) (A := A.sub j n j n) rfl rfl (by omega) (by omega) (hA.sub (by omega) (by omega)) hw
      (fun r c hr hc => hd _ _ (by simp only [MatV.sub] at hr; omega) (by simp only [MatV.sub] at hc; omega)) hsz' (ipiv := ⟨n - j, fun i => ipiv.f (j + i)⟩) rfl) ?_
    rintro ⟨infoj, q⟩ ν' ⟨bp, Zp, s, ok⟩
    simp only
    have qn : q.n = n - j := ok.qn
    have s1 := ok.s1
    have s2 := ok.s2
    rw [if_neg (by omega)]
    simp only [ZArr.get, wp_bind]
    rw [if_pos (by omega)]
    simp only [wp_pure]
    obtain ⟨step, hstep⟩ : ∃ step, step = if ((n : Int) - j) ≤ q.f (min nb (n - j) - 1) then min nb (n - j) - 1 else min nb (n - j) := ⟨_, rfl⟩
    rw [← hstep]
    have es : step = s := by
      by_cases c : s < min nb (n - j)
      · have := ok.last c
        rw [hstep, if_pos (by rw [this]; omega)]; omega
      · have e : s = min nb (n - j) := by omega
        have : q.f (s - 1) < ((n - j : Nat) : Int) := ok.blk.last_lt (by omega)
        rw [hstep, if_neg (by rw [← e]; omega)]; omega
    rw [es]
    clear hstep es
    refine wp_conseq (wp_hetShift s (j := j) ok.blk.fwd (by omega) (by omega)) ?_
    rintro q' ν2 ⟨rfl, q1, q2, q3⟩
    rw [if_neg (by omega)]
    have ev : ∀ κ : Store L 𝕜, entry κ (A.sub j n j n) = fun r c => entry κ A (j + r) (j + c) := fun _ => rfl
    refine ih (j := j + s) (bl := bl ++ bp.map (Blk.sh j)) (Z := fun c => if c < j then Z c else Zp (c - j)) ?_ (by omega)
    have off := fun r c hr hc hq => entry_off_sub (r := r) (c := c) (j := j) hA am an hd ok.fr hr hc hq
    have pf : ∀ i, i < j → (ipiv.put j q').f i = ipiv.f i := fun i hi => if_neg (by omega)
    have pg : ∀ i, i < n - j → (ipiv.put j q').f (j + i) = q'.f i := fun i hi => by
      show (if _ then _ else _) = _
      rw [if_pos (by omega), Nat.add_sub_cancel_left]
    refine ⟨?_, ?_, ?_, by omega, h.qn, fun hlt => ?_, fun r c hrc hc => ?_, fun l h1 h2 => ?_⟩
    · refine h.inv.step h.jn (by omega) ok.blin ok.zin (ap := entry ν' (A.sub j n j n)) (fun r c hr hc => off r c hr (by omega) (.inr hc))
        (fun r c h1 h2 h3 h4 => ?_) ok.eq
      rw [ev]; beta_reduce; rw [show j + (r - j) = r by omega, show j + (c - j) = c by omega]
    · refine (h.blk.congr pf).append ok.blk h.jn fun i hi => ?_
      rw [pg i (by omega), q3 i (by omega) hi]
    · refine ⟨fun c hc b' hb' ht => ?_, ?_⟩
      · have h4 : ∀ b' : Blk, b'.two = true → b'.sz = 2 := fun b' ht => by unfold Blk.sz; rw [if_pos ht]
        rcases List.mem_append.1 hb' with hb' | hb'
        · have h3 := (h.inv.blk b' hb').1
          have := h4 b' ht
          by_cases cc : c < j
          · beta_reduce at hc; rw [if_pos cc] at hc
            exact h.inf.1 c hc b' hb' ht
          · omega
        · obtain ⟨b, hb, rfl⟩ := List.mem_map.1 hb'
          simp only [Blk.sh] at ht ⊢
          by_cases cc : c < j
          · omega
          · beta_reduce at hc; rw [if_neg cc] at hc
            have := ok.inf.1 (c - j) hc b hb ht
            omega
      rcases h.inf.2 with ⟨e, z⟩ | ⟨e, z1, z2⟩
      · rw [if_pos e]
        rcases ok.inf.2 with ⟨e', z'⟩ | ⟨e', z1', z2'⟩
        · have e' : infoj = 0 := e'
          refine .inl ⟨by rw [if_neg (by omega)]; exact e', fun c => ?_⟩
          by_cases cc : c < j
          · beta_reduce; rw [if_pos cc]; exact z c
          · beta_reduce; rw [if_neg cc]; exact z' _
        · have e' : 0 < infoj := e'
          refine .inr ?_
          rw [if_pos e']
          refine ⟨by omega, ?_, fun c hc => ?_⟩
          · beta_reduce; rw [if_neg (by omega), show infoj + j - 1 - j = infoj - 1 by omega]; exact z1'
          · by_cases cc : c < j
            · beta_reduce; rw [if_pos cc]; exact z c
            · beta_reduce; rw [if_neg cc]; exact z2' _ (show c - j < infoj - 1 by omega)
      · rw [if_neg (by omega)]
        have : info - 1 < j := by
          by_contra cc
          have := h.inv.zin (info - 1) (by omega)
          rw [this] at z1; exact absurd z1 (by decide)
        refine .inr ⟨e, by beta_reduce; rw [if_pos this]; exact z1, fun c hc => ?_⟩
        beta_reduce; rw [if_pos (by omega)]; exact z2 c hc
    · have e : n - 1 = j + (n - 1 - j) := by omega
      rw [e, pg _ (by omega), q2 _ (.inr (by omega))]
      rcases ok.rest (n - 1 - j) (by omega) with h1 | h1
      · rw [h1]; show 0 ≤ ipiv.f (j + (n - 1 - j)); rw [← e]; exact h.last (by omega)
      · exact h1
    · rw [← h.up r c hrc hc]
      by_cases cc : r < j
      · exact off r c (by omega) hc (.inl cc)
      · have := ok.up (r - j) (c - j) (by omega) (by omega)
        rw [ev, ev] at this
        simp only [show j + (r - j) = r by omega, show j + (c - j) = c by omega] at this
        exact this
    · rw [← h.fr l h1 h2]
      exact ok.fr l (fun q => h1 (subOwns' (by omega) (by omega) q)) h2

theorem HSt.start {work : VecV L} {μ : Store L 𝕜} {ipiv : ZArr} (hq : ipiv.n = n) (h0 : 0 ≤ ipiv.f (n - 1)) :
    HSt herm A work n μ 0 0 ipiv [] (fun _ => false) μ := by
  refine ⟨⟨?_, ?_, fun _ _ => rfl⟩, .nil, ⟨fun c h => absurd h (by simp), .inl ⟨rfl, fun _ => rfl⟩⟩, by omega, hq, fun _ => h0, fun _ _ _ _ => rfl, fun _ _ _ => rfl⟩
  · unfold ldlM
    simp only [List.map_nil, List.prod_nil, adjM_one, Matrix.one_mul, Matrix.mul_one]
    refine mat_ext_iff.2 fun r c h1 h2 => ?_
    unfold gF
    rw [if_neg (by omega), if_pos (by omega)]
  · intro b hb; exact absurd hb (List.not_mem_nil)

theorem ldlP_last (k : Nat) : ldlP (𝕜 := 𝕜) .Lower n ⟨k, false, k⟩ = 1 := by
  unfold ldlP
  ext i c
  simp only [mat, Matrix.of_apply, Matrix.one_apply]
  have : (⟨k, false, k⟩ : Blk).s .Lower = k := by unfold Blk.s; simp
  rw [this]
  simp [Fin.ext_iff]

theorem ldlL_last (x : Nat → Nat → 𝕜) : ldlL (𝕜 := 𝕜) .Lower n x ⟨n - 1, false, n - 1⟩ = 1 := by
  unfold ldlL
  ext i c
  simp only [mat, Matrix.of_apply, Matrix.one_apply, Fin.ext_iff]
  by_cases h : (i : Nat) = c
  · rw [if_pos h, if_pos h]
  · rw [if_neg h, if_neg h, if_neg]
    simp only [if_true, Blk.sz]
    have := i.2
    rintro ⟨_, h2⟩
    simp at h2
    omega

/-- The factorization computed by hetrf with uplo = Lower. -/
structure LdlOK (herm : Bool) (A : MatV L) (work : VecV L) (n : Nat) (μ : Store L 𝕜) (info : Nat) (q : ZArr) (bl : List Blk) (Z : Nat → Bool) (ν : Store L 𝕜) : Prop where
  fac : mat n n (fullF herm .Lower (entry μ A)) = ldlM .Lower n (maskC Z (entry ν A)) bl * mat n n (ldlD herm .Lower (maskC Z (entry ν A)) bl) *
    adjM herm (ldlM .Lower n (maskC Z (entry ν A)) bl)
  blk : IsBlks n q.f bl n
  inf : InfoZ info Z bl
  zin : ∀ c, n ≤ c → Z c = false
  qn : q.n = n
  up : ∀ r c, r < c → c < n → entry ν A r c = entry μ A r c
  fr : ∀ l, ¬ A.Owns l → ¬ work.Owns l → ν l = μ l

set_option maxHeartbeats 1000000 in
theorem wp_hetrfLow {work : VecV L} {μ : Store L 𝕜} (hl : LuLaws 𝕜 isReal safeMin safeMax) {alpha : ℝ} (ha0 : 0 < alpha) (ha : 2 * alpha ^ 2 ≤ 1)
    (am : A.m = n) (an : A.n = n) (hn : 0 < n) (hnb : 2 ≤ nb) (hA : A.Inj) (hw : work.Inj) (hd : A.DisjV work) (hsz : n * nb ≤ work.n)
    {ipiv : ZArr} (hq : ipiv.n = n) (h0 : 0 ≤ ipiv.f (n - 1)) :
    wp (hetrfLow (hetOps isReal isinf safeMin safeMax) alpha (-1 / 2) herm nb A ipiv work) μ (fun r ν' => ∃ bl' Z',
      LdlOK herm A work n μ r.1 r.2 bl' Z' ν') := by
  unfold hetrfLow
  simp only [wp_bind, wp_check, am, an, decide_true, if_true]
  rw [if_neg (by omega)]
  simp only [wp_bind]
  refine wp_conseq (wp_hetrfLowLoop (isinf := isinf) hl ha0 ha am an hnb hA hw hd hsz n (HSt.start hq h0) (by omega)) ?_
  rintro ⟨info, q⟩ ν' ⟨j, bl, Z, hj, h⟩
  simp only [ZArr.get, ZArr.set]
  have qn := h.qn
  simp only at qn
  rw [if_pos (by omega)]
  simp only [wp_pure]
  have hjn := h.jn
  by_cases c : j = n
  · subst c
    have fin : ∀ q', q'.n = j → (∀ i, i < j → q'.f i = q.f i) → LdlOK herm A work j μ info q' bl Z ν' := fun q' e1 e2 => by
      refine ⟨?_, h.blk.congr e2, h.inf, h.inv.zin, e1, h.up, h.fr⟩
      rw [h.inv.fac]
      congr 2
      refine mat_ext_iff.2 fun r c h1 h2 => ?_
      unfold gF
      rw [if_pos ⟨h1, h2⟩]
    by_cases v : 0 ≤ q.f (j - 1)
    · rw [if_pos v, if_pos (by omega)]
      simp only [wp_pure]
      refine ⟨bl, Z, fin _ qn fun i hi => ?_⟩
      show (if _ then _ else _) = _
      by_cases e : i = j - 1
      · rw [if_pos e, e]
        have hb : IsBlks j q.f bl j := h.blk
        cases hb with
        | nil => omega
        | one _ h2 h3 h4 => rw [Nat.add_sub_cancel, h4]; omega
        | two _ h2 h3 h4 h5 => rw [show ∀ k, k + 2 - 1 = k + 1 from fun k => rfl, h5] at v; omega
      · rw [if_neg e]
    · rw [if_neg v]
      exact ⟨bl, Z, fin _ qn fun _ _ => rfl⟩
  · have ej : j = n - 1 := by omega
    subst ej
    rw [if_pos (h.last (by omega)), if_pos (by omega)]
    simp only [wp_pure]
    refine ⟨bl ++ [⟨n - 1, false, n - 1⟩], Z, ?_, ?_, ?_, fun c hc => h.inv.zin c (by omega), qn, h.up, h.fr⟩
    · have e1 : ldlM .Lower n (maskC Z (entry ν' A)) (bl ++ [⟨n - 1, false, n - 1⟩]) = ldlM .Lower n (maskC Z (entry ν' A)) bl := by
        unfold ldlM
        rw [List.map_append, List.prod_append]
        simp only [List.map_cons, List.map_nil, List.prod_cons, List.prod_nil, ldlP_last, ldlL_last, mul_one]
      rw [e1, h.inv.fac]
      congr 2
      refine mat_ext_iff.2 fun r c h1 h2 => ?_
      have inb' : ∀ i c, InBlk bl i c → i < n - 1 ∧ c < n - 1 := by
        rintro i c ⟨b', hb', h1, h2⟩
        have h3 := (h.inv.blk b' hb').1
        have h4 : b'.sz = 2 := by unfold Blk.sz; rw [if_pos h1]
        omega
      have ina : InBlk (bl ++ [⟨n - 1, false, n - 1⟩]) r c ↔ InBlk bl r c := by
        unfold InBlk
        simp only [List.mem_append, List.mem_singleton, or_and_right, exists_or]
        constructor
        · rintro (h | ⟨b, rfl, h, _⟩)
          · exact h
          · exact absurd h (by simp)
        · exact .inl
      unfold gF
      rw [ldlD_eq (.inl rfl), ldlD_eq (.inl rfl)]
      by_cases c1 : r < n - 1 ∧ c < n - 1
      · rw [if_pos c1]
        by_cases q : r = c ∨ InBlk bl r c
        · rw [if_pos q, if_pos (q.imp_right ina.2)]
        · rw [if_neg q, if_neg (fun h => q (h.imp_right ina.1))]
      · rw [if_neg c1]
        by_cases c2 : n - 1 ≤ r ∧ n - 1 ≤ c
        · obtain rfl : r = c := by omega
          rw [if_pos c2, if_pos (.inl rfl), fullF_diag, fullF_diag]
          unfold maskC
          rw [h.inv.zin r c2.1]
          simp
        · rw [if_neg c2, if_neg]
          rintro (q | q)
          · omega
          · have := inb' _ _ (ina.1 q); omega
    · have hb : IsBlks n q.f bl (n - 1) := h.blk
      have := IsBlks.one (n := n) (ipiv := fun k => if k = n - 1 then ((n - 1 : Nat) : Int) else q.f k) (p := n - 1)
        (hb.congr fun i hi => if_neg (by omega)) (le_refl _) (by omega) (if_pos rfl)
      rw [show n - 1 + 1 = n by omega] at this
      exact this
    · refine ⟨fun c hc b' hb' ht => ?_, h.inf.2⟩
      rcases List.mem_append.1 hb' with hb' | hb'
      · exact h.inf.1 c hc b' hb' ht
      · obtain rfl := List.mem_singleton.1 hb'
        simp at ht

end TLA
