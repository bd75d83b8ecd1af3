import Verif.Proofs.Lu
import Verif.RealScalar

/-! Proofs about getrf_recursive. -/

set_option linter.unusedTactic false
set_option linter.unreachableTactic false
set_option linter.unusedSectionVars false

namespace TLA
open Finset
variable {L 𝕜 : Type} [DecidableEq L] [RCLike 𝕜] [DecidableEq 𝕜]

/-- The scalar operations of getrf in exact arithmetic: no NaN, no Inf.  `isReal` is the
compile-time choice `is_real<T>`; `safeMin`, `safeMax` and the overflow test `isinf` of rscl are
arbitrary. -/
noncomputable def luOps (isReal : Bool) (isinf : ℝ → Bool) (safeMin safeMax : ℝ) : LuOps 𝕜 ℝ where
  isReal := isReal
  isnan _ := false
  isinf _ := false
  absf x := .fin ‖x‖
  absQ x := .fin (‖x‖ / 4)
  minusOne := -1
  abs1 x := |RCLike.re x| + |RCLike.im x|
  reR := RCLike.re
  imR := RCLike.im
  emb r := (r : 𝕜)
  mkc r i := (r : 𝕜) + (i : 𝕜) * RCLike.I
  isinfR := isinf
  safeMin := safeMin
  safeMax := safeMax

/-- `is_real` is only set when the scalars are real; the two constants of rscl are reciprocal. -/
structure LuLaws (𝕜 : Type) [RCLike 𝕜] (isReal : Bool) (safeMin safeMax : ℝ) : Prop where
  real : isReal = true → ∀ z : 𝕜, RCLike.im z = 0
  safe : safeMin * safeMax = 1

variable {isReal : Bool} {isinf : ℝ → Bool} {safeMin safeMax : ℝ}

theorem luOps_iamaxLaws : IamaxLaws (luOps (𝕜 := 𝕜) isReal isinf safeMin safeMax).toIamaxOps
    (fun x => ‖x‖) (fun x => ‖x‖ / 4) (fun _ => False) where
  nan_abs _ h := by simp [luOps] at h
  inf_abs _ _ _ h := h.elim
  fin_abs x _ _ _ := ⟨rfl, lt_of_lt_of_le (by simp [luOps]) (norm_nonneg x)⟩
  quarter_abs _ _ _ := rfl
  real_no_overflow _ _ h := h
  mono _ _ _ _ _ _ _ h := h.elim

theorem wp_iamaxEc_exact {x : VecV L} {μ : Store L 𝕜} (hn : 0 < x.n) :
    wp (iamaxEc (luOps (𝕜 := 𝕜) isReal isinf safeMin safeMax).toIamaxOps x) μ
      (fun r ν => ν = μ ∧ ∃ k, r = some k ∧ k < x.n ∧ ∀ i, i < x.n → ‖ventry μ x i‖ ≤ ‖ventry μ x k‖) := by
  obtain ⟨k, e, hs, hk⟩ := C20_iamax_ec (luOps_iamaxLaws (𝕜 := 𝕜) (isReal := isReal) (isinf := isinf)
    (safeMin := safeMin) (safeMax := safeMax)) x μ
  unfold wp
  rw [e]
  refine ⟨rfl, k, rfl, hk hn, ?_⟩
  cases hs with
  | empty h => omega
  | nan k h => exact absurd h.2.1 (by simp [luOps])
  | inf k _ h => exact absurd h.2.1 (by simp [luOps])
  | overflow k _ h => exact h.2.1.elim
  | finite k _ h => exact fun i hi => h.2.2.1 i hi trivial

theorem wp_rscl_exact (hl : LuLaws 𝕜 isReal safeMin safeMax) {alpha : 𝕜} {x : VecV L} {μ : Store L 𝕜}
    (hx : x.Inj) (ha : alpha ≠ 0) :
    wp (rscl (luOps (𝕜 := 𝕜) isReal isinf safeMin safeMax) alpha x) μ
      (fun _ ν => VState x μ (fun i => ventry μ x i / alpha) ν) := by
  have hre : RCLike.im alpha = 0 → ((RCLike.re alpha : ℝ) : 𝕜) = alpha := fun h => by
    conv_rhs => rw [← RCLike.re_add_im alpha, h]
    simp
  have hreal : RCLike.im alpha = 0 → wp (rsclReal (fun r : ℝ => (r : 𝕜)) safeMin safeMax (RCLike.re alpha) x) μ
      (fun _ ν => VState x μ (fun i => ventry μ x i / alpha) ν) := fun h => by
    have h1 := wp_rsclReal (algebraMap ℝ 𝕜) safeMin safeMax (RCLike.re alpha) hl.safe
      (fun h0 => ha (by rw [← hre h, h0]; simp)) x hx μ
    refine wp_conseq h1 (fun _ ν hν => hν.congr (fun i _ => ?_))
    rw [← hre h]
    simp
  unfold rscl
  by_cases hb : isReal = true
  · rw [if_pos (by exact hb)]
    exact hreal (hl.real hb alpha)
  · rw [if_neg (by exact hb)]
    by_cases hi : RCLike.im alpha = 0
    · unfold rsclComplex
      simp only
      rw [if_pos (by exact hi)]
      exact hreal hi
    · have hI : (RCLike.I : 𝕜) * RCLike.I = -1 := by
        rcases RCLike.I_mul_I (K := 𝕜) with h | h
        · refine absurd ?_ hi
          have := RCLike.I_im alpha
          rw [h] at this
          simpa using this.symm
        · exact h
      obtain ⟨ν, e, h1, h2⟩ := C27_rscl_complex (algebraMap ℝ 𝕜) RCLike.I hI isinf safeMin safeMax hl.safe
        (RCLike.re alpha) (RCLike.im alpha) (Or.inr hi) x hx μ
      have hw : wp (rsclComplex (algebraMap ℝ 𝕜) (fun r i => algebraMap ℝ 𝕜 r + algebraMap ℝ 𝕜 i * RCLike.I)
          isinf safeMin safeMax (RCLike.re alpha) (RCLike.im alpha) x) μ
          (fun _ ν => VState x μ (fun i => ventry μ x i / alpha) ν) := by
        unfold wp
        rw [e]
        refine ⟨fun i hi => ?_, h2⟩
        rw [show ν (x.cell i) = ventry ν x i from rfl, h1 i hi]
        congr 1
        exact RCLike.re_add_im alpha
      exact hw

theorem wp_getrfCol (hl : LuLaws 𝕜 isReal safeMin safeMax) {A : MatV L} {piv : IArr} {μ : Store L 𝕜}
    (hA : A.Inj) (hm : 0 < A.m) (hn : A.n = 1) (hp : 0 < piv.n) :
    wp (getrfCol (luOps (𝕜 := 𝕜) isReal isinf safeMin safeMax) A piv) μ
      (fun r ν => LuPost A (fun a => ‖a‖ ≤ 1) piv μ r ν) := by
  have hk : min A.m A.n = 1 := by omega
  unfold getrfCol
  simp only [wp_bind]
  refine wp_sliceCol (Nat.zero_le _) (le_refl _) (by omega) ?_
  refine wp_conseq (wp_iamaxEc_exact (by simpa [MatV.colv] using hm)) ?_
  rintro _ ν ⟨rfl, p, rfl, hpm, hpmax⟩
  simp only [MatV.colv, ventry, Nat.zero_add, Nat.sub_zero] at hpm hpmax
  simp only [wp_bind]
  refine wp_iset hp ?_
  refine wp_getE ⟨hpm, by omega⟩ ?_
  by_cases ha : ν (A.cell p 0) = 0
  · rw [if_pos ha, wp_pure]
    refine ⟨.refl, rfl, fun j hj => ?_, fun h => by simp at h, fun j hj => ?_⟩
    · dsimp only
      rw [if_neg (by omega)]
    · obtain rfl : j = 0 := by simpa using hj
      refine ⟨by omega, fun _ _ c hc => by omega, fun _ => 0, fun i hi => ?_⟩
      simp only [Finset.range_zero, Finset.sum_empty]
      have := hpmax i hi
      rw [ha, norm_zero] at this
      exact norm_le_zero_iff.1 this
  rw [if_neg ha]
  have hsw : wp (if p ≠ 0 then do
        let aux ← A.get p 0
        let a0 ← A.get 0 0
        A.set p 0 a0
        A.set 0 0 aux
      else pure () : M L 𝕜 Unit) ν
      (fun _ ν1 => MState A ν (fun i c => entry ν A (Equiv.swap 0 p i) c) ν1) := by
    by_cases e : p = 0
    · rw [if_neg (by simpa using e), wp_pure]
      subst e
      exact MState.init A ν _ (fun i c _ _ => by rw [Equiv.swap_self]; rfl)
    · rw [if_pos e]
      simp only [wp_bind]
      refine wp_getE ⟨hpm, by omega⟩ ?_
      refine wp_getE ⟨hm, by omega⟩ ?_
      rw [wp_set]
      refine ⟨⟨hpm, by omega⟩, ?_⟩
      rw [wp_set]
      refine ⟨⟨hm, by omega⟩, ?_⟩
      have h0 : MState A ν (entry ν A) ν := MState.init A ν _ (fun _ _ _ _ => rfl)
      have h1 := h0.upd (v := ν (A.cell 0 0)) (G' := fun r c => if r = p ∧ c = 0 then ν (A.cell 0 0) else entry ν A r c)
        hA hpm (by omega : 0 < A.n) (fun _ _ _ _ => rfl)
      refine h1.upd hA hm (by omega) (fun r c _ hc => ?_)
      obtain rfl : c = 0 := by omega
      by_cases hr : r = 0
      · subst hr; rw [if_pos ⟨rfl, rfl⟩, Equiv.swap_apply_left]; rfl
      · rw [if_neg (by tauto)]
        by_cases hr' : r = p
        · subst hr'; rw [if_pos ⟨rfl, rfl⟩, Equiv.swap_apply_right]; rfl
        · rw [if_neg (by tauto), Equiv.swap_apply_of_ne_of_ne hr hr']
  simp only [wp_bind]
  refine wp_conseq hsw ?_
  intro _ ν1 hν1
  refine wp_sliceCol (by omega) (le_refl _) (by omega) ?_
  refine wp_getE ⟨hm, by omega⟩ ?_
  have hd : ν1 (A.cell 0 0) = ν (A.cell p 0) := by
    rw [hν1.val 0 0 hm (by omega), Equiv.swap_apply_left]; rfl
  rw [hd]
  refine wp_conseq (wp_rscl_exact hl (hA.colv (le_refl _) (by omega)) ha) ?_
  intro _ ν2 hν2
  rw [wp_pure]
  have o2 : OnlyV (A.colv 1 A.m 0) ν1 ν2 := hν2.frame
  have hv : ∀ i c, i < A.m → c < A.n → entry ν2 A i c = if 0 < i then
      (if c = 0 then entry ν A (Equiv.swap 0 p i) 0 / entry ν A (Equiv.swap 0 p 0) 0
        else if 0 < c then entry ν A (Equiv.swap 0 p i) c - entry ν A (Equiv.swap 0 p i) 0 /
          entry ν A (Equiv.swap 0 p 0) 0 * entry ν A (Equiv.swap 0 p 0) c else entry ν A (Equiv.swap 0 p i) c)
      else entry ν A (Equiv.swap 0 p i) c := by
    intro i c hi hc
    obtain rfl : c = 0 := by omega
    rw [if_pos rfl]
    by_cases h0 : 0 < i
    · rw [if_pos h0, Equiv.swap_apply_left]
      have h3 := hν2.val (i - 1) (by simp [MatV.colv]; omega)
      simp only [MatV.colv, ventry, show 1 + (i - 1) = i by omega] at h3
      rw [entry, h3, hν1.val i 0 hi hc]; rfl
    · obtain rfl : i = 0 := by omega
      rw [if_neg h0, o2.outCol hA (le_refl _) hc hi hc (by omega)]
      exact hν1.val 0 0 hi hc
  have hsm : ∀ i, i < A.m → Equiv.swap 0 p i < A.m := fun i hi => swap_lt hm hpm hi
  refine ⟨?_, rfl, fun j hj => ?_, fun _ => ⟨fun j hj => ?_, ?_, fun j hj => ?_, fun i j hi hj hji => ?_⟩,
    fun j hj => by simp at hj⟩
  · intro l hl
    rw [o2 l (fun ho => hl (ho.colv (le_refl _) (by omega))), hν1.frame l hl]
  · dsimp only
    rw [if_neg (by omega)]
  · dsimp only
    rw [if_pos (by omega)]
    omega
  · rw [hk]
    refine LuPart.step (F := entry ν A) (F1 := fun i c => entry ν A (Equiv.swap 0 p i) c)
      (LuPart.zero _ _ _ _) hm (by omega) (by simp) (by simpa using hpm) (fun i c _ _ => by simp) ?_ hv
    rw [Equiv.swap_apply_left]; exact ha
  · obtain rfl : j = 0 := by omega
    rw [hv 0 0 hm (by omega), if_neg (by omega), Equiv.swap_apply_left]
    exact ha
  · obtain rfl : j = 0 := by omega
    rw [hv i 0 hi (by omega), if_pos hji, if_pos rfl, Equiv.swap_apply_left, norm_div]
    exact div_le_one_of_le₀ (hpmax _ (hsm i hi)) (norm_nonneg _)

theorem wp_ishift {q : IArr} {t k0 : Nat} {μ : Store L 𝕜} (ht : t ≤ q.n) :
    wp (forUp 0 t q fun i q => do
        let v ← q.get i
        q.set i (v + k0) : M L 𝕜 IArr) μ
      (fun r ν => ν = μ ∧ r.n = q.n ∧ ∀ i, r.f i = if i < t then k0 + q.f i else q.f i) := by
  refine wp_forUp (fun j r ν => ν = μ ∧ r.n = q.n ∧ ∀ i, r.f i = if i < j then k0 + q.f i else q.f i)
    (Nat.zero_le _) ⟨rfl, rfl, fun i => by simp⟩ ?_ (fun _ _ h => h)
  rintro j r ν _ hj ⟨rfl, h1, h2⟩
  simp only [wp_bind]
  refine wp_iget (by omega) (wp_iset (by omega) ⟨rfl, h1, fun i => ?_⟩)
  dsimp only
  by_cases e : i = j
  · subst e
    rw [if_pos rfl, if_pos (by omega), h2, if_neg (by omega)]; omega
  · rw [if_neg e, h2]
    exact if_congr (by omega) rfl rfl

theorem MatV.sub_m (A : MatV L) (a b c d : Nat) : (A.sub a b c d).m = b - a := rfl
theorem MatV.sub_n (A : MatV L) (a b c d : Nat) : (A.sub a b c d).n = d - c := rfl

/-- getrf_recursive, for any sizes. -/
theorem wp_getrfRec (hl : LuLaws 𝕜 isReal safeMin safeMax) : ∀ (N : Nat) {A : MatV L} {piv : IArr}
    {μ : Store L 𝕜}, A.m + A.n ≤ N → A.Inj → min A.m A.n ≤ piv.n →
    wp (getrfRec (luOps (𝕜 := 𝕜) isReal isinf safeMin safeMax) A piv) μ
      (fun r ν => LuPost A (fun a => ‖a‖ ≤ 1) piv μ r ν) := by
  intro N
  induction N with
  | zero =>
    intro A piv μ hN hA hp
    have hm : A.m = 0 := by omega
    rw [getrfRec]
    simp only [wp_bind, wp_check]
    rw [if_pos (by simpa using hp), if_pos (Or.inl hm), wp_pure]
    have hk : min A.m A.n = 0 := by simp [hm]
    refine ⟨.refl, rfl, fun _ _ => rfl, fun _ => ⟨fun j hj => by omega, ?_, fun j hj => by omega,
      fun i j _ hj => by omega⟩, fun j hj => by simp at hj⟩
    rw [hk]
    exact LuPart.zero _ _ _ _
  | succ N ih =>
    intro A piv μ hN hA hp
    rw [getrfRec]
    simp only [wp_bind, wp_check]
    rw [if_pos (by simpa using hp)]
    by_cases hmn : A.m = 0 ∨ A.n = 0
    · rw [if_pos hmn, wp_pure]
      have hk : min A.m A.n = 0 := by rcases hmn with h | h <;> simp [h]
      refine ⟨.refl, rfl, fun _ _ => rfl, fun _ => ⟨fun j hj => by omega, ?_, fun j hj => by omega,
        fun i j _ hj => by omega⟩, fun j hj => by simp at hj⟩
      rw [hk]
      exact LuPart.zero _ _ _ _
    rw [if_neg hmn]
    by_cases hm1 : A.m = 1
    · have hk : min A.m A.n = 1 := by omega
      rw [if_pos hm1]
      simp only [wp_bind]
      refine wp_iset (by omega) ?_
      refine wp_getE ⟨by omega, by omega⟩ ?_
      by_cases ha : μ (A.cell 0 0) = 0
      · rw [if_pos ha, wp_pure]
        refine ⟨.refl, rfl, fun j hj => ?_, fun h => by simp at h, fun j hj => ?_⟩
        · dsimp only
          rw [if_neg (by omega)]
        · obtain rfl : j = 0 := by simpa using hj
          refine ⟨by omega, fun _ _ c hc => by omega, fun _ => 0, fun i hi => ?_⟩
          obtain rfl : i = 0 := by omega
          simpa [entry] using ha
      · rw [if_neg ha, wp_pure]
        refine ⟨.refl, rfl, fun j hj => ?_, fun _ => ⟨fun j hj => ?_, ?_, fun j hj => ?_,
          fun i j hi hj hji => by omega⟩, fun j hj => by simp at hj⟩
        · dsimp only
          rw [if_neg (by omega)]
        · dsimp only
          rw [if_pos (by omega)]; omega
        · rw [hk]
          refine LuPart.step (F := entry μ A) (F1 := entry μ A)
            (LuPart.zero _ _ _ _) (by omega) (by omega) (by simp) (by simp; omega)
            (fun i c _ _ => by simp) ha (fun i c hi _ => by rw [if_neg (by omega)])
        · obtain rfl : j = 0 := by omega
          exact ha
    rw [if_neg hm1]
    by_cases hn1 : A.n = 1
    · rw [if_pos hn1]
      exact wp_getrfCol hl hA (by omega) hn1 (by omega)
    rw [if_neg hn1]
    by_cases hw : A.m < A.n
    · -- wide matrix
      rw [dif_pos hw]
      have hk : min A.m A.n = A.m := by omega
      have hp' : A.m ≤ piv.n := hk ▸ hp
      simp only [wp_bind, hk]
      refine wp_sliceChk (Nat.zero_le _) (le_refl _) (Nat.zero_le _) (by omega) ?_
      refine wp_slice (Nat.zero_le _) (le_refl _) (by omega) (le_refl _) ?_
      refine wp_conseq (ih (A := A.sub 0 A.m 0 A.m) (by simp only [MatV.sub]; omega)
        (hA.sub (le_refl _) (by omega)) (by simpa [MatV.sub] using hp')) ?_
      rintro ⟨info, q⟩ ν1 hP
      obtain ⟨o1, pn, keep, ok, fail⟩ := hP
      simp only [MatV.sub_m, MatV.sub_n, Nat.sub_zero, min_self, sh_entry, sh_zero] at pn keep ok fail
      have c1 : ∀ i c, i < A.m → A.m ≤ c → c < A.n → entry ν1 A i c = entry μ A i c :=
        fun i c hi hc hc' => o1.out hA (le_refl _) (by omega) hi hc' (by omega)
      by_cases hinfo : info = 0
      · rw [if_neg (by simpa using hinfo)]
        subst hinfo
        obtain ⟨hr, hpart, hdiag, hbnd⟩ := ok rfl
        have hss : ∀ i, i < A.m → pivPerm q.f A.m i < A.m := fun i hi =>
          pivPerm_lt (le_refl _) (fun i hi => (hr i hi).2) hi
        simp only [wp_bind]
        refine wp_conseq (wp_rowSwaps (hA.sub (le_refl _) (le_refl _)) (by omega) (by simp [MatV.sub])
          (fun j hj => by simpa [MatV.sub] using (hr j hj).2)) ?_
        intro _ ν2 hν2
        have o2 : Only (A.sub 0 A.m A.m A.n) ν1 ν2 := hν2.frame
        have c2 : ∀ i c, i < A.m → c < A.m → entry ν2 A i c = entry ν1 A i c :=
          fun i c hi hc => o2.out hA (le_refl _) (le_refl _) hi (by omega) (by omega)
        have v2 : ∀ i c, i < A.m → A.m ≤ c → c < A.n → entry ν2 A i c = entry ν1 A (pivPerm q.f A.m i) c := by
          intro i c hi hc hc'
          have := hν2.val i (c - A.m) (by simpa [MatV.sub] using hi) (by simp [MatV.sub]; omega)
          simpa [MatV.sub, entry, show A.m + (c - A.m) = c by omega] using this
        refine wp_conseq (wp_trsmL (B := A.sub 0 A.m A.m A.n) ⟨Or.inl rfl, Or.inr rfl, by decide, rfl, rfl,
          hA.sub (by omega) (by omega), hA.disj_sub (by omega) (by omega) (by omega) (by omega) (by omega)⟩
          (by simp)) ?_
        rintro _ ν3 ⟨o3, e3⟩
        rw [wp_pure]
        have c3 : ∀ i c, i < A.m → c < A.m → entry ν3 A i c = entry ν2 A i c :=
          fun i c hi hc => o3.out hA (le_refl _) (le_refl _) hi (by omega) (by omega)
        simp only [MatV.sub_m, MatV.sub_n, Nat.sub_zero, sh_entry, sh_zero] at e3
        refine ⟨(o1.sub (le_refl _) (by omega)).trans ((o2.sub (le_refl _) (le_refl _)).trans
          (o3.sub (le_refl _) (le_refl _))), pn, by rwa [hk], fun _ => ?_, fun j hj => by simp at hj⟩
        rw [hk]
        refine ⟨hr, ?_, fun j hj => ?_, fun i j hi hj hji => ?_⟩
        · refine LuPart.extend ?_ hw.le ?_ (fun i c h1 h2 => by omega)
          · refine hpart.congr hss (le_refl _) (le_refl _) (fun _ _ _ _ => rfl) (fun i c hi hc => ?_)
            rw [c3 i c hi hc, c2 i c hi hc]
          · intro i c hi _ hc hc'
            have := e3 i (c - A.m) hi (by omega)
            rw [one_mul] at this
            simp only [sh, Nat.zero_add, show A.m + (c - A.m) = c by omega] at this
            rw [v2 i c hi hc hc', c1 _ c (hss i hi) hc hc'] at this
            rw [← this]
            refine Finset.sum_congr rfl (fun l hl => ?_)
            congr 1
            exact lowF_congr (fun _ => c3 i l hi (Finset.mem_range.1 hl))
        · rw [c3 j j hj hj, c2 j j hj hj]; exact hdiag j hj
        · rw [c3 i j hi hj, c2 i j hi hj]; exact hbnd i j hi hj hji
      · rw [if_pos hinfo, wp_pure]
        refine ⟨o1.sub (le_refl _) (by omega), pn, ?_, fun h => absurd h hinfo, fun j hj => ?_⟩
        · rwa [hk]
        · rw [hk]
          exact fail j hj
    -- tall matrix
    rw [dif_neg hw]
    have hk : min A.m A.n = A.n := by omega
    have hp' : A.n ≤ piv.n := hk ▸ hp
    simp only [wp_bind, hk]
    obtain ⟨a, b, ha, hb, hab, hdiv⟩ : ∃ a b, 0 < a ∧ 0 < b ∧ A.n = a + b ∧ A.n / 2 = a :=
      ⟨A.n / 2, A.n - A.n / 2, by omega, by omega, by omega, rfl⟩
    rw [hdiv]
    have hnm : a + b ≤ A.m := by omega
    rw [hab] at hp'
    refine wp_sliceChk (Nat.zero_le _) (le_refl _) (Nat.zero_le _) (by omega) ?_
    refine wp_slice (Nat.zero_le _) (le_refl _) (by omega) (le_refl _) ?_
    refine wp_islice (Nat.zero_le _) (by omega) ?_
    refine wp_conseq (ih (A := A.sub 0 A.m 0 a) (by simp only [MatV.sub]; omega)
      (hA.sub (le_refl _) (by omega)) (by simp only [MatV.sub, IArr.sub]; omega)) ?_
    rintro ⟨info, q⟩ ν1 hP
    obtain ⟨o1, pn, keep, ok, fail⟩ := hP
    have hka : min A.m a = a := by omega
    simp only [MatV.sub_m, MatV.sub_n, Nat.sub_zero, hka, sh_entry, sh_zero, IArr.sub] at pn keep ok fail
    have c1 : ∀ i c, i < A.m → a ≤ c → c < A.n → entry ν1 A i c = entry μ A i c :=
      fun i c hi hc hc' => o1.out hA (le_refl _) (by omega) hi hc' (by omega)
    have hput : ∀ j, (piv.put 0 q).f j = if j < a then q.f j else piv.f j := fun j => by
      simp only [IArr.put, pn]
      exact if_congr (by omega) (by simp) rfl
    by_cases hinfo : info = 0
    swap
    · rw [if_pos hinfo, wp_pure]
      refine ⟨o1.sub (le_refl _) (by omega), rfl, fun j hj => ?_, fun h => absurd h hinfo, fun j hj => ?_⟩
      · rw [hput, if_neg (by omega)]
      · obtain ⟨h1, h2⟩ := fail j hj
        exact ⟨by omega, h2⟩
    rw [if_neg (by simpa using hinfo)]
    subst hinfo
    obtain ⟨hr, hpart, hdiag, hbnd⟩ := ok rfl
    have hss : ∀ i, i < A.m → pivPerm q.f a i < A.m := fun i hi =>
      pivPerm_lt (by omega) (fun i hi => (hr i hi).2) hi
    have hso : ∀ i, i < A.m → ∃ i', i' < A.m ∧ pivPerm q.f a i' = i := fun i hi =>
      ⟨(pivPerm q.f a).symm i, pivPerm_symm_lt (by omega) (fun i hi => (hr i hi).2) hi,
        Equiv.apply_symm_apply _ _⟩
    simp only [wp_bind]
    refine wp_conseq (wp_rowSwaps (hA.sub (le_refl _) (le_refl _)) (by omega) (by simp [MatV.sub]; omega)
      (fun j hj => by simpa [MatV.sub] using (hr j hj).2)) ?_
    intro _ ν2 hν2
    have o2 : Only (A.sub 0 A.m a A.n) ν1 ν2 := hν2.frame
    have c2 : ∀ i c, i < A.m → c < a → entry ν2 A i c = entry ν1 A i c :=
      fun i c hi hc => o2.out hA (le_refl _) (le_refl _) hi (by omega) (by omega)
    have v2 : ∀ i c, i < A.m → a ≤ c → c < A.n → entry ν2 A i c = entry μ A (pivPerm q.f a i) c := by
      intro i c hi hc hc'
      have := hν2.val i (c - a) (by simpa [MatV.sub] using hi) (by simp [MatV.sub]; omega)
      rw [← c1 _ c (hss i hi) hc hc']
      simpa [MatV.sub, entry, show a + (c - a) = c by omega] using this
    refine wp_slice (Nat.zero_le _) (by omega) (Nat.zero_le _) (by omega) ?_
    refine wp_slice (Nat.zero_le _) (by omega) (by omega) (le_refl _) ?_
    refine wp_slice (by omega) (le_refl _) (Nat.zero_le _) (by omega) ?_
    refine wp_sliceChk (by omega) (le_refl _) (by omega) (le_refl _) ?_
    refine wp_islice (by omega) (by simp only [IArr.put]; omega) ?_
    refine wp_conseq (wp_trsmL (B := A.sub 0 a a A.n) ⟨Or.inl rfl, Or.inr rfl, by decide, rfl, rfl,
      hA.sub (by omega) (by omega), hA.disj_sub (by omega) (by omega) (by omega) (by omega) (by omega)⟩
      (by simp)) ?_
    rintro _ ν3 ⟨o3, e3⟩
    simp only [MatV.sub_m, MatV.sub_n, Nat.sub_zero, sh_entry, sh_zero, one_mul] at e3
    have c3 : ∀ i c, i < A.m → c < A.n → (a ≤ i ∨ c < a) → entry ν3 A i c = entry ν2 A i c :=
      fun i c hi hc h => o3.out hA (by omega) (le_refl _) hi hc (by omega)
    refine wp_conseq (wp_gemm_e (k := a) (m := A.m - a) (n := A.n - a) ⟨by decide, by decide,
      by simp [MatV.sub], by simp [MatV.sub], by simp [MatV.sub], by simp [MatV.sub], rfl, rfl,
      hA.sub (by omega) (by omega), hA.disj_sub (by omega) (by omega) (by omega) (by omega) (by omega),
      hA.disj_sub (by omega) (by omega) (by omega) (by omega) (by omega)⟩) ?_
    rintro _ ν4 ⟨o4, e4⟩
    have c4 : ∀ i c, i < A.m → c < A.n → (i < a ∨ c < a) → entry ν4 A i c = entry ν3 A i c :=
      fun i c hi hc h => o4.out hA (le_refl _) (le_refl _) hi hc (by omega)
    simp only [MatV.sub_m, MatV.sub_n, Nat.sub_zero, sh_entry, sh_zero, one_mul, opF, Coef.toVal] at e4
    have hp4 : LuPart A.m A.n a (entry μ A) (pivPerm q.f a) (entry ν4 A) := by
      have ce : ∀ i c, i < A.m → c < a → entry ν4 A i c = entry ν1 A i c := fun i c hi hc => by
        rw [c4 i c hi (by omega) (by omega), c3 i c hi (by omega) (by omega), c2 i c hi hc]
      refine LuPart.extend ?_ (by omega) ?_ ?_
      · exact hpart.congr hss (by omega) (le_refl _) (fun _ _ _ _ => rfl) ce
      · intro i c hi _ hc hc'
        have := e3 i (c - a) hi (by omega)
        simp only [sh, Nat.zero_add, show a + (c - a) = c by omega] at this
        rw [v2 i c (by omega) hc hc'] at this
        rw [← this]
        refine Finset.sum_congr rfl (fun l hl => ?_)
        have hl := Finset.mem_range.1 hl
        rw [c4 l c (by omega) hc' (by omega)]
        congr 1
        refine lowF_congr (fun _ => ?_)
        rw [c4 i l (by omega) (by omega) (by omega), c3 i l (by omega) (by omega) (by omega)]
      · intro i c hi hi' hc hc'
        have := e4 (i - a) (c - a) (by omega) (by omega)
        simp only [sh, Nat.zero_add, show a + (c - a) = c by omega, show a + (i - a) = i by omega] at this
        rw [this, c3 i c hi' hc' (by omega), v2 i c hi' hc hc']
        have hs : ∑ l ∈ range a, entry ν4 A i l * entry ν4 A l c =
            ∑ l ∈ range a, entry ν3 A i l * entry ν3 A l c := by
          refine Finset.sum_congr rfl (fun l hl => ?_)
          have hl := Finset.mem_range.1 hl
          rw [c4 i l hi' (by omega) (by omega), c4 l c (by omega) hc' (by omega)]
        rw [hs]; ring
    have hd4 : ∀ i, i < a → entry ν4 A i i ≠ 0 := fun i hi => by
      rw [c4 i i (by omega) (by omega) (by omega), c3 i i (by omega) (by omega) (by omega),
        c2 i i (by omega) hi]
      exact hdiag i hi
    have hb4 : ∀ i j, i < A.m → j < a → j < i → ‖entry ν4 A i j‖ ≤ 1 := fun i j hi hj hji => by
      rw [c4 i j hi (by omega) (by omega), c3 i j hi (by omega) (by omega), c2 i j hi hj]
      exact hbnd i j hi hj hji
    refine wp_conseq (ih (A := A.sub a A.m a A.n) (by simp only [MatV.sub]; omega)
      (hA.sub (le_refl _) (le_refl _)) (by simp only [MatV.sub, IArr.sub]; omega)) ?_
    rintro ⟨info, q1⟩ ν5 hP
    obtain ⟨o5, pn5, keep5, ok5, fail5⟩ := hP
    have hkb : min (A.m - a) (A.n - a) = b := by omega
    have hnb : A.n - a = b := by omega
    simp only [MatV.sub_m, MatV.sub_n, hkb, sh_entry, IArr.sub] at pn5 keep5 ok5 fail5
    have o15 : Only A μ ν5 := (o1.sub (le_refl _) (by omega)).trans ((o2.sub (le_refl _) (le_refl _)).trans
      ((o3.sub (by omega) (le_refl _)).trans ((o4.sub (le_refl _) (le_refl _)).trans
        (o5.sub (le_refl _) (le_refl _)))))
    by_cases hinfo : info = 0
    swap
    · rw [if_pos hinfo, wp_pure]
      refine ⟨o15, rfl, fun j hj => ?_, fun h => ?_, fun j hj => ?_⟩
      · dsimp only [IArr.put]
        rw [if_neg (by omega)]
        have := hput j
        dsimp only [IArr.put] at this
        rw [this, if_neg (by omega)]
      · dsimp only at h; omega
      · dsimp only at hj
        obtain ⟨j, rfl⟩ : ∃ t, j = a + t := ⟨j - a, by omega⟩
        obtain ⟨h1, h2, h3⟩ := fail5 j (by omega)
        exact ⟨by omega, hp4.indep hss (by omega) (by omega) hd4 h2,
          hp4.dep hso (by omega) hd4 h3⟩
    rw [if_neg (by simpa using hinfo)]
    subst hinfo
    obtain ⟨hr1, hpart1, hdiag1, hbnd1⟩ := ok5 rfl
    have c5 : ∀ i c, i < A.m → c < A.n → (i < a ∨ c < a) → entry ν5 A i c = entry ν4 A i c :=
      fun i c hi hc h => o5.out hA (le_refl _) (le_refl _) hi hc (by omega)
    simp only [wp_bind, hnb]
    refine wp_conseq (wp_rowSwaps (A := A.sub a A.m 0 a) (hA.sub (le_refl _) (by omega)) (by omega)
      (by simp [MatV.sub]; omega) (fun j hj => by simpa [MatV.sub] using (hr1 j hj).2)) ?_
    intro _ ν6 hν6
    have o6 : Only (A.sub a A.m 0 a) ν5 ν6 := hν6.frame
    have c6 : ∀ i c, i < A.m → c < A.n → (i < a ∨ a ≤ c) → entry ν6 A i c = entry ν5 A i c :=
      fun i c hi hc h => o6.out hA (le_refl _) (by omega) hi hc (by omega)
    have hs1 : ∀ i, i < A.m - a → pivPerm q1.f b i < A.m - a := fun i hi =>
      pivPerm_lt (by omega) (fun i hi => (hr1 i hi).2) hi
    have v6 : ∀ i c, i < A.m - a → c < a → entry ν6 A (a + i) c = entry ν4 A (a + pivPerm q1.f b i) c := by
      intro i c hi hc
      have := hν6.val i c (by simpa [MatV.sub] using hi) (by simpa [MatV.sub] using hc)
      rw [← c5 _ c (by have := hs1 i hi; omega) (by omega) (by omega)]
      simpa [MatV.sub, entry] using this
    refine wp_conseq (wp_ishift (by omega)) ?_
    rintro q2 ν7 ⟨rfl, hq2n, hq2⟩
    rw [wp_pure]
    have hF : ∀ j, ((piv.put 0 q).put a q2).f j = if j < a then q.f j else if j < a + b then a + q1.f (j - a)
        else piv.f j := by
      intro j
      have e : ((piv.put 0 q).put a q2).f j = if a ≤ j ∧ j < a + q2.n then q2.f (j - a)
        else (piv.put 0 q).f j := rfl
      rw [e, hput]
      by_cases h1 : j < a
      · rw [if_neg (by omega), if_pos h1, if_pos h1]
      · rw [if_neg h1, if_neg h1]
        by_cases h2 : j < a + b
        · rw [if_pos (by omega), if_pos h2, hq2, if_pos (by omega)]
        · rw [if_neg (by omega), if_neg h2]
    have hFa : pivPerm ((piv.put 0 q).put a q2).f a = pivPerm q.f a :=
      pivPerm_congr (fun j hj => by rw [hF, if_pos hj])
    refine ⟨o15.trans (o6.sub (le_refl _) (by omega)), rfl, fun j hj => ?_,
      fun _ => ⟨fun j hj => ?_, ?_, fun j hj => ?_, fun i j hi hj hji => ?_⟩, fun j hj => by simp at hj⟩
    · dsimp only
      rw [hF, if_neg (by omega), if_neg (by omega)]
    · dsimp only
      rw [hF]
      by_cases h1 : j < a
      · rw [if_pos h1]; exact hr j h1
      · rw [if_neg h1, if_pos (by omega)]
        have := hr1 (j - a) (by omega)
        omega
    · rw [hk, hab]
      refine LuPart.glue (F := entry ν4 A) (p1 := q1.f) ?_ (fun i hi => ?_) (fun i hi => (hr1 i hi).2) hnm
        (by omega) (fun i c hi hc => ?_) v6 ?_
      · rw [hFa, ← hab]; exact hp4
      · dsimp only
        rw [hF, if_neg (by omega), if_pos (by omega), show a + i - a = i by omega]
      · rw [c6 i c (by omega) (by omega) (by omega), c5 i c (by omega) (by omega) (by omega)]
      · rw [show a + b - a = b by omega]
        refine LuPart.congr (F := sh a a (entry ν5 A)) ?_ hs1 (by omega) (le_refl _) (fun _ _ _ _ => rfl)
          (fun i c hi hc => ?_)
        · rw [← hnb]; exact hnb ▸ hpart1
        · exact c6 (a + i) (a + c) (by omega) (by omega) (by omega)
    · by_cases h1 : j < a
      · rw [c6 j j (by omega) (by omega) (by omega), c5 j j (by omega) (by omega) (by omega)]
        exact hd4 j h1
      · rw [c6 j j (by omega) (by omega) (by omega)]
        have := hdiag1 (j - a) (by omega)
        simpa only [sh, show a + (j - a) = j by omega] using this
    · by_cases h1 : j < a
      · by_cases h2 : i < a
        · rw [c6 i j (by omega) (by omega) (by omega), c5 i j (by omega) (by omega) (by omega)]
          exact hb4 i j hi h1 hji
        · obtain ⟨i, rfl⟩ : ∃ t, i = a + t := ⟨i - a, by omega⟩
          rw [v6 i j (by omega) h1]
          exact hb4 _ j (by have := hs1 i (by omega); omega) h1 (by omega)
      · rw [c6 i j (by omega) (by omega) (by omega)]
        have := hbnd1 (i - a) (j - a) (by omega) (by omega) (by omega)
        simpa only [sh, show a + (j - a) = j by omega, show a + (i - a) = i by omega] using this

end TLA
