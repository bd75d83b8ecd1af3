import Verif.Proofs.HetStep
import Verif.Proofs.Larfb
import Verif.Props.Level3
set_option linter.unusedTactic false
set_option linter.unusedVariables false
set_option linter.unusedSimpArgs false
set_option linter.unreachableTactic false
set_option linter.unusedSectionVars false

/-! # hetf3: the panel -/

namespace TLA
open Finset Matrix
variable {L 𝕜 : Type} [DecidableEq L] [RCLike 𝕜] [DecidableEq 𝕜]
variable {isReal : Bool} {isinf : ℝ → Bool} {safeMin safeMax : ℝ}
variable {A W : MatV L} {n nb : Nat} {herm : Bool} {a w : Nat → Nat → 𝕜} {ν : Store L 𝕜}

theorem IsBlks.congr {f g : Nat → Int} {bl : List Blk} {j : Nat} (h : IsBlks n f bl j) (e : ∀ i, i < j → g i = f i) : IsBlks n g bl j := by
  induction h with
  | nil => exact .nil
  | one _ h2 h3 h4 ih => exact .one (ih fun i hi => e i (by omega)) h2 h3 (by rw [e _ (by omega), h4])
  | two _ h2 h3 h4 h5 ih => exact .two (ih fun i hi => e i (by omega)) h2 h3 (by rw [e _ (by omega), h4]) (by rw [e _ (by omega), h5])

/-- The last pivot of a list of blocks is less than `n`. -/
theorem IsBlks.last_lt {f : Nat → Int} {bl : List Blk} {j : Nat} (h : IsBlks n f bl j) (hj : 0 < j) : f (j - 1) < n := by
  cases h with
  | nil => omega
  | one _ h2 h3 h4 => rw [Nat.add_sub_cancel, h4]; omega
  | two _ h2 h3 h4 h5 => rw [show ∀ k, k + 2 - 1 = k + 1 from fun k => rfl, h5]; omega

/-- `info` tells the first zero pivot. -/
def InfoZ (info : Nat) (Z : Nat → Bool) (bl : List Blk) : Prop :=
  (∀ c, Z c = true → ∀ b ∈ bl, b.two = true → c ≠ b.k ∧ c ≠ b.k + 1) ∧ ((info = 0 ∧ ∀ c, Z c = false) ∨ (0 < info ∧ Z (info - 1) = true ∧ ∀ c, c < info - 1 → Z c = false))

theorem wp_hetLowLoop (hz : HSz A W n nb) (hl : LuLaws 𝕜 isReal safeMin safeMax) {alpha : ℝ} (ha0 : 0 < alpha) (ha : 2 * alpha ^ 2 ≤ 1) {jn : Nat}
    (hjb : jn ≤ nb) (hjn : jn ≤ n) {S0 a0 : Nat → Nat → 𝕜} {μ : Store L 𝕜} (fuel : Nat) {s info : Nat} {ipiv : ZArr} (hip : n ≤ ipiv.n) {bl : List Blk}
    {Z : Nat → Bool} (h : PSt herm A W n s S0 a0 μ a w bl Z ν) (hb : IsBlks n ipiv.f bl s) (hi : InfoZ info Z bl) (hs : s ≤ jn) (hf : jn ≤ s + fuel) :
    wp (hetLowLoop (hetOps isReal isinf safeMin safeMax) alpha herm A W n jn fuel s info ipiv) ν (fun r ν' => ∃ a' w' bl' Z',
      PSt herm A W n r.1 S0 a0 μ a' w' bl' Z' ν' ∧ IsBlks n r.2.2.f bl' r.1 ∧ InfoZ r.2.1 Z' bl' ∧ r.1 ≤ jn ∧ jn ≤ r.1 + 1 ∧ r.2.2.n = ipiv.n ∧ s ≤ r.1 ∧ (jn ≤ s + 1 → r.1 = s) ∧ ∀ i, r.1 ≤ i → r.2.2.f i = ipiv.f i) := by
  induction fuel generalizing s info ipiv bl Z a w ν with
  | zero =>
    exact ⟨a, w, bl, Z, h, hb, hi, hs, by show jn ≤ s + 1; omega, rfl, le_refl s, fun _ => rfl, fun _ _ => rfl⟩
  | succ fuel ih =>
    unfold hetLowLoop
    by_cases c : s + 1 < jn
    · rw [if_pos c, wp_bind]
      refine wp_conseq (wp_hetLowStep hz hl ha0 ha hip (by omega) (by omega) h) ?_
      rintro ⟨s', info', ipiv'⟩ ν' ⟨a', w', b, Z', h', r1, r2, r3, r4, r5, r6, r7, r8, r9, r10⟩
      simp only at r2 r6 r7 r8 r9 r10
      have bsz : b.sz = if b.two then 2 else 1 := rfl
      have bs : b.s .Lower = if b.two ∧ Uplo.Lower = .Lower then b.k + 1 else b.k := rfl
      obtain ⟨k, two, p⟩ := b
      simp only at r1 r5 r8 r9
      subst r1
      have hb' : IsBlks n ipiv'.f (bl ++ [⟨k, two, p⟩]) (k + (⟨k, two, p⟩ : Blk).sz) := by
        have hb1 := hb.congr (g := ipiv'.f) fun i hi => r7 i (.inl hi)
        cases two
        · exact .one hb1 r4 r5 (r8 rfl)
        · exact .two hb1 r4 r5 (r9 rfl).1 (r9 rfl).2
      have z2 : (⟨k, two, p⟩ : Blk).sz ≤ 2 ∧ 1 ≤ (⟨k, two, p⟩ : Blk).sz := by rw [bsz]; split_ifs <;> omega
      have hi' : InfoZ info' Z' (bl ++ [⟨k, two, p⟩]) := by
        have zk := h.zin
        obtain ⟨hz1, hi⟩ := hi
        refine ⟨fun c hc b' hb' ht => ?_, ?_⟩
        · rcases List.mem_append.1 hb' with hb' | hb'
          · have h3 := (h.inv.blk b' hb').1
            have h4 : b'.sz = 2 := by unfold Blk.sz; rw [if_pos ht]
            by_cases e : c = k
            · omega
            · refine hz1 c ?_ b' hb' ht
              rcases r10 with ⟨rfl, rfl⟩ | ⟨_, rfl, rfl⟩
              · exact hc
              · simpa [e] using hc
          · obtain rfl := List.mem_singleton.1 hb'
            simp only at ht
            subst ht
            rcases r10 with ⟨rfl, rfl⟩ | ⟨h, _, _⟩
            · by_contra q
              rw [zk c (by simp only at q; omega)] at hc
              simp at hc
            · simp at h
        rcases r10 with ⟨rfl, rfl⟩ | ⟨_, rfl, rfl⟩
        · exact hi
        · rcases hi with ⟨rfl, hZ⟩ | ⟨h1, h2, h3⟩
          · rw [if_pos rfl]
            refine .inr ⟨by omega, if_pos rfl, fun c hc => ?_⟩
            beta_reduce
            rw [if_neg (by omega), hZ]
          · rw [if_neg (by omega)]
            have : info - 1 < k := by
              by_contra q
              rw [zk (info - 1) (by omega)] at h2
              simp at h2
            refine .inr ⟨h1, ?_, fun c hc => ?_⟩
            · beta_reduce; rw [if_neg (by omega), h2]
            · beta_reduce; rw [if_neg (by omega), h3 c hc]
      subst r2
      rw [← r6]
      refine wp_conseq (ih (by omega) h' hb' hi' (by omega) (by omega)) ?_
      rintro r ν2 ⟨a2, w2, bl2, Z2, q1, q2, q3, q4, q5, q6, q8, q9, q7⟩
      refine ⟨a2, w2, bl2, Z2, q1, q2, q3, q4, q5, q6, by omega, fun _ => by omega, fun i hi => ?_⟩
      rw [q7 i hi]
      exact r7 i (.inr (le_trans q8 hi))
    · rw [if_neg c]
      exact ⟨a, w, bl, Z, h, hb, hi, hs, by show jn ≤ s + 1; omega, rfl, le_refl s, fun _ => rfl, fun _ _ => rfl⟩

theorem wp_hetLowUndo (hz : HSz A W n nb) {ipiv : ZArr} {bl : List Blk} {s : Nat} (hb : IsBlks n ipiv.f bl s) (hip : n ≤ ipiv.n) (hsn : s ≤ n)
    (hf : LS (hB A W) (pr a w) ν) :
    wp (hetLowUndo A ipiv s) ν (fun _ ν' => LS (hB A W) (pr (undoF bl a) w) ν' ∧ Fr (hB A W) ν ν') := by
  have am := hz.am; have an := hz.an
  have sw : ∀ {a : Nat → Nat → 𝕜} {ν : Store L 𝕜} (s p k : Nat), s < n → p < n → s ≠ p → k ≤ n → LS (hB A W) (pr a w) ν →
      wp (do let x ← A.sliceRow p 0 k; let y ← A.sliceRow s 0 k; swap x y : M L 𝕜 Unit) ν
        (fun _ ν' => LS (hB A W) (pr (rowSw s p k a) w) ν' ∧ Fr (hB A W) ν ν') := by
    intro a ν s p k h1 h2 h3 h4 hf
    simp only [wp_bind]
    refine wp_sliceRow (by omega) (by omega) (by omega) ?_
    refine wp_sliceRow (by omega) (by omega) (by omega) ?_
    refine wp_conseq (wp_swap_F hz.fam (d := row true p 0 k) (e := row true s 0 k) (by show p < A.m ∧ k ≤ A.n; omega) (by show s < A.m ∧ k ≤ A.n; omega) rfl
      (fun x y hx hy _ h _ => by simp only [Vd.r] at h hx; omega) hf) ?_
    rintro _ ν5 ⟨h5, g5⟩
    refine ⟨h5.congr fun b r c _ _ => ?_, g5⟩
    cases b
    · vds
    · vds
      unfold rowSw
      rw [Equiv.swap_apply_def]
      fin_ite
  have triv : ∀ (s p k : Nat) (a : Nat → Nat → 𝕜), s = p ∨ k = 0 → rowSw s p k a = a := by
    intro s p k a h
    funext i c
    unfold rowSw
    split_ifs
    · rcases h with rfl | h
      · simp
      · omega
    · rfl
  induction hb generalizing a ν with
  | nil => exact ⟨hf, Fr.refl⟩
  | @one bs k p h1 h2 h3 h4 ih =>
    rw [undoF_snoc]
    show wp (hetLowUndo A ipiv (k + 1)) ν (fun _ ν' => LS (hB A W) (pr (undoF bs (rowSw k p k a)) w) ν' ∧ Fr (hB A W) ν ν')
    rcases k with _ | k
    · rw [triv _ _ _ _ (.inr rfl)]
      exact wp_conseq (ih (by omega) hf) fun _ _ h => h
    · unfold hetLowUndo ZArr.get
      rw [if_pos (by omega)]
      simp only [wp_bind, wp_pure]
      rw [if_neg (by omega), wp_bind]
      by_cases c : p = k + 1
      · rw [if_neg (by rw [h4, c]; simp), wp_pure]
        rw [triv _ _ _ _ (.inl c.symm)]
        exact wp_conseq (ih (by omega) hf) fun _ _ h => h
      · rw [if_pos (by rw [h4]; omega), h4]
        refine wp_conseq (sw (k + 1) p (k + 1) (by omega) h3 (by omega) (by omega) hf) ?_
        rintro _ ν1 ⟨h5, g5⟩
        exact wp_conseq (ih (by omega) h5) fun _ _ h => ⟨h.1, g5.trans h.2⟩
  | @two bs k p h1 h2 h3 h4 h5 ih =>
    rw [undoF_snoc]
    show wp (hetLowUndo A ipiv (k + 2)) ν (fun _ ν' => LS (hB A W) (pr (undoF bs (rowSw (k + 1) p k a)) w) ν' ∧ Fr (hB A W) ν ν')
    unfold hetLowUndo ZArr.get
    rw [if_pos (by omega)]
    simp only [wp_bind, wp_pure]
    rw [if_pos (by omega), wp_bind, h5, show -(-(p : Int) - 1) - 1 = (p : Int) by omega]
    by_cases c : p = k + 1 ∨ k = 0
    · rw [if_neg (by omega), wp_pure]
      rw [triv _ _ _ _ (by omega)]
      exact wp_conseq (ih (by omega) hf) fun _ _ h => h
    · rw [if_pos (by omega)]
      refine wp_conseq (sw (k + 1) p k (by omega) h3 (by omega) (by omega) hf) ?_
      rintro _ ν1 ⟨h5, g5⟩
      exact wp_conseq (ih (by omega) h5) fun _ _ h => ⟨h.1, g5.trans h.2⟩

theorem fullF_eq (herm : Bool) (uplo : Uplo) (x : Nat → Nat → 𝕜) : fullF herm uplo x = if herm then hermF uplo x else symF uplo x := rfl

set_option maxHeartbeats 1000000 in
/-- The trailing update. -/
theorem wp_hetTrail (hz : HSz A W n nb) {s : Nat} (hsn : s < n) (hsb : s ≤ nb) (hf : LS (hB A W) (pr a w) ν)
    (hs : ∀ i k, s ≤ i → s ≤ k → i < n → k < n → schurF herm s a w k i = cjH 𝕜 herm (schurF herm s a w i k)) :
    wp (do
      let L21 ← A.slice s n 0 s
      let W21 ← W.slice s n 0 s
      let A22 ← A.slice s n s n
      if herm then her2k .Lower .NoTrans (-1 / 2) L21 W21 (.val 1) A22
      else syr2k .Lower .NoTrans (-1 / 2) L21 W21 (.val 1) A22 : M L 𝕜 Unit) ν (fun _ ν' => ∃ a', LS (hB A W) (pr a' w) ν' ∧ Fr (hB A W) ν ν' ∧
        (∀ r c, c < s ∨ r < c → a' r c = a r c) ∧ ∀ i k, s ≤ i → s ≤ k → i < n → k < n → fullF herm .Lower a' i k = schurF herm s a w i k) := by
  have am := hz.am; have an := hz.an; have wm := hz.wm; have wn := hz.wn
  simp only [wp_bind]
  refine wp_slice (by omega) (by omega) (by omega) (by omega) ?_
  refine wp_slice (by omega) (by omega) (by omega) (by omega) ?_
  refine wp_slice (by omega) (by omega) (by omega) (by omega) ?_
  have hAinj : A.Inj := hz.fam.inj true
  have hWA : W.Disj A := hz.fam.disj false true (by simp)
  have rk : ∀ tr, RankOK tr .Lower .NoTrans (A.sub s n 0 s) (W.sub s n 0 s) (A.sub s n s n) (n - s) s := by
    intro tr
    refine ⟨.inr (.inl rfl), .inl rfl, rfl, Nat.sub_zero s, rfl, rfl, rfl, rfl, ?_, ?_, ?_⟩
    · intro i j i' j' h1 h2 h3 h4 e
      simp only [MatV.sub] at h1 h2 h3 h4 e
      have := hAinj _ _ _ _ (by omega) (by omega) (by omega) (by omega) e
      omega
    · rintro i j h1 h2 ⟨i', j', h3, h4, e⟩
      simp only [MatV.sub] at h1 h2 h3 h4 e
      have := hAinj _ _ _ _ (by omega) (by omega) (by omega) (by omega) e
      omega
    · rintro i j h1 h2 ⟨i', j', h3, h4, e⟩
      simp only [MatV.sub] at h1 h2 h3 h4 e
      exact hWA (s + i) (0 + j) (by omega) (by omega) ⟨s + i', s + j', by omega, by omega, e⟩
  -- both products are the same
  have eA : ∀ i c, i < n - s → c < s → entry ν (A.sub s n 0 s) i c = a (s + i) c := fun i c h1 h2 => by
    show ν (A.cell (s + i) (0 + c)) = _
    rw [hf.rdA hz (by omega) (by omega), Nat.zero_add]
  have eW : ∀ i c, i < n - s → c < s → entry ν (W.sub s n 0 s) i c = w (s + i) c := fun i c h1 h2 => by
    show ν (W.cell (s + i) (0 + c)) = _
    rw [hf.rdW hz (by omega) (by omega), Nat.zero_add]
  have eC : ∀ i c, i < n - s → c < n - s → entry ν (A.sub s n s n) i c = a (s + i) (s + c) := fun i c h1 h2 => hf.rdA hz (by omega) (by omega)
  have eF : ∀ i k, i < n - s → k < n - s → fullF herm .Lower (entry ν (A.sub s n s n)) i k = fullF herm .Lower a (s + i) (s + k) := by
    intro i k h1 h2
    rcases lt_trichotomy i k with q | q | q
    · rw [fullF_gt _ q, fullF_gt _ (by omega), eC _ _ h2 h1]
    · subst q; rw [fullF_diag, fullF_diag, eC _ _ h1 h1]
    · rw [fullF_lt _ q, fullF_lt _ (by omega), eC _ _ h1 h2]
  have prod : ∀ i k, s ≤ i → s ≤ k → i < n → k < n → ∑ c ∈ range s, w i c * cjH 𝕜 herm (a k c) = ∑ c ∈ range s, a i c * cjH 𝕜 herm (w k c) := by
    intro i k h1 h2 h3 h4
    have e1 := hs i k h1 h2 h3 h4
    unfold schurF at e1
    rw [map_sub, ← fullF_cj (.inl rfl) a i k, map_sum] at e1
    have e2 := sub_right_inj.1 e1
    simp only [map_mul, cjH_cjH] at e2
    have e3 := congrArg (cjH 𝕜 herm) e2
    simp only [map_sum, map_mul, cjH_cjH] at e3
    rw [← e3]
    exact Finset.sum_congr rfl fun c _ => mul_comm _ _
  have main : wp (if herm then her2k .Lower .NoTrans (-1 / 2) (A.sub s n 0 s) (W.sub s n 0 s) (.val 1) (A.sub s n s n)
      else syr2k .Lower .NoTrans (-1 / 2) (A.sub s n 0 s) (W.sub s n 0 s) (.val 1) (A.sub s n s n) : M L 𝕜 Unit) ν (fun _ ν' =>
      (∀ i k, i < n - s → k < n - s → fullF herm .Lower (entry ν' (A.sub s n s n)) i k = schurF herm s a w (s + i) (s + k)) ∧
      SameOff (A.sub s n s n) .Lower ν ν') := by
    have fin : ∀ i k, i < n - s → k < n - s → (-1 / 2) * (∑ c ∈ range s, a (s + i) c * cjH 𝕜 herm (w (s + k) c)) +
        (-1 / 2) * (∑ c ∈ range s, w (s + i) c * cjH 𝕜 herm (a (s + k) c)) + 1 * fullF herm .Lower a (s + i) (s + k) = schurF herm s a w (s + i) (s + k) := by
      intro i k h1 h2
      rw [prod _ _ (by omega) (by omega) (by omega) (by omega)]
      unfold schurF
      ring
    have pa : ∀ i k, i < n - s → k < n - s → ∀ h2 : k < n - s, ∀ h1 : i < n - s, (mat (n - s) s (entry ν (A.sub s n 0 s)) * adjM herm (mat (n - s) s (entry ν (W.sub s n 0 s)))) ⟨i, h1⟩ ⟨k, h2⟩ =
        ∑ c ∈ range s, a (s + i) c * cjH 𝕜 herm (w (s + k) c) := by
      intro i k hi hk _ _
      rw [adjM_mat, mat_mul]
      refine Finset.sum_congr rfl fun c hc => ?_
      rw [eA i c hi (mem_range.1 hc), eW k c hk (mem_range.1 hc)]
    have pb : ∀ i k, i < n - s → k < n - s → ∀ h2 : k < n - s, ∀ h1 : i < n - s, (mat (n - s) s (entry ν (W.sub s n 0 s)) * adjM herm (mat (n - s) s (entry ν (A.sub s n 0 s)))) ⟨i, h1⟩ ⟨k, h2⟩ =
        ∑ c ∈ range s, w (s + i) c * cjH 𝕜 herm (a (s + k) c) := by
      intro i k hi hk _ _
      rw [adjM_mat, mat_mul]
      refine Finset.sum_congr rfl fun c hc => ?_
      rw [eA k c hk (mem_range.1 hc), eW i c hi (mem_range.1 hc)]
    cases herm
    · rw [if_neg (by simp)]
      obtain ⟨ν', e, h1, _, h3⟩ := C15_syr2k (-1 / 2 : 𝕜) (.val 1) (rk .Trans) ν
      refine wp_of_eq e ⟨fun i k hi hk => ?_, h3⟩
      rw [← fin i k hi hk, ← eF i k hi hk, ← pa i k hi hk hk hi, ← pb i k hi hk hk hi]
      exact congrFun (congrFun h1 ⟨i, hi⟩) ⟨k, hk⟩
    · rw [if_pos rfl]
      obtain ⟨ν', e, h1, _, _, h3⟩ := C15_her2k (-1 / 2 : 𝕜) (beta := .val 1) (rk .ConjTrans) (by simp [Coef.toVal]) ν
      refine wp_of_eq e ⟨fun i k hi hk => ?_, h3⟩
      rw [← fin i k hi hk, ← eF i k hi hk, ← pa i k hi hk hk hi, ← pb i k hi hk hk hi]
      have st : star (-1 / 2 : 𝕜) = -1 / 2 := by simp
      rw [st] at h1
      exact congrFun (congrFun h1 ⟨i, hi⟩) ⟨k, hk⟩
  refine wp_conseq main ?_
  rintro _ ν' ⟨h1, h2⟩
  have off : ∀ b r c, r < (hB A W b).m → c < (hB A W b).n → (b = true → s ≤ c → c ≤ r → False) → entry ν' (hB A W b) r c = pr a w b r c := by
    intro b r c hr hc hb
    refine Eq.trans ?_ (hf b r c hr hc)
    refine h2 _ fun i j hi hj ht e => ?_
    replace hi : i < n - s := hi
    replace hj : j < n - s := hj
    replace ht : j ≤ i := ht
    have := hz.fam.cell (k := true) (k' := b) (by show s + i < A.m; omega) (by show s + j < A.n; omega) hr hc e
    exact hb this.1.symm (by omega) (by omega)
  refine ⟨fun r c => if s ≤ c ∧ c ≤ r ∧ r < n then entry ν' A r c else a r c, ?_, ?_, ?_, ?_⟩
  · intro b r c hr hc
    cases b
    · exact off false r c hr hc (by simp)
    · replace hr' : r < A.m := hr
      show _ = if _ then _ else _
      by_cases q : s ≤ c ∧ c ≤ r ∧ r < n
      · rw [if_pos q]; rfl
      · rw [if_neg q]; exact off true r c hr hc (fun _ _ _ => by omega)
  · intro l hl
    refine h2 l fun i j hi hj ht e => hl true ⟨s + i, s + j, ?_, ?_, e⟩
    · replace hi : i < n - s := hi
      show s + i < A.m; omega
    · replace hj : j < n - s := hj
      show s + j < A.n; omega
  · intro r c h
    exact if_neg (by omega)
  · intro i k hi hk hin hkn
    have := h1 (i - s) (k - s) (by omega) (by omega)
    rw [show s + (i - s) = i by omega, show s + (k - s) = k by omega] at this
    rw [← this]
    have ee : ∀ r c, s ≤ r → s ≤ c → entry ν' (A.sub s n s n) (r - s) (c - s) = entry ν' A r c := fun r c h1 h2 => by
      show ν' (A.cell (s + (r - s)) (s + (c - s))) = _
      rw [show s + (r - s) = r by omega, show s + (c - s) = c by omega]; rfl
    rcases lt_trichotomy i k with q | q | q
    · rw [fullF_gt _ q, fullF_gt _ (by omega), if_pos (by omega), ee _ _ hk hi]
    · subst q; rw [fullF_diag, fullF_diag, ee _ _ hk hi, show (if s ≤ i ∧ i ≤ i ∧ i < n then entry ν' A i i else a i i) = entry ν' A i i from if_pos (by omega)]
    · rw [fullF_lt _ q, fullF_lt _ (by omega), if_pos (by omega), ee _ _ hi hk]

theorem ldlD_congr {bl : List Blk} {j : Nat} {x y : Nat → Nat → 𝕜} (e : ∀ i c, i < j → c < j → x i c = y i c) {i k : Nat} (hi : i < j) (hk : k < j) :
    ldlD herm .Lower x bl i k = ldlD herm .Lower y bl i k := by
  rw [ldlD_eq (.inl rfl), ldlD_eq (.inl rfl)]
  have : fullF herm .Lower x i k = fullF herm .Lower y i k := by
    rcases lt_trichotomy i k with q | q | q
    · rw [fullF_gt _ q, fullF_gt _ q, e _ _ hk hi]
    · subst q; rw [fullF_diag, fullF_diag, e _ _ hi hi]
    · rw [fullF_lt _ q, fullF_lt _ q, e _ _ hi hk]
  rw [this]

/-- What a panel returns. -/
structure PanelOK (herm : Bool) (A : MatV L) (work : VecV L) (n jn : Nat) (ipiv : ZArr) (μ : Store L 𝕜) (info : Nat) (q : ZArr) (ν : Store L 𝕜)
    (bl : List Blk) (Z : Nat → Bool) (s : Nat) : Prop where
  qn : q.n = ipiv.n
  blk : IsBlks n q.f bl s
  blin : BlksIn n s bl
  inf : InfoZ info Z bl
  zin : ∀ c, s ≤ c → Z c = false
  s1 : s ≤ jn
  s2 : jn ≤ s + 1
  s3 : jn ≤ 1 → s = 0
  last : s < jn → q.f (jn - 1) = n + s
  rest : ∀ i, s ≤ i → q.f i = ipiv.f i ∨ 0 ≤ q.f i
  fr : ∀ l, ¬ A.Owns l → ¬ work.Owns l → ν l = μ l
  up : ∀ r c, r < c → c < n → entry ν A r c = entry μ A r c
  eq : mat n n (fullF herm .Lower (entry μ A)) = ldlM .Lower n (maskC Z (entry ν A)) bl *
    mat n n (gF s (ldlD herm .Lower (maskC Z (entry ν A)) bl) (fullF herm .Lower (entry ν A))) * adjM herm (ldlM .Lower n (maskC Z (entry ν A)) bl)

set_option maxHeartbeats 1000000 in
theorem wp_hetf3Low {work : VecV L} {μ : Store L 𝕜} (hl : LuLaws 𝕜 isReal safeMin safeMax) {alpha : ℝ} (ha0 : 0 < alpha) (ha : 2 * alpha ^ 2 ≤ 1)
    (am : A.m = n) (an : A.n = n) (hn : 0 < n) (hnb : 0 < nb) (hA : A.Inj) (hw : work.Inj) (hd : A.DisjV work) (hsz : n * nb ≤ work.n) {ipiv : ZArr}
    (hip : ipiv.n = n) :
    wp (hetf3Low (hetOps isReal isinf safeMin safeMax) alpha (-1 / 2) herm nb A ipiv work) μ (fun r ν => ∃ bl Z s,
      PanelOK herm A work n (min nb n) ipiv μ r.1 r.2 ν bl Z s) := by
  unfold hetf3Low
  simp only [wp_bind, wp_check, am, an, hip, decide_true, if_true]
  rw [if_neg (by omega)]
  simp only [wp_bind]
  refine wp_reshapeWM hsz ?_
  simp only
  obtain ⟨W, hW⟩ : ∃ W, W = wview work n nb := ⟨_, rfl⟩
  have wown : ∀ l, W.Owns l → work.Owns l := fun l h => wview_owns hsz (hW ▸ h)
  have dAW : A.Disj W := hW ▸ wview_disj hsz hd
  have hz : HSz A W n nb := by
    refine ⟨⟨fun k => ?_, fun k k' hk => ?_⟩, am, an, by rw [hW], by rw [hW]⟩
    · cases k
      · rw [hW]; exact wview_inj hw hsz
      · exact hA
    · cases k <;> cases k'
      · exact absurd rfl hk
      · rintro i j h1 h2 ⟨i', j', h3, h4, e⟩
        exact dAW i' j' h3 h4 ⟨i, j, h1, h2, e.symm⟩
      · exact dAW
      · exact absurd rfl hk
  rw [← hW]
  have st : PSt herm A W n 0 (fullF herm .Lower (entry μ A)) (entry μ A) μ (entry μ A) (entry μ W) [] (fun _ => false) μ :=
    ⟨fun k r c _ _ => by cases k <;> rfl, Fr.refl, PInv.start _ _, fun _ _ => rfl, fun _ _ _ => rfl⟩
  refine wp_conseq (wp_hetLowLoop hz hl ha0 ha (min_le_left _ _) (min_le_right _ _) (min nb n) (by omega) st .nil ⟨fun c h => absurd h (by simp), .inl ⟨rfl, fun _ => rfl⟩⟩ (by omega) (by omega)) ?_
  rintro ⟨s, info, q⟩ ν1 ⟨a1, w1, bl, Z, ⟨ls, fr, inv, zin, up⟩, hb, hi, h1, h2, h3, _, h0, h4⟩
  simp only at ls fr inv zin up hb hi h1 h2 h3 h0 h4 ⊢
  obtain ⟨jn, hjn⟩ : ∃ jn, jn = min nb n := ⟨_, rfl⟩
  rw [← hjn] at h0 h1 h2 ⊢
  have jn1 : jn ≤ nb := by omega
  have jn2 : jn ≤ n := by omega
  have jn3 : 0 < jn := by omega
  have hset : wp (if s < jn then q.set (jn - 1) ((n : Int) + s) else pure q : M L 𝕜 ZArr) ν1 (fun q' ν => ν1 = ν ∧ q'.n = n ∧ IsBlks n q'.f bl s ∧
      (s < jn → q'.f (jn - 1) = n + s) ∧ ∀ i, s ≤ i → q'.f i = ipiv.f i ∨ 0 ≤ q'.f i) := by
    by_cases c : s < jn
    · rw [if_pos c]
      unfold ZArr.set
      rw [if_pos (by omega)]
      refine ⟨rfl, by rw [← hip, ← h3], hb.congr fun i hi => if_neg (by omega), fun _ => if_pos rfl, fun i hi => ?_⟩
      by_cases e : i = jn - 1
      · right
        show 0 ≤ if i = jn - 1 then _ else _
        rw [if_pos e]; omega
      · left
        show (if i = jn - 1 then _ else _) = _
        rw [if_neg e]; exact h4 i hi
    · rw [if_neg c]
      exact ⟨rfl, by rw [← hip, ← h3], hb, fun h => absurd h c, fun i hi => .inl (h4 i hi)⟩
  refine wp_conseq hset ?_
  rintro q' _ ⟨rfl, q1, q2, q3, q4⟩
  have trail : wp (if s < n then do
      let L21 ← A.slice s n 0 s
      let W21 ← W.slice s n 0 s
      let A22 ← A.slice s n s n
      if herm then her2k .Lower .NoTrans (-1 / 2) L21 W21 (.val 1) A22
      else syr2k .Lower .NoTrans (-1 / 2) L21 W21 (.val 1) A22
    else pure () : M L 𝕜 Unit) ν1 (fun _ ν' => ∃ a', LS (hB A W) (pr a' w1) ν' ∧ Fr (hB A W) ν1 ν' ∧
        (∀ r c, c < s ∨ r < c → a' r c = a1 r c) ∧ ∀ i k, s ≤ i → s ≤ k → i < n → k < n → fullF herm .Lower a' i k = schurF herm s a1 w1 i k) := by
    by_cases c : s < n
    · rw [if_pos c]
      exact wp_hetTrail hz c (by omega) ls inv.sym
    · rw [if_neg c]
      exact ⟨a1, ls, Fr.refl, fun _ _ _ => rfl, fun i k h1 _ h3 _ => by omega⟩
  refine wp_conseq trail ?_
  rintro _ ν2 ⟨a2, ls2, fr2, o2, e2⟩
  refine wp_conseq (wp_hetLowUndo hz q2 (by omega) (by omega) ls2) ?_
  rintro _ ν3 ⟨ls3, fr3⟩
  have ent : ∀ r c, r < n → c < n → entry ν3 A r c = undoF bl a2 r c := fun r c h5 h6 => ls3.rdA hz h5 h6
  have blin := inv.blk
  have xeq : ∀ i c, i < n → c < s → maskC Z (entry ν3 A) i c = maskC Z (undoF bl a1) i c := by
    intro i c h5 h6
    unfold maskC
    split_ifs
    · rfl
    · rw [ent i c h5 (by omega)]
      exact undoF_congr blin (by omega) (fun i _ => o2 i c (.inl h6)) i h5
  refine ⟨bl, Z, s, q1.trans hip.symm, q2, blin, hi, zin, h1, h2, h0, q3, q4, ?_, ?_, ?_⟩
  · intro l hl1 hl2
    have := fr.trans (fr2.trans fr3)
    exact this l fun k => by
      cases k
      · exact fun h => hl2 (wown l h)
      · exact hl1
  · intro r c h5 h6
    rw [ent r c (by omega) h6]
    have key : ∀ (bl : List Blk), BlksIn n s bl → undoF bl a2 r c = a2 r c := by
      intro bl
      induction bl with
      | nil => intro _; rfl
      | cons b bs ih =>
        intro hb
        have hb1 := hb b (List.mem_cons_self ..)
        have hs := b.s_le
        show rowSw _ _ _ (undoF bs a2) r c = _
        unfold rowSw
        have ih := ih fun b' hb' => hb b' (List.mem_cons_of_mem _ hb')
        split_ifs with q
        · rw [swapN_id (m := b.k) (by omega) (by omega) (by omega)]; exact ih
        · exact ih
    rw [key bl blin, o2 r c (.inr h5), up r c h5]
  · rw [inv.fac, ldlM_congr blin xeq]
    congr 2
    refine mat_ext_iff.2 fun i k h5 h6 => ?_
    unfold gF
    by_cases c1 : i < s ∧ k < s
    · rw [if_pos c1, if_pos c1]
      exact ldlD_congr (j := s) (fun i c h7 h8 => (xeq i c (by omega) h8).symm) c1.1 c1.2
    · rw [if_neg c1, if_neg c1]
      by_cases c2 : s ≤ i ∧ s ≤ k
      · rw [if_pos c2, if_pos c2, ← e2 i k c2.1 c2.2 h5 h6]
        have en : ∀ r c, r < n → c < n → s ≤ c → entry ν3 A r c = a2 r c := fun r c h7 h8 h9 => by
          rw [ent r c h7 h8, undoF_right blin _ _ _ h9]
        rcases lt_trichotomy i k with q | q | q
        · rw [fullF_gt _ q, fullF_gt _ q, en _ _ h6 h5 c2.1]
        · subst q; rw [fullF_diag, fullF_diag, en _ _ h6 h5 c2.1]
        · rw [fullF_lt _ q, fullF_lt _ q, en _ _ h5 h6 c2.2]
      · rw [if_neg c2, if_neg c2]

end TLA
