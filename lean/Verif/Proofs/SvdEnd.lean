import Verif.Proofs.SvdIter
import Verif.Proofs.SteqrSort
import Verif.Proofs.Getri
import Verif.Proofs.Potf2
import Verif.Props.Iamax
set_option linter.unusedTactic false
set_option linter.unusedVariables false
set_option linter.unusedSimpArgs false
set_option linter.unreachableTactic false
set_option linter.unusedSectionVars false

/-! # svd_qr: threshold, lower case, signs and sorting -/

namespace TLA
open Finset Matrix Kernel
variable {L 𝕜 : Type} [DecidableEq L] [RCLike 𝕜] [DecidableEq 𝕜]
variable {n : Nat} {wu wv : Bool} {U V : MatV L} {μ ν : Store L 𝕜} {P Q B0 : Matrix (Fin n) (Fin n) ℝ} {p : RotPar} {d e : RArr}

theorem wp_svSminoa {L T : Type} {d e : RArr} (hd : 0 < d.n) (he : d.n ≤ e.n + 1) {ν : Store L T} {E} :
    wp (svSminoa d e : M L T ℝ) ν (fun s ν' => ν' = ν ∧ 0 ≤ s ∧ s ≤ |d.f 0|) E := by
  unfold svSminoa
  simp only [wp_bind]
  refine wp_rget hd ?_
  by_cases h0 : |d.f 0| ≠ 0
  · rw [if_pos h0]
    have p0 : 0 < |d.f 0| := lt_of_le_of_ne (abs_nonneg _) h0.symm
    simp only [wp_bind]
    refine wp_forRet (fun i x ν' => ν' = ν ∧ 0 < x.1 ∧ 0 < x.2 ∧ x.2 ≤ |d.f 0|) (by omega) ⟨rfl, p0, p0, le_rfl⟩ ?_ ?_
    · rintro i ⟨mu, s⟩ ν' hi1 hi2 ⟨rfl, x1, x2, x3⟩
      simp only [wp_bind]
      have hp : 0 < mu + |e.f (i - 1)| := add_pos_of_pos_of_nonneg x1 (abs_nonneg _)
      refine wp_rget hi2 (wp_rget (by omega) (wp_liftO_some (a := mu / (mu + |e.f (i - 1)|)) (by simp [dv, hp.ne']) ?_))
      dsimp only at x1 x2 x3 ⊢
      have m0 : 0 ≤ |d.f i| * (mu / (mu + |e.f (i - 1)|)) := by positivity
      by_cases q : min s (|d.f i| * (mu / (mu + |e.f (i - 1)|))) = 0
      · rw [if_pos q]
        exact ⟨rfl, q ▸ le_rfl, q ▸ p0.le⟩
      · rw [if_neg q]
        have pos : 0 < min s (|d.f i| * (mu / (mu + |e.f (i - 1)|))) := lt_of_le_of_ne (le_min x2.le m0) (Ne.symm q)
        exact ⟨rfl, lt_of_lt_of_le pos (min_le_right _ _), pos, le_trans (min_le_left _ _) x3⟩
    · rintro x ν' ⟨rfl, -, x2, x3⟩
      exact ⟨rfl, x2.le, x3⟩
  · rw [if_neg h0]
    exact ⟨rfl, abs_nonneg _, le_rfl⟩

/-- The first rows upper, the others lower bidiagonal. -/
def mixB (i : Nat) (d e : Nat → ℝ) : Nat → Nat → ℝ := fun r v =>
  if r = v then d r else if r < i ∧ v = r + 1 then e r else if i ≤ v ∧ r = v + 1 then e v else 0

theorem mixB_step {i : Nat} {d e d' e' : Nat → ℝ} {c s r : ℝ} (hi : i + 1 < n) (h0 : c * d i + s * e i = r) (h1 : -s * d i + c * e i = 0)
    (hd : ∀ j, d' j = if j = i then r else if j = i + 1 then c * d (i + 1) else d j) (he : ∀ j, e' j = if j = i then s * d (i + 1) else e j) :
    mat n n (mixB (i + 1) d' e') = rotMat n i (i + 1) c s * mat n n (mixB i d e) := by
  rw [← mat_colMap_rot (by omega) hi (by omega)]
  refine mat_ext_iff.2 fun a b ha hb => ?_
  simp only [colMap, pairRot, mixB, hd, he, star_trivial]
  by_cases q1 : a = i
  · subst q1
    by_cases q2 : b = a
    · subst q2
      rw [if_pos rfl, if_pos rfl, if_pos rfl, if_pos rfl, if_neg (show ¬ b + 1 = b by omega), if_neg (show ¬ (b + 1 < b ∧ b = b + 1 + 1) by omega),
        if_pos ⟨le_rfl, rfl⟩, h0]
    · by_cases q3 : b = a + 1
      · subst q3
        simp
        omega
      · rw [if_neg (fun h => q2 h.symm), if_neg (show ¬ (a < a + 1 ∧ b = a + 1) by omega), if_neg (show ¬ (a + 1 ≤ b ∧ a = b + 1) by omega),
          if_pos rfl, if_neg (fun h => q2 h.symm), if_neg (show ¬ (a < a ∧ b = a + 1) by omega), if_neg (show ¬ (a ≤ b ∧ a = b + 1) by omega),
          if_neg (fun h => q3 h.symm), if_neg (show ¬ (a + 1 < a ∧ b = a + 1 + 1) by omega), if_neg (show ¬ (a ≤ b ∧ a + 1 = b + 1) by omega)]
        ring
  · by_cases q4 : a = i + 1
    · subst q4
      by_cases q2 : b = i
      · subst q2
        simp
        linarith
      · by_cases q3 : b = i + 1
        · subst q3
          simp
          omega
        · rw [if_neg (fun h => q3 h.symm), if_neg (show ¬ (i + 1 < i + 1 ∧ b = i + 1 + 1) by omega), if_neg (show ¬ (i + 1 ≤ b ∧ i + 1 = b + 1) by omega),
            if_neg q1, if_pos rfl, if_neg (fun h => q2 h.symm), if_neg (show ¬ (i < i ∧ b = i + 1) by omega), if_neg (show ¬ (i ≤ b ∧ i = b + 1) by omega),
            if_neg (fun h => q3 h.symm), if_neg (show ¬ (i + 1 < i ∧ b = i + 1 + 1) by omega), if_neg (show ¬ (i ≤ b ∧ i + 1 = b + 1) by omega)]
          ring
    · simp only [if_neg q1, if_neg q4]
      split_ifs <;> first | rfl | omega

theorem mixB_zero (d e : Nat → ℝ) : mixB 0 d e = bidR true d e := by
  funext r v
  simp only [mixB, bidR]
  split_ifs <;> first | rfl | omega | simp_all

theorem mixB_last {d e : Nat → ℝ} : mat n n (mixB (n - 1) d e) = mat n n (bidR false d e) := by
  refine mat_ext_iff.2 fun r v hr hv => ?_
  simp only [mixB, bidR]
  split_ifs <;> first | rfl | omega | simp_all

/-- From lower to upper bidiagonal. -/
theorem wp_svLower (h1 : 0 < p.safmin) (h2 : 0 < p.safmax) (hR : SvReq n wu wv U V) (hd : d.n = n) (he : n ≤ e.n + 1) {E} :
    wp (svLower p (fun x : ℝ => (x : 𝕜)) wu U d e) μ (fun x ν => x.1.n = n ∧ x.2.n = e.n ∧
      ∃ P, Pᵀ * P = 1 ∧ mat n n (bidR true d.f e.f) = P * mat n n (bidR false x.1.f x.2.f) ∧ UV n wu wv U V μ P 1 ν) E := by
  unfold svLower
  refine wp_forUp (fun i x ν => x.1.n = n ∧ x.2.n = e.n ∧
      ∃ P, Pᵀ * P = 1 ∧ mat n n (bidR true d.f e.f) = P * mat n n (mixB i x.1.f x.2.f) ∧ UV n wu wv U V μ P 1 ν) (by omega) ?_ ?_ ?_
  · exact ⟨hd, rfl, 1, by simp, by rw [mixB_zero, Matrix.one_mul], UV.start μ⟩
  · rintro i ⟨d', e'⟩ ν _ hi ⟨x1, x2, P, oP, eP, hU⟩
    dsimp only at x1 x2 eP ⊢
    have hi : i + 1 < n := by omega
    simp only [wp_bind]
    obtain ⟨c, s, r, eq, ok⟩ := lartg_ok h1 h2 (d'.f i) (e'.f i)
    refine wp_rget (by omega) (wp_rget (by omega) (wp_liftO_some eq ?_))
    refine wp_rset (by omega) (wp_rget (by simp only; omega) (wp_rset (by omega) (wp_rset (by simp only; omega) ?_)))
    refine wp_mono (wp_svU hR hU (show i < n by omega) hi (by omega) c s) ?_ (fun _ _ h => h)
    intro _ ν1 hν1
    have oL := rotMat_orth (n := n) (show i < n by omega) hi (by omega) ok.unit
    have oL' := rotMat_orth' (n := n) (show i < n by omega) hi (by omega) ok.unit
    refine ⟨x1, x2, _, ?_, ?_, hν1⟩
    · rw [transpose_mul, transpose_transpose, Matrix.mul_assoc, ← Matrix.mul_assoc Pᵀ, oP, Matrix.one_mul, oL']
    · rw [mixB_step (d := d'.f) (e := e'.f) hi ok.top ok.bot]
      · rw [Matrix.mul_assoc, ← Matrix.mul_assoc _ᵀ, oL, Matrix.one_mul, eP]
      · intro j
        simp only [if_neg (show ¬ i + 1 = i by omega)]
        split_ifs <;> first | rfl | omega
      · intro j
        simp only [if_neg (show ¬ i + 1 = i by omega)]
  · rintro ⟨d', e'⟩ ν ⟨x1, x2, P, oP, eP, hU⟩
    rw [hd, mixB_last] at eP
    exact ⟨x1, x2, P, oP, eP, hU⟩


/-! ### Signs -/

theorem wp_svScalRow (hR : SvReq n wu wv U V) (h : UV n wu wv U V μ P Q ν) {i : Nat} (hi : i < n) {E} :
    wp (if wv = true then (do
        let v ← V.sliceRow i 0 V.n
        scal (-1) v) else pure () : M L 𝕜 Unit) ν
      (fun _ ν' => UV n wu wv U V μ P (diagonal (fun j : Fin n => if (j : Nat) = i then -1 else 1) * Q) ν') E := by
  by_cases hw : wv = true
  · obtain ⟨hinj, hn⟩ := hR.v hw
    rw [if_pos hw]
    simp only [wp_bind]
    refine wp_sliceRow (by omega) (by omega) le_rfl ?_
    refine wp_mono (wp_scal_e (hinj.rowv (by omega) le_rfl)) ?_ (fun _ _ h => h.elim)
    rintro _ ν' ⟨o, ev⟩
    refine h.onV hR hw ?_ fun l hl => o l ?_
    · rw [embR_mul, Matrix.mul_assoc, ← h.vval hw]
      ext a b
      rw [show emb𝕜 𝕜 (diagonal (fun j : Fin n => if (j : Nat) = i then (-1 : ℝ) else 1)) =
        diagonal (fun j : Fin n => if (j : Nat) = i then (-1 : 𝕜) else 1) from by
          ext u v
          simp only [map_apply, diagonal_apply]
          split_ifs <;> simp]
      rw [diagonal_mul]
      simp only [mat, of_apply]
      by_cases q : (a : Nat) = i
      · rw [if_pos q, q]
        have := ev b (by simp [MatV.rowv])
        simp only [ventry, MatV.rowv, Nat.zero_add] at this
        rw [show entry ν' V i b = ν' (V.cell i b) from rfl, this]
        show _ = -1 * ν (V.cell i b)
        ring
      · rw [if_neg q, one_mul]
        refine o _ ?_
        rintro ⟨c, hc, ec⟩
        simp only [MatV.rowv, Nat.zero_add, Nat.sub_zero] at hc ec
        exact q (hinj _ _ _ _ (by omega) hc (by omega) b.2 ec).1.symm
    · rintro ⟨c, hc, ec⟩
      simp only [MatV.rowv, Nat.zero_add, Nat.sub_zero] at hc ec
      exact hl ⟨i, c, hi, hc, ec⟩
  · rw [if_neg hw]
    exact ⟨h.uval, fun h => absurd h hw, h.frame⟩

/-- Signs that make `d` non-negative. -/
noncomputable def sgnD (d : Nat → ℝ) (i : Nat) (j : Fin n) : ℝ := if (j : Nat) < i ∧ d j < 0 then -1 else 1

theorem wp_svSign (hR : SvReq n wu wv U V) (hd : d.n = n) (h : UV n wu wv U V μ P Q ν) {E} :
    wp (svSign wv V d) ν (fun d' ν' => d'.n = n ∧ (∀ j, j < n → d'.f j = |d.f j|) ∧
      UV n wu wv U V μ P (diagonal (sgnD d.f n) * Q) ν') E := by
  unfold svSign
  refine wp_forUp (fun i d' ν' => d'.n = n ∧ (∀ j, j < n → d'.f j = if j < i then |d.f j| else d.f j) ∧
      UV n wu wv U V μ P (diagonal (sgnD d.f i) * Q) ν') (by omega) ?_ ?_ ?_
  · refine ⟨hd, fun j _ => by simp, ?_⟩
    rw [show (sgnD d.f 0 : Fin n → ℝ) = fun _ => 1 from funext fun j => by simp [sgnD], diagonal_one, Matrix.one_mul]
    exact h
  · rintro i d' ν' _ hi ⟨x1, x2, hU⟩
    simp only [wp_bind]
    refine wp_rget (by omega) ?_
    have di : d'.f i = d.f i := by rw [x2 i (by omega), if_neg (by omega)]
    rw [di]
    by_cases q : d.f i < 0
    · rw [if_pos q]
      simp only [wp_bind]
      refine wp_rset (by omega) ?_
      refine wp_mono (wp_svScalRow hR hU (show i < n by omega)) ?_ (fun _ _ h => h)
      intro _ ν2 h2
      refine ⟨x1, fun j hj => ?_, ?_⟩
      · by_cases g : j = i
        · subst g; simp [abs_of_neg q]
        · simp only [if_neg g, x2 j hj]
          split_ifs <;> first | rfl | omega
      · rw [← Matrix.mul_assoc, diagonal_mul_diagonal] at h2
        suffices es : (sgnD d.f (i + 1) : Fin n → ℝ) = fun j : Fin n => (if (j : Nat) = i then -1 else 1) * sgnD d.f i j by
          rw [es]; exact h2
        funext j
        simp only [sgnD]
        by_cases g : (j : Nat) = i
        · rw [if_pos ⟨by omega, by rw [g]; exact q⟩, if_pos g, if_neg (by omega), mul_one]
        · rw [if_neg g, one_mul]
          congr 1
          simp only [eq_iff_iff]
          constructor
          · rintro ⟨a, b⟩; exact ⟨by omega, b⟩
          · rintro ⟨a, b⟩; exact ⟨by omega, b⟩
    · rw [if_neg q]
      refine ⟨x1, fun j hj => ?_, ?_⟩
      · by_cases g : j = i
        · subst g; rw [di, if_pos (by omega), abs_of_nonneg (not_lt.1 q)]
        · rw [x2 j hj]
          split_ifs <;> first | rfl | omega
      · suffices es : (sgnD d.f (i + 1) : Fin n → ℝ) = sgnD d.f i by
          rw [es]; exact hU
        funext j
        simp only [sgnD]
        congr 1
        simp only [eq_iff_iff]
        constructor
        · rintro ⟨a, b⟩
          refine ⟨?_, b⟩
          by_contra hc
          exact q (by rw [← show (j : Nat) = i by omega]; exact b)
        · rintro ⟨a, b⟩; exact ⟨by omega, b⟩
  · rintro d' ν' ⟨x1, x2, hU⟩
    rw [hd] at hU
    exact ⟨x1, fun j hj => by rw [x2 j hj, if_pos (by omega)], hU⟩

/-! ### Sorting -/

theorem rIamax_laws : IamaxLaws rIamax (fun x : ℝ => |x|) (fun x => |1 / 4 * x|) (fun _ => False) where
  nan_abs := fun x h => by simp [rIamax] at h
  inf_abs := fun x _ _ h => h.elim
  fin_abs := fun x _ _ _ => ⟨rfl, by simp only [rIamax]; linarith [abs_nonneg x]⟩
  quarter_abs := fun x _ _ => rfl
  real_no_overflow := fun x _ h => h
  mono := fun _ _ _ _ _ _ _ h => h.elim

theorem wp_iamaxFrom {L T : Type} {d : RArr} {i : Nat} (hi : i < d.n) {ν : Store L T} {Φ : Nat → Store L T → Prop} {E}
    (h : ∀ k, i ≤ k → k < d.n → (∀ j, i ≤ j → j < d.n → |d.f j| ≤ |d.f k|) → Φ k ν) : wp (d.iamaxFrom i : M L T Nat) ν Φ E := by
  obtain ⟨k, hk, spec, lt⟩ := C20_iamax_ec (L := Nat) rIamax_laws ⟨d.n - i, fun k => i + k⟩ d.f
  unfold wp RArr.iamaxFrom
  rw [hk]
  have lt := lt (by simp only; omega)
  simp only at lt
  refine h (i + k) (by omega) (by omega) fun j h1 h2 => ?_
  cases spec with
  | empty h => simp only at h; omega
  | nan _ h => have := h.2.1; simp [rIamax] at this
  | inf _ _ h => have := h.2.1; simp [rIamax] at this
  | overflow _ _ h => exact h.2.1.elim
  | finite _ _ h =>
    have := h.2.2.1 (j - i) (by simp only; omega) trivial
    simp only [ventry] at this
    rwa [show i + (j - i) = j by omega] at this

theorem swapColsV_first {U : MatV L} {T : Type} (hn : n ≤ U.n) {k i : Nat} (hk : k < n) (hi : i < n) :
    (swapColsV U k i : M L T Unit) = swapColsV (U.firstCols n) k i := by
  unfold swapColsV MatV.sliceCol
  rw [if_pos ⟨by omega, by omega⟩, if_pos ⟨by omega, by omega⟩, if_pos ⟨by simp only [MatV.firstCols]; omega, hk⟩,
    if_pos ⟨by simp only [MatV.firstCols]; omega, hi⟩]
  rfl

theorem swapRowsV_first {V : MatV L} {T : Type} (hn : n ≤ V.m) {k i : Nat} (hk : k < n) (hi : i < n) :
    (swapRowsV V k i : M L T Unit) = swapRowsV (V.firstRows n) k i := by
  unfold swapRowsV MatV.sliceRow
  rw [if_pos ⟨by omega, by omega⟩, if_pos ⟨by omega, by omega⟩, if_pos ⟨by simp only [MatV.firstRows]; omega, hk⟩,
    if_pos ⟨by simp only [MatV.firstRows]; omega, hi⟩]
  rfl

theorem wp_svSwapU (hR : SvReq n wu wv U V) (h : UV n wu wv U V μ P Q ν) {k i : Fin n} (hne : i ≠ k) {E} :
    wp (if wu = true then swapColsV U k i else pure () : M L 𝕜 Unit) ν (fun _ ν' => UV n wu wv U V μ (P.submatrix id (Equiv.swap k i)) Q ν') E := by
  by_cases hw : wu = true
  · obtain ⟨hinj, hn⟩ := hR.u hw
    rw [if_pos hw, swapColsV_first hn k.2 i.2]
    refine wp_mono (wp_swapColsV (MatV.firstCols_inj hinj hn) (MState.start _ ν) k.2 i.2 (fun e => hne (Fin.ext e))) ?_ (fun _ _ h => h.elim)
    rintro _ ν' hν
    refine h.onU hR hw ?_ hν.frame
    have e1 : mat U.m n (entry ν' U) = (mat U.m n (entry ν U)).submatrix id (Equiv.swap k i) := by
      ext a b
      simp only [mat, of_apply, submatrix_apply, id]
      refine (hν.val a b a.2 b.2).trans ?_
      simp only [Equiv.swap_apply_def]
      show ν (U.cell a _) = ν (U.cell a _)
      congr 2
      simp only [Fin.ext_iff]
      split_ifs <;> rfl
    rw [e1, h.uval hw]
    ext a b
    simp [mul_apply]
  · rw [if_neg hw]
    exact ⟨fun h => absurd h hw, h.vval, h.frame⟩

theorem wp_svSwapV (hR : SvReq n wu wv U V) (h : UV n wu wv U V μ P Q ν) {k i : Fin n} (hne : i ≠ k) {E} :
    wp (if wv = true then swapRowsV V k i else pure () : M L 𝕜 Unit) ν (fun _ ν' => UV n wu wv U V μ P (Q.submatrix (Equiv.swap k i) id) ν') E := by
  by_cases hw : wv = true
  · obtain ⟨hinj, hn⟩ := hR.v hw
    rw [if_pos hw, swapRowsV_first hn k.2 i.2]
    refine wp_mono (wp_swapRowsV (MatV.firstRows_inj hinj hn) (MState.start _ ν) k.2 i.2 (fun e => hne (Fin.ext e))) ?_ (fun _ _ h => h.elim)
    rintro _ ν' hν
    refine h.onV hR hw ?_ hν.frame
    have e1 : mat n V.n (entry ν' V) = (mat n V.n (entry ν V)).submatrix (Equiv.swap k i) id := by
      ext a b
      simp only [mat, of_apply, submatrix_apply, id]
      refine (hν.val a b a.2 b.2).trans ?_
      simp only [Equiv.swap_apply_def]
      show ν (V.cell _ b) = ν (V.cell _ b)
      congr 2
      simp only [Fin.ext_iff]
      split_ifs <;> rfl
    rw [e1, h.vval hw]
    ext a b
    simp [mul_apply]
  · rw [if_neg hw]
    exact ⟨h.uval, fun h => absurd h hw, h.frame⟩

theorem wp_svSort (hR : SvReq n wu wv U V) (hd : d.n = n) (h : UV n wu wv U V μ P Q ν) (h0 : ∀ j, j < n → 0 ≤ d.f j) {E} :
    wp (svSort wu wv U V d) ν (fun d' ν' => d'.n = n ∧ (∀ i j, i < j → j < n → d'.f j ≤ d'.f i) ∧ ∃ σ : Equiv.Perm (Fin n),
      (∀ j : Fin n, d'.f j = d.f (σ j)) ∧ UV n wu wv U V μ (P.submatrix id σ) (Q.submatrix σ id) ν') E := by
  unfold svSort
  refine wp_forUp (fun i d' ν' => d'.n = n ∧ (∀ a b, a < b → a < i → b < n → d'.f b ≤ d'.f a) ∧ ∃ σ : Equiv.Perm (Fin n),
      (∀ j : Fin n, d'.f j = d.f (σ j)) ∧ UV n wu wv U V μ (P.submatrix id σ) (Q.submatrix σ id) ν') (by omega) ?_ ?_ ?_
  · exact ⟨hd, fun a b _ h _ => absurd h (by omega), 1, fun _ => rfl, h⟩
  · rintro i d' ν' _ hi ⟨dn, hsort, σ, hv, hU⟩
    have nn : ∀ j, j < n → 0 ≤ d'.f j := fun j hj => by rw [hv ⟨j, hj⟩]; exact h0 _ (σ ⟨j, hj⟩).2
    simp only [wp_bind]
    refine wp_iamaxFrom (by omega) fun k k1 k2 k4 => ?_
    have k4 : ∀ j, i ≤ j → j < n → d'.f j ≤ d'.f k := fun j g1 g2 => by
      have := k4 j g1 (by omega)
      rwa [abs_of_nonneg (nn _ (by omega)), abs_of_nonneg (nn _ (by omega))] at this
    have hin : i < n := by omega
    have hkn : k < n := by omega
    by_cases hk : k = i
    · rw [if_neg (by simpa using hk)]
      refine ⟨dn, fun a b g1 g2 g3 => ?_, σ, hv, hU⟩
      by_cases ha : a = i
      · rw [ha, ← hk]; exact k4 b (by omega) (by omega)
      · exact hsort a b g1 (by omega) g3
    · rw [if_pos hk]
      simp only [wp_bind]
      refine wp_rget (by omega) (wp_rget (by omega) (wp_rset (by omega) (wp_rset (by simp only; omega) ?_)))
      refine wp_mono (wp_svSwapU hR hU (k := ⟨k, hkn⟩) (i := ⟨i, hin⟩) (fun e => hk (Fin.ext_iff.1 e).symm)) ?_ (fun _ _ h => h)
      intro _ ν1 hU1
      refine wp_mono (wp_svSwapV hR hU1 (k := ⟨k, hkn⟩) (i := ⟨i, hin⟩) (fun e => hk (Fin.ext_iff.1 e).symm)) ?_ (fun _ _ h => h)
      intro _ ν2 hU2
      refine ⟨dn, fun a b g1 g2 g3 => ?_, σ * Equiv.swap ⟨k, hkn⟩ ⟨i, hin⟩, fun j => ?_, ?_⟩
      · show (if b = i then d'.f k else if b = k then d'.f i else d'.f b) ≤ (if a = i then d'.f k else if a = k then d'.f i else d'.f a)
        by_cases ha : a = i
        · rw [if_pos ha, if_neg (show ¬ b = i by omega)]
          split_ifs
          · exact k4 i le_rfl hin
          · exact k4 b (by omega) g3
        · rw [if_neg ha, if_neg (show ¬ a = k by omega)]
          split_ifs
          · exact hsort a k (by omega) (by omega) hkn
          · exact hsort a i (by omega) (by omega) hin
          · exact hsort a b g1 (by omega) g3
      · show (if (j : Nat) = i then d'.f k else if (j : Nat) = k then d'.f i else d'.f j) = _
        rw [Equiv.Perm.mul_apply]
        by_cases q1 : (j : Nat) = i
        · rw [if_pos q1, show j = ⟨i, hin⟩ from Fin.ext q1, Equiv.swap_apply_right, ← hv]
        · rw [if_neg q1]
          by_cases q2 : (j : Nat) = k
          · rw [if_pos q2, show j = ⟨k, hkn⟩ from Fin.ext q2, Equiv.swap_apply_left, ← hv]
          · rw [if_neg q2, Equiv.swap_apply_of_ne_of_ne (fun h => q2 (by rw [h])) (fun h => q1 (by rw [h])), ← hv]
      · exact hU2
  · rintro d' ν' ⟨dn, hsort, σ, hv, hU⟩
    refine ⟨dn, fun a b g1 g2 => hsort a b g1 (by omega) g2, σ, hv, hU⟩

end TLA
