import Verif.Proofs.SchurBlkI
import Verif.Props.Rot
import Verif.Props.Examples
import Verif.Props.House

/-!
# C96: schur_swap for real matrices, blocks of order one and two
-/

set_option linter.unusedVariables false

namespace TLA
open Matrix
variable {L : Type} [DecidableEq L] {hp : HhPar}

/-- **C96** The exchange: for two adjacent diagonal blocks of orders `n1`, `n2 ∈ {1, 2}` (two blocks of order two separated enough for lasy2) the part of the routine
before the standardization returns 0, and `A = U A' Uᵀ`, `Q' = Q U` with `U` orthogonal, where `A'` has the eigenvalues of the second block in a leading block
of order `n2` and those of the first block in a block of order `n1` behind it. -/
theorem C96_exchange (hl : HhLaws ℝ hp) {ro : RotOps ℝ} (ho : RotLaws ro) {eps small : ℝ} (hs : 0 < small) {wantq : Bool} {A Q B V D : MatV L}
    (ok : SchurOK wantq A Q) (sc : SwScr wantq A Q B V D) (μ : Store L ℝ) {j0 n1 n2 : Nat} (h1 : n1 = 1 ∨ n1 = 2) (h2 : n2 = 1 ∨ n2 = 2)
    (hj : j0 + n1 + n2 ≤ A.n) (w : SwWin A.n j0 n1 n2 (entry μ A)) (nm : SwNum hp eps small j0 n1 n2 (entry μ A)) :
    ∃ ν, schurExch (hhOps (𝕜 := ℝ) hp) ro eps small wantq A Q B V D j0 n1 n2 μ = (.ok 0, ν) ∧
      SwExch A.n j0 n1 n2 (entry μ A) (entry ν A) ∧
      (∃ U : Matrix (Fin A.n) (Fin A.n) ℝ, Uᵀ * U = 1 ∧ mat A.n A.n (entry μ A) = U * mat A.n A.n (entry ν A) * Uᵀ ∧
        (wantq = true → mat A.n A.n (entry ν Q) = mat A.n A.n (entry μ Q) * U)) ∧
      ∀ l, ¬ A.Owns l → ¬ (wantq = true ∧ Q.Owns l) → ¬ scrOwns B V D l → ν l = μ l := by
  have k1 := ok.Am
  have k2 := ok.Qm
  have k3 := ok.Qn
  obtain ⟨_, ν, e, rfl, G, GQ, ex, ⟨U, hU, ha, hq⟩, r⟩ := wp_iff.1 (wp_schurExch hl ho hs ok sc h1 h2 hj w nm)
  have ea : ∀ r k, r < A.n → k < A.n → entry ν A r k = G r k := fun i k hi hk => r.a i k (by omega) hk
  simp only [Matrix.conjTranspose_eq_transpose_of_trivial] at hU ha
  refine ⟨ν, e, ex.congrG ea hj, ⟨U, hU, ?_, fun w => ?_⟩, r.frame⟩
  · rw [ha, mat_ext_iff.2 fun i j hi hj => (ea i j hi hj).symm]
  · rw [← hq w]
    exact mat_ext_iff.2 fun i j hi hj => r.q w i j (by omega) (by omega)

/-- **C96** The routine for blocks of order one and blocks of order two with complex eigenvalues: unless one of the blocks that the exchange produces (see
`C96_exchange`) is one on which the standardization fails (opposite off-diagonal elements with unequal diagonal elements, see C55), it returns 0 with the exchange
done by an orthogonal similarity, and the blocks of order two are in standard form (equal diagonal elements, off-diagonal elements of opposite signs). -/
theorem C96_schur_swap (hl : HhLaws ℝ hp) {ro : RotOps ℝ} (ho : RotLaws ro) {pr : Kernel.SchurPar} (he : 0 < pr.eps) (hm : 0 < pr.safmn2) {eps small : ℝ}
    (hs : 0 < small) {wantq : Bool} {A Q B V D : MatV L} (ok : SchurOK wantq A Q) (sc : SwScr wantq A Q B V D) (μ : Store L ℝ) {j0 n1 n2 : Nat}
    (h1 : n1 = 1 ∨ n1 = 2) (h2 : n2 = 1 ∨ n2 = 2) (hj : j0 + n1 + n2 ≤ A.n) (w : SwWin A.n j0 n1 n2 (entry μ A))
    (nm : SwNum hp eps small j0 n1 n2 (entry μ A)) (c1 : n1 = 2 → CplxBlk (entry μ A) j0) (c2 : n2 = 2 → CplxBlk (entry μ A) (j0 + n1)) :
    ∃ ν1, schurExch (hhOps (𝕜 := ℝ) hp) ro eps small wantq A Q B V D j0 n1 n2 μ = (.ok 0, ν1) ∧
      ((n2 = 2 → entry ν1 A j0 j0 = entry ν1 A (j0 + 1) (j0 + 1) ∨ entry ν1 A j0 (j0 + 1) + entry ν1 A (j0 + 1) j0 ≠ 0) →
       (n1 = 2 → entry ν1 A (j0 + n2) (j0 + n2) = entry ν1 A (j0 + n2 + 1) (j0 + n2 + 1) ∨
          entry ν1 A (j0 + n2) (j0 + n2 + 1) + entry ν1 A (j0 + n2 + 1) (j0 + n2) ≠ 0) →
      ∃ ν, schurSwapR (hhOps (𝕜 := ℝ) hp) ro pr eps small wantq A Q B V D j0 n1 n2 μ = (.ok 0, ν) ∧
        SwExch A.n j0 n1 n2 (entry μ A) (entry ν A) ∧
        (∃ U : Matrix (Fin A.n) (Fin A.n) ℝ, Uᵀ * U = 1 ∧ mat A.n A.n (entry μ A) = U * mat A.n A.n (entry ν A) * Uᵀ ∧
          (wantq = true → mat A.n A.n (entry ν Q) = mat A.n A.n (entry μ Q) * U)) ∧
        (n2 = 2 → entry ν A j0 j0 = entry ν A (j0 + 1) (j0 + 1) ∧ entry ν A j0 (j0 + 1) * entry ν A (j0 + 1) j0 < 0) ∧
        (n1 = 2 → entry ν A (j0 + n2) (j0 + n2) = entry ν A (j0 + n2 + 1) (j0 + n2 + 1) ∧
          entry ν A (j0 + n2) (j0 + n2 + 1) * entry ν A (j0 + n2 + 1) (j0 + n2) < 0) ∧
        ∀ l, ¬ A.Owns l → ¬ (wantq = true ∧ Q.Owns l) → ¬ scrOwns B V D l → ν l = μ l) := by
  have k1 := ok.Am
  have k2 := ok.Qm
  have k3 := ok.Qn
  have hx := wp_schurExch hl ho hs ok sc h1 h2 hj w nm
  obtain ⟨_, ν1, e, rfl, G, GQ, ex, eq, r⟩ := wp_iff.1 hx
  refine ⟨ν1, e, fun s2 s1 => ?_⟩
  have ea : ∀ r k, r < A.n → k < A.n → entry ν1 A r k = G r k := fun i k hi hk => r.a i k (by omega) hk
  have d2 : n2 = 2 → CplxBlk G j0 := fun h => by subst h; exact CplxBlk.of ex.c1 (c2 rfl)
  have d1 : n1 = 2 → CplxBlk G (j0 + n2) := fun h => by subst h; exact CplxBlk.of ex.c2 (c1 rfl)
  have t2 : n2 = 2 → CplxBlk G j0 ∧ StdOK G j0 := fun h => ⟨d2 h, (d2 h).std (by
    have := s2 h
    rwa [ea _ _ (by omega) (by omega), ea _ _ (by omega) (by omega), ea _ _ (by omega) (by omega), ea _ _ (by omega) (by omega)] at this)⟩
  have t1 : n1 = 2 → CplxBlk G (j0 + n2) ∧ StdOK G (j0 + n2) := fun h => ⟨d1 h, (d1 h).std (by
    have := s1 h
    rwa [ea _ _ (by omega) (by omega), ea _ _ (by omega) (by omega), ea _ _ (by omega) (by omega), ea _ _ (by omega) (by omega)] at this)⟩
  have mm : SwMem wantq A Q ν1 G GQ ν1 := ⟨r.a, r.q, fun _ _ _ => rfl⟩
  have key : wp (schurSwapR (hhOps (𝕜 := ℝ) hp) ro pr eps small wantq A Q B V D j0 n1 n2) μ (fun x ν => x = 0 ∧ ∃ G GQ, SwExch A.n j0 n1 n2 (entry μ A) G ∧
      SwEq wantq A.n (entry μ A) (entry μ Q) G GQ ∧ SwMem wantq A Q ν1 G GQ ν ∧
      (n2 = 2 → Kernel.StdSchur (blkM G j0 2)) ∧ (n1 = 2 → Kernel.StdSchur (blkM G (j0 + n2) 2))) := by
    refine wp_schurSwapR_nosplit ok h1 h2 hj (fun h => (c1 h).ne) (fun h => (c2 h).ne) ?_
    unfold wp
    rw [e]
    show wp _ _ _
    refine wp_conseq (wp_schurStds he hm ok mm hj ex eq h1 h2 t2 t1) ?_
    rintro _ ν' ⟨G', GQ', a, b, c, d, f⟩
    exact ⟨rfl, G', GQ', a, b, c, d, f⟩
  obtain ⟨_, ν, e2, rfl, G', GQ', ex', ⟨U, hU, ha, hq⟩, m, b2, b1⟩ := wp_iff.1 key
  have ea' : ∀ r k, r < A.n → k < A.n → entry ν A r k = G' r k := fun i k hi hk => m.a i k (by omega) hk
  have fin : ∀ j, j + 2 ≤ A.n → CplxBlk G' j → Kernel.StdSchur (blkM G' j 2) →
      entry ν A j j = entry ν A (j + 1) (j + 1) ∧ entry ν A j (j + 1) * entry ν A (j + 1) j < 0 := by
    intro j hj' hc hst
    rw [ea' _ _ (by omega) (by omega), ea' _ _ (by omega) (by omega), ea' _ _ (by omega) (by omega), ea' _ _ (by omega) (by omega)]
    rcases hst with h | h
    · exact absurd h hc.ne
    · exact h
  simp only [Matrix.conjTranspose_eq_transpose_of_trivial] at hU ha
  refine ⟨ν, e2, ex'.congrG ea' hj, ⟨U, hU, ?_, fun w => ?_⟩, fun h => fin _ (by omega) ?_ (b2 h), fun h => fin _ (by omega) ?_ (b1 h), fun l a b c => ?_⟩
  · rw [ha, mat_ext_iff.2 fun i j hi hj => (ea' i j hi hj).symm]
  · rw [← hq w]
    exact mat_ext_iff.2 fun i j hi hj => m.q w i j (by omega) (by omega)
  · subst h; exact CplxBlk.of ex'.c1 (c2 rfl)
  · subst h; exact CplxBlk.of ex'.c2 (c1 rfl)
  · rw [m.frame l a b, r.frame l a b c]

/-- Two blocks with eigenvalues `1 ± i` and `5 ± i`. -/
noncomputable def swEx : Nat → Nat → ℝ := fun r k =>
  if r < 2 ∧ k < 2 then (if r = k then 1 else if r < k then 1 else -1)
  else if r < 2 then 1
  else if k < 2 then 0
  else if r = k then 5 else if r < k then 1 else -1

theorem swEx_sep : SwSep (doublePar true) (1 / 2 ^ 53) (1 / 2 ^ 969) 0 swEx (1 / 8) := by
  have key : ∀ (X Y : Matrix (Fin 2) (Fin 2) ℝ), blkM swEx 0 2 * X - X * blkM swEx (0 + 2) 2 = Y →
      -4 * X 0 0 + X 1 0 + X 0 1 = Y 0 0 ∧ -4 * X 0 1 + X 1 1 - X 0 0 = Y 0 1 ∧ -4 * X 1 0 - X 0 0 + X 1 1 = Y 1 0 ∧ -4 * X 1 1 - X 0 1 - X 1 0 = Y 1 1 := by
    rintro X _ rfl
    simp only [Matrix.sub_apply, Matrix.mul_apply, Fin.sum_univ_two, blkM, mat, Matrix.of_apply, swEx]
    norm_num
    refine ⟨?_, ?_, ?_, ?_⟩ <;> ring
  have est : ∀ x y z w a b c d : ℝ, -4 * x + z + y = a → -4 * y + w - x = b → -4 * z - x + w = c → -4 * w - y - z = d →
      2 * (|x| + |y| + |z| + |w|) ≤ |a| + |b| + |c| + |d| := by
    rintro x y z w _ _ _ _ rfl rfl rfl rfl
    have h1 : 4 * |x| ≤ |-4 * x + z + y| + |z| + |y| := by
      calc 4 * |x| = |(-4 * x + z + y) - z - y| := by rw [show (-4 * x + z + y) - z - y = -4 * x by ring, abs_mul]; norm_num
        _ ≤ _ := le_trans (abs_sub _ _) (add_le_add_left (abs_sub _ _) _)
    have h2 : 4 * |y| ≤ |-4 * y + w - x| + |w| + |x| := by
      calc 4 * |y| = |(-4 * y + w - x) - w + x| := by rw [show (-4 * y + w - x) - w + x = -4 * y by ring, abs_mul]; norm_num
        _ ≤ _ := le_trans (abs_add_le _ _) (add_le_add_left (abs_sub _ _) _)
    have h3 : 4 * |z| ≤ |-4 * z - x + w| + |w| + |x| := by
      calc 4 * |z| = |(-4 * z - x + w) - w + x| := by rw [show (-4 * z - x + w) - w + x = -4 * z by ring, abs_mul]; norm_num
        _ ≤ _ := le_trans (abs_add_le _ _) (add_le_add_left (abs_sub _ _) _)
    have h4 : 4 * |w| ≤ |-4 * w - y - z| + |z| + |y| := by
      calc 4 * |w| = |(-4 * w - y - z) + z + y| := by rw [show (-4 * w - y - z) + z + y = -4 * w by ring, abs_mul]; norm_num
        _ ≤ _ := le_trans (abs_add_le _ _) (add_le_add_left (abs_add_le _ _) _)
    linarith
  refine ⟨?_, ?_, ?_, ?_, ?_⟩
  · rw [div_le_div_iff_of_pos_left (by norm_num) (by positivity) (by norm_num)]
    exact le_trans (by norm_num : (8 : ℝ) ≤ 2 ^ 3) (pow_le_pow_right₀ (by norm_num) (by norm_num))
  · intro r k hr hk
    rcases (by omega : r = 0 ∨ r = 1) with rfl | rfl <;> rcases (by omega : k = 0 ∨ k = 1) with rfl | rfl <;> norm_num [swEx]
  · intro E X hE h
    obtain ⟨Z, hZ⟩ : ∃ Z, Z = Matrix.of fun i j => ∑ k, ∑ l, E i j k l * X k l := ⟨_, rfl⟩
    unfold Kernel.sylv at h
    rw [← hZ, neg_smul, one_smul, ← sub_eq_add_neg] at h
    have hk := key X (-Z) (by rw [eq_neg_iff_add_eq_zero]; exact h)
    have e1 := est _ _ _ _ _ _ _ _ hk.1 hk.2.1 hk.2.2.1 hk.2.2.2
    have hz : ∀ i j, |(-Z) i j| ≤ 1 / 8 * (|X 0 0| + |X 0 1| + |X 1 0| + |X 1 1|) := by
      intro i j
      have t : ∀ k l, |E i j k l * X k l| ≤ 1 / 8 * |X k l| := fun k l => by
        rw [abs_mul]; exact mul_le_mul_of_nonneg_right (hE i j k l).le (abs_nonneg _)
      rw [Matrix.neg_apply, abs_neg, hZ]
      simp only [Matrix.of_apply, Fin.sum_univ_two]
      have a0 := abs_add_le (E i j 0 0 * X 0 0 + E i j 0 1 * X 0 1) (E i j 1 0 * X 1 0 + E i j 1 1 * X 1 1)
      have a1 := abs_add_le (E i j 0 0 * X 0 0) (E i j 0 1 * X 0 1)
      have a2 := abs_add_le (E i j 1 0 * X 1 0) (E i j 1 1 * X 1 1)
      have := t 0 0; have := t 0 1; have := t 1 0; have := t 1 1
      linarith
    have := hz 0 0; have := hz 0 1; have := hz 1 0; have := hz 1 1
    have p0 := abs_nonneg (X 0 0); have p1 := abs_nonneg (X 0 1); have p2 := abs_nonneg (X 1 0); have p3 := abs_nonneg (X 1 1)
    ext i j
    fin_cases i <;> fin_cases j
    · show X 0 0 = 0
      exact abs_eq_zero.1 (by linarith)
    · show X 0 1 = 0
      exact abs_eq_zero.1 (by linarith)
    · show X 1 0 = 0
      exact abs_eq_zero.1 (by linarith)
    · show X 1 1 = 0
      exact abs_eq_zero.1 (by linarith)
  · intro s X h0 h1 h
    have hk := key X _ h
    have e1 := est _ _ _ _ _ _ _ _ hk.1 hk.2.1 hk.2.2.1 hk.2.2.2
    have hb : ∀ i j, (s • mat 2 2 (fun r k => swEx (0 + r) (0 + 2 + k))) i j = s := by
      intro i j
      fin_cases i <;> fin_cases j <;> simp [mat, swEx]
    rw [hb, hb, hb, hb, abs_of_pos h0] at e1
    have p0 := abs_nonneg (X 0 0); have p1 := abs_nonneg (X 0 1); have p2 := abs_nonneg (X 1 0); have p3 := abs_nonneg (X 1 1)
    have big : (2 : ℝ) ≤ (doublePar true).tbig / 4 := by
      unfold doublePar
      have : (2 : ℝ) ^ 3 ≤ 2 ^ 486 := pow_le_pow_right₀ (by norm_num) (by norm_num)
      rw [le_div_iff₀ (by norm_num)]
      exact le_trans (by norm_num) this
    intro i j
    refine le_trans ?_ big
    fin_cases i <;> fin_cases j
    · show |X 0 0| ≤ 2; linarith
    · show |X 0 1| ≤ 2; linarith
    · show |X 1 0| ≤ 2; linarith
    · show |X 1 1| ≤ 2; linarith
  · unfold doublePar
    exact le_trans (by norm_num : (4 : ℝ) ≤ 2 ^ 2) (pow_le_pow_right₀ (by norm_num) (by norm_num))

/-- The hypotheses are met: a matrix of order four with these two blocks. -/
example : let A := mkM 0 4 4
    let μ : Store (Nat × Nat × Nat) ℝ := fun l => if l.1 = 0 then swEx l.2.1 l.2.2 else 0
    SchurOK true A (mkM 1 4 4) ∧ SwScr true A (mkM 1 4 4) (mkM 2 3 2) (mkM 3 4 2) (mkM 4 4 4) ∧ SwWin A.n 0 2 2 (entry μ A) ∧
      SwNum (doublePar true) (1 / 2 ^ 53) (1 / 2 ^ 969) 0 2 2 (entry μ A) ∧ CplxBlk (entry μ A) 0 ∧ CplxBlk (entry μ A) (0 + 2) := by
  dsimp only
  have e : entry (fun l : Nat × Nat × Nat => if l.1 = 0 then swEx l.2.1 l.2.2 else 0) (mkM 0 4 4) = swEx := by
    funext r k; simp [entry, mkM]
  rw [e]
  refine ⟨⟨rfl, rfl, rfl, mkM_inj _ _ _, fun _ => mkM_inj _ _ _, fun _ => mkM_disj (by decide)⟩,
    ⟨mkM_inj _ _ _, rfl, rfl, mkM_inj _ _ _, rfl, rfl, mkM_inj _ _ _, rfl, rfl, mkM_disj (by decide), mkM_disj (by decide), mkM_disj (by decide),
      fun _ => mkM_disj (by decide), fun _ => mkM_disj (by decide), fun _ => mkM_disj (by decide), mkM_disj (by decide)⟩, ⟨?_, ?_, ?_⟩, ?_, ?_, ?_⟩
  · intro r k h1 h2 h3; omega
  · intro r k h1 h2 h3
    simp only [mkM] at h2; omega
  · intro r k h1 h2 h3 h4
    unfold swEx
    rw [if_neg (by omega), if_neg (by omega), if_pos (by omega)]
  · unfold SwNum
    rw [if_pos ⟨rfl, rfl⟩]
    exact ⟨_, swEx_sep⟩
  · unfold CplxBlk
    rw [Matrix.trace_fin_two, Matrix.det_fin_two]
    norm_num [blkM, mat, swEx]
  · unfold CplxBlk
    rw [Matrix.trace_fin_two, Matrix.det_fin_two]
    norm_num [blkM, mat, swEx]

end TLA
