import Verif.Proofs.SchurMoveB

/-!
# C97: schur_move for real matrices
-/

set_option linter.unusedVariables false

namespace TLA
open Matrix
variable {L : Type} [DecidableEq L] {hp : HhPar}

theorem schurMoveR_run {run : Nat → Nat → Nat → M L ℝ Nat} {A : MatV L} {μ : Store L ℝ} (hA : A.m = A.n) {i k s t b c : Nat} (hn : A.n ≠ 0)
    (e1 : smFirst A i μ = (.ok s, μ)) (e2 : smSize A s μ = (.ok b, μ)) (e3 : smFirst A k μ = (.ok t, μ)) (e4 : smSize A t μ = (.ok c, μ)) :
    schurMoveR run A i k μ = (if s < t then (do
      let r ← smDown run A b (if b = 2 ∧ c = 1 then t - 1 else if b = 1 ∧ c = 2 then t + 1 else t) (A.n + 1) s
      pure (r.1, s, r.2)) else do
      let r ← smUp run A b t (A.n + 1) s
      pure (r.1, s, r.2)) μ := by
  unfold schurMoveR
  rw [if_neg hn]
  show M.bind _ _ _ = _
  unfold M.bind
  rw [e1]
  show M.bind _ _ _ = _
  unfold M.bind
  rw [e2]
  show M.bind _ _ _ = _
  unfold M.bind
  rw [e3]
  show M.bind _ _ _ = _
  unfold M.bind
  rw [e4]

theorem len_le_sum : ∀ {l : List Nat}, (∀ b ∈ l, 1 ≤ b) → l.length ≤ l.sum := by
  intro l
  induction l with
  | nil => simp
  | cons b l ih =>
    intro h
    have := h b (by simp)
    have := ih fun c hc => h c (by simp [hc])
    simp only [List.length_cons, List.sum_cons]; omega

theorem RTo.pos {n e : Nat} {F : Nat → Nat → ℝ} : ∀ {l : List Nat} {j}, RTo n F j l e → ∀ b ∈ l, 1 ≤ b := by
  intro l
  induction l with
  | nil => simp
  | cons c l ih =>
    intro j h b hb
    rcases List.mem_cons.1 hb with rfl | hb
    · rcases h.1 with h | h
      · omega
      · have := h.1; omega
    · exact ih h.2.2 b hb

theorem RSchur.len {n : Nat} {F : Nat → Nat → ℝ} {l : List Nat} (h : RSchur n F 0 l) : l.length ≤ n := by
  have := RSchur_iff.1 h
  rw [this.sum, Nat.zero_add]
  exact len_le_sum this.pos

variable {wantq : Bool} {A Q B V D : MatV L} {ro : RotOps ℝ} {pr : Kernel.SchurPar} {eps small : ℝ}

/-- **C97** Downwards: the block of order `b` is moved behind the blocks `l2` and the block of order `c`, when `ifst` is a row of the first and `ilst` a row of the
last of these blocks.  The routine returns 0, the first row of the block before and the first row after the move; the matrix is again in real Schur form, orthogonally
similar to the original one, with the same diagonal blocks up to similarity, the moved one behind the others; `Q` is updated by the same orthogonal matrix; nothing
else but the local arrays is written.  Every exchange on the way is assumed to meet the hypotheses of C96 (`StepOK`). -/
theorem C97_schur_move_down (hl : HhLaws ℝ hp) (ho : RotLaws ro) (he : 0 < pr.eps) (hm : 0 < pr.safmn2) (hs : 0 < small) (ok : SchurOK wantq A Q)
    (sc : SwScr wantq A Q B V D) (μ : Store L ℝ) {l1 l2 l3 : List Nat} {b c ifst ilst : Nat} (h : RSchur A.n (entry μ A) 0 (l1 ++ b :: (l2 ++ c :: l3)))
    (h1 : InBlkRow l1.sum b ifst) (h2 : InBlkRow (l1.sum + b + l2.sum) c ilst)
    (H : ∀ i ν, DownReach (schurSwapR (hhOps (𝕜 := ℝ) hp) ro pr eps small wantq A Q B V D) A b l1.sum (l1.sum + l2.sum + c) μ i ν → i ≠ l1.sum + l2.sum + c →
      StepOK hp ro eps small wantq A Q B V D i b (blkAt A.n (entry ν A) (i + b)) ν) :
    ∃ ν, schurMoveR (schurSwapR (hhOps (𝕜 := ℝ) hp) ro pr eps small wantq A Q B V D) A ifst ilst μ = (.ok (0, l1.sum, l1.sum + l2.sum + c), ν) ∧
      RSchur A.n (entry ν A) 0 (l1 ++ (l2 ++ c :: b :: l3)) ∧
      MovedDown l1.length (l2.length + 1) (blkPolys (entry μ A) 0 (l1 ++ b :: (l2 ++ c :: l3))) (blkPolys (entry ν A) 0 (l1 ++ (l2 ++ c :: b :: l3))) ∧
      (∃ U : Matrix (Fin A.n) (Fin A.n) ℝ, Uᵀ * U = 1 ∧ mat A.n A.n (entry μ A) = U * mat A.n A.n (entry ν A) * Uᵀ ∧
        (wantq = true → mat A.n A.n (entry ν Q) = mat A.n A.n (entry μ Q) * U)) ∧
      ∀ l, ¬ A.Owns l → ¬ (wantq = true ∧ Q.Owns l) → ¬ scrOwns B V D l → ν l = μ l := by
  have hR : RSchur A.n (entry μ A) 0 (l1 ++ b :: ((l2 ++ [c]) ++ l3)) := by simpa using h
  have hC : RSchur A.n (entry μ A) 0 ((l1 ++ b :: l2) ++ c :: l3) := by simpa using h
  have sC : (l1 ++ b :: l2).sum = l1.sum + b + l2.sum := by simp; omega
  rw [← sC] at h2
  have s2 : l1.sum + (l2 ++ [c]).sum = l1.sum + l2.sum + c := by simp; omega
  have hlen := hR.len
  simp only [List.length_append, List.length_cons] at hlen
  obtain ⟨ν, e, R, ⟨S, fr⟩, mv⟩ := smDown_run hl ho he hm hs ok sc rfl _ H l3 (l2 ++ [c]) (A.n + 1) l1 μ hR (by simp; simp at hlen; omega) s2.symm DownReach.refl
  refine ⟨ν, ?_, by simpa using R, by simpa using mv, S, fr⟩
  rw [schurMoveR_run ok.Am (by omega) (smFirst_run ok.Am h h1) (by rw [smSize_run ok.Am, h.blkAt]) (smFirst_run ok.Am hC h2)
    (by rw [smSize_run ok.Am, hC.blkAt])]
  have hb := h.at.1
  have hc := hC.at.1
  rw [if_pos (by rw [sC]; rcases hb with hb | hb <;> omega)]
  have et : (if b = 2 ∧ c = 1 then (l1 ++ b :: l2).sum - 1 else if b = 1 ∧ c = 2 then (l1 ++ b :: l2).sum + 1 else (l1 ++ b :: l2).sum) = l1.sum + l2.sum + c := by
    rw [sC]
    have hb' : b = 1 ∨ b = 2 := hb.imp_right And.left
    have hc' : c = 1 ∨ c = 2 := hc.imp_right And.left
    split_ifs <;> omega
  rw [et]
  show M.bind _ _ _ = _
  unfold M.bind
  rw [e]
  rfl

/-- **C97** Upwards: the block of order `b` is moved before the block of order `c` and the blocks `l2`, when `ilst` is a row of the first of these and `ifst` a row of
the block that moves. -/
theorem C97_schur_move_up (hl : HhLaws ℝ hp) (ho : RotLaws ro) (he : 0 < pr.eps) (hm : 0 < pr.safmn2) (hs : 0 < small) (ok : SchurOK wantq A Q)
    (sc : SwScr wantq A Q B V D) (μ : Store L ℝ) {l1 l2 l3 : List Nat} {b c ifst ilst : Nat} (h : RSchur A.n (entry μ A) 0 (l1 ++ (c :: l2 ++ b :: l3)))
    (h1 : InBlkRow (l1.sum + c + l2.sum) b ifst) (h2 : InBlkRow l1.sum c ilst)
    (H : ∀ i ν, UpReach (schurSwapR (hhOps (𝕜 := ℝ) hp) ro pr eps small wantq A Q B V D) A b (l1.sum + c + l2.sum) l1.sum μ i ν → i ≠ l1.sum →
      StepOK hp ro eps small wantq A Q B V D (i - blkAbove (entry ν A) i) (blkAbove (entry ν A) i) b ν) :
    ∃ ν, schurMoveR (schurSwapR (hhOps (𝕜 := ℝ) hp) ro pr eps small wantq A Q B V D) A ifst ilst μ = (.ok (0, l1.sum + c + l2.sum, l1.sum), ν) ∧
      RSchur A.n (entry ν A) 0 (l1 ++ b :: (c :: l2 ++ l3)) ∧
      MovedDown l1.length (l2.length + 1) (blkPolys (entry ν A) 0 (l1 ++ b :: (c :: l2 ++ l3))) (blkPolys (entry μ A) 0 (l1 ++ (c :: l2 ++ b :: l3))) ∧
      (∃ U : Matrix (Fin A.n) (Fin A.n) ℝ, Uᵀ * U = 1 ∧ mat A.n A.n (entry μ A) = U * mat A.n A.n (entry ν A) * Uᵀ ∧
        (wantq = true → mat A.n A.n (entry ν Q) = mat A.n A.n (entry μ Q) * U)) ∧
      ∀ l, ¬ A.Owns l → ¬ (wantq = true ∧ Q.Owns l) → ¬ scrOwns B V D l → ν l = μ l := by
  have hB : RSchur A.n (entry μ A) 0 ((l1 ++ c :: l2) ++ b :: l3) := by simpa using h
  have hC : RSchur A.n (entry μ A) 0 (l1 ++ c :: (l2 ++ b :: l3)) := by simpa using h
  have sB : (l1 ++ c :: l2).sum = l1.sum + c + l2.sum := by simp; omega
  have s2 : l1.sum + (c :: l2).sum = l1.sum + c + l2.sum := by simp; omega
  rw [← sB] at h1
  have hlen := h.len
  simp only [List.length_append, List.length_cons] at hlen
  obtain ⟨ν, e, R, ⟨S, fr⟩, mv⟩ := smUp_run hl ho he hm hs ok sc rfl l1 H (A.n + 1) (c :: l2) l3 μ h (by simp; omega) (by rw [s2]; exact UpReach.refl)
  refine ⟨ν, ?_, R, by simpa using mv, S, fr⟩
  rw [schurMoveR_run ok.Am (by omega) (smFirst_run ok.Am hB h1) (by rw [smSize_run ok.Am, hB.blkAt]) (smFirst_run ok.Am hC h2)
    (by rw [smSize_run ok.Am, hC.blkAt])]
  rw [if_neg (by rw [sB]; omega), sB]
  rw [s2] at e
  show M.bind _ _ _ = _
  unfold M.bind
  rw [e]
  rfl

/-- **C97** With `ifst` and `ilst` in the same block nothing is moved. -/
theorem C97_schur_move_same (ok : SchurOK wantq A Q) (run : Nat → Nat → Nat → M L ℝ Nat) (μ : Store L ℝ) {l1 l3 : List Nat} {b ifst ilst : Nat}
    (h : RSchur A.n (entry μ A) 0 (l1 ++ b :: l3)) (h1 : InBlkRow l1.sum b ifst) (h2 : InBlkRow l1.sum b ilst) :
    schurMoveR run A ifst ilst μ = (.ok (0, l1.sum, l1.sum), μ) := by
  have hlen := h.len
  simp only [List.length_append, List.length_cons] at hlen
  rw [schurMoveR_run ok.Am (by omega) (smFirst_run ok.Am h h1) (by rw [smSize_run ok.Am, h.blkAt]) (smFirst_run ok.Am h h2)
    (by rw [smSize_run ok.Am, h.blkAt]), if_neg (by omega)]
  unfold smUp
  rw [if_neg (by simp)]
  rfl

/-- **C97** When an exchange on the way down fails, the routine returns 1 and the current position of the block as `ilst`. -/
theorem C97_schur_move_fails (ok : SchurOK wantq A Q) (run : Nat → Nat → Nat → M L ℝ Nat) (μ : Store L ℝ) {l1 l2 l3 : List Nat} {b c d ifst ilst : Nat}
    (h : RSchur A.n (entry μ A) 0 (l1 ++ b :: (l2 ++ c :: l3))) (hd : (l2 ++ [c]).head? = some d)
    (h1 : InBlkRow l1.sum b ifst) (h2 : InBlkRow (l1.sum + b + l2.sum) c ilst) {x : Nat} {ν : Store L ℝ} (hx : x ≠ 0) (hf : run l1.sum b d μ = (.ok x, ν)) :
    schurMoveR run A ifst ilst μ = (.ok (1, l1.sum, l1.sum), ν) := by
  have hC : RSchur A.n (entry μ A) 0 ((l1 ++ b :: l2) ++ c :: l3) := by simpa using h
  have sC : (l1 ++ b :: l2).sum = l1.sum + b + l2.sum := by simp; omega
  rw [← sC] at h2
  have hlen := h.len
  simp only [List.length_append, List.length_cons] at hlen
  rw [schurMoveR_run ok.Am (by omega) (smFirst_run ok.Am h h1) (by rw [smSize_run ok.Am, h.blkAt]) (smFirst_run ok.Am hC h2)
    (by rw [smSize_run ok.Am, hC.blkAt])]
  have hb' : b = 1 ∨ b = 2 := h.at.1.imp_right And.left
  have hc' : c = 1 ∨ c = 2 := hC.at.1.imp_right And.left
  rw [if_pos (by rw [sC]; omega)]
  have hD : blkAt A.n (entry μ A) (l1.sum + b) = d := by
    rcases l2 with _ | ⟨d', l2⟩
    · simp at hd
      subst hd
      have : RSchur A.n (entry μ A) 0 ((l1 ++ [b]) ++ c :: l3) := by simpa using h
      simpa using this.blkAt
    · simp at hd
      subst hd
      have : RSchur A.n (entry μ A) 0 ((l1 ++ [b]) ++ d' :: (l2 ++ c :: l3)) := by simpa using h
      simpa using this.blkAt
  show M.bind _ _ _ = _
  unfold M.bind
  have : smDown run A b (if b = 2 ∧ c = 1 then (l1 ++ b :: l2).sum - 1 else if b = 1 ∧ c = 2 then (l1 ++ b :: l2).sum + 1 else (l1 ++ b :: l2).sum) (A.n + 1)
      l1.sum μ = (.ok (1, l1.sum), ν) := by
    unfold smDown
    rw [if_pos (by rw [sC]; split_ifs <;> omega)]
    show M.bind _ _ _ = _
    unfold M.bind
    rw [smSize_run ok.Am, hD]
    show M.bind _ _ _ = _
    unfold M.bind
    rw [hf]
    show (if x ≠ 0 then _ else _ : M L ℝ (Nat × Nat)) ν = _
    rw [if_pos hx]
    rfl
  rw [this]
  rfl

/-- A diagonal block `1` before a rotation. -/
noncomputable def smEx : Nat → Nat → ℝ := fun r k =>
  if r = 0 ∧ k = 0 then 1 else if r = 0 ∨ k = 0 then 0 else if r = k then 3 / 5 else if r < k then 4 / 5 else -4 / 5

theorem smEx_schur : RSchur 3 smEx 0 ([] ++ 1 :: ([] ++ 2 :: [])) := by
  refine ⟨.inl rfl, fun r k h1 h2 h3 h4 => ?_, .inr ⟨rfl, ?_, ?_⟩, fun r k h1 h2 h3 h4 => by omega, rfl⟩
  · unfold smEx
    rw [if_neg (by omega), if_pos (by omega)]
  · norm_num [smEx]
  · norm_num [smEx]

/-- The matrix is orthogonal, so that the exchanged block is a rotation: the standardization does not fail. -/
theorem smEx_block {G : Nat → Nat → ℝ} (ex : SwExch 3 0 1 2 smEx G) {U : Matrix (Fin 3) (Fin 3) ℝ} (hU : Uᵀ * U = 1)
    (h : mat 3 3 smEx = U * mat 3 3 G * Uᵀ) : G 0 0 = G 1 1 := by
  have hU' := mul_eq_one_comm.1 hU
  have o : mat 3 3 smEx * (mat 3 3 smEx)ᵀ = 1 := by
    ext i k
    fin_cases i <;> fin_cases k <;> simp [Matrix.mul_apply, Fin.sum_univ_three, mat, smEx] <;> norm_num
  have hG : mat 3 3 G = Uᵀ * mat 3 3 smEx * U := by
    rw [h]
    rw [show Uᵀ * (U * mat 3 3 G * Uᵀ) * U = (Uᵀ * U) * mat 3 3 G * (Uᵀ * U) by simp only [Matrix.mul_assoc], hU, Matrix.one_mul, Matrix.mul_one]
  have g1 : mat 3 3 G * (mat 3 3 G)ᵀ = 1 := by
    rw [hG]
    simp only [Matrix.transpose_mul, Matrix.transpose_transpose]
    rw [show Uᵀ * mat 3 3 smEx * U * (Uᵀ * ((mat 3 3 smEx)ᵀ * U)) = Uᵀ * (mat 3 3 smEx * (U * Uᵀ) * (mat 3 3 smEx)ᵀ) * U by simp only [Matrix.mul_assoc], hU',
      Matrix.mul_one, o, Matrix.mul_one, hU]
  have g2 := mul_eq_one_comm.1 g1
  have z0 := ex.win.zm 2 0 (by omega) (by omega) (by omega) (by omega)
  have z1 := ex.win.zm 2 1 (by omega) (by omega) (by omega) (by omega)
  have q : ∀ i k : Fin 3, _ := fun i k => congrFun (congrFun g1 i) k
  have q' : ∀ i k : Fin 3, _ := fun i k => congrFun (congrFun g2 i) k
  have a1 := q 2 2
  have a2 := q' 2 2
  have b1 := q' 0 0
  have b2 := q' 1 1
  simp [Matrix.mul_apply, Fin.sum_univ_three, mat, z0, z1] at a1 a2 b1 b2
  have det : G 0 0 * G 1 1 - G 0 1 * G 1 0 = 1 := by
    have c := ex.c1
    have d1 : (blkM G 0 2).det = (blkM smEx (0 + 1) 2).det := by
      rw [Matrix.det_eq_sign_charpoly_coeff, c, ← Matrix.det_eq_sign_charpoly_coeff]
    rw [Matrix.det_fin_two, Matrix.det_fin_two] at d1
    have : (blkM smEx (0 + 1) 2) 0 0 * (blkM smEx (0 + 1) 2) 1 1 - (blkM smEx (0 + 1) 2) 0 1 * (blkM smEx (0 + 1) 2) 1 0 = 1 := by
      norm_num [blkM, mat, smEx]
    rw [this] at d1
    exact d1
  nlinarith [sq_nonneg (G 0 0 - G 1 1), sq_nonneg (G 0 1 + G 1 0)]

/-- The hypotheses are met: the first block of this matrix of order three is moved to the end. -/
example : let A := mkM 0 3 3
    let μ : Store (Nat × Nat × Nat) ℝ := fun l => if l.1 = 0 then smEx l.2.1 l.2.2 else 0
    ∀ {ro : RotOps ℝ} (ho : RotLaws ro) (hl : HhLaws ℝ (doublePar true)) (pr : Kernel.SchurPar),
    RSchur A.n (entry μ A) 0 ([] ++ 1 :: ([] ++ 2 :: [])) ∧
    ∀ i ν, DownReach (schurSwapR (hhOps (𝕜 := ℝ) (doublePar true)) ro pr (1 / 2 ^ 53) (1 / 2 ^ 969) true A (mkM 1 3 3) (mkM 2 3 2) (mkM 3 4 2) (mkM 4 4 4)) A 1 0 2 μ i ν →
      i ≠ 2 → StepOK (doublePar true) ro (1 / 2 ^ 53) (1 / 2 ^ 969) true A (mkM 1 3 3) (mkM 2 3 2) (mkM 3 4 2) (mkM 4 4 4) i 1 (blkAt A.n (entry ν A) (i + 1)) ν := by
  dsimp only
  intro ro ho hl pr
  have e : entry (fun l : Nat × Nat × Nat => if l.1 = 0 then smEx l.2.1 l.2.2 else 0) (mkM 0 3 3) = smEx := by
    funext r k; simp [entry, mkM]
  refine ⟨by rw [e]; exact smEx_schur, fun i ν hr hi => ?_⟩
  have b2 : blkAt 3 smEx 1 = 2 := by
    unfold blkAt
    rw [if_pos ⟨by omega, by norm_num [smEx]⟩]
  have hcase : (i = 0 ∧ ν = fun l : Nat × Nat × Nat => if l.1 = 0 then smEx l.2.1 l.2.2 else 0) ∨ i = 2 := by
    clear hi
    induction hr with
    | refl => exact .inl ⟨rfl, rfl⟩
    | @step i' ν' ν'' hd hi' _ ih =>
      right
      rcases ih with ⟨rfl, rfl⟩ | h
      · rw [e]
        show 0 + blkAt 3 smEx 1 = 2
        rw [b2]
      · exact absurd h hi'
  obtain ⟨rfl, rfl⟩ := hcase.resolve_right hi
  have big : (1 : ℝ) ≤ (doublePar true).tbig / 4 := by
    unfold doublePar
    have : (2 : ℝ) ^ 2 ≤ 2 ^ 486 := pow_le_pow_right₀ (by norm_num) (by norm_num)
    rw [le_div_iff₀ (by norm_num)]
    exact le_trans (by norm_num) this
  have bd : ∀ r k, |smEx r k| ≤ 1 := by
    intro r k
    unfold smEx
    split_ifs <;> rw [abs_le] <;> constructor <;> norm_num
  have nm : SwNum (doublePar true) (1 / 2 ^ 53) (1 / 2 ^ 969) 0 1 2 smEx := by
    unfold SwNum
    rw [if_neg (by omega)]
    exact fun r k _ _ _ _ => (bd r k).trans big
  have w := smEx_schur.win (p := []) (q := [])
  have eb : blkAt (mkM 0 3 3).n smEx (0 + 1) = 2 := b2
  unfold StepOK
  rw [e, eb]
  refine ⟨nm, fun ν1 x h1 => ⟨fun _ => .inl ?_, fun h => by omega⟩⟩
  obtain ⟨ν2, e2, ex, ⟨U, u1, u2, -⟩, -⟩ := C96_exchange (A := mkM 0 3 3) (Q := mkM 1 3 3) (B := mkM 2 3 2) (V := mkM 3 4 2) (D := mkM 4 4 4) hl ho
    (eps := 1 / 2 ^ 53) (small := 1 / 2 ^ 969) (by positivity) (wantq := true)
    ⟨rfl, rfl, rfl, mkM_inj _ _ _, fun _ => mkM_inj _ _ _, fun _ => mkM_disj (by decide)⟩
    ⟨mkM_inj _ _ _, rfl, rfl, mkM_inj _ _ _, rfl, rfl, mkM_inj _ _ _, rfl, rfl, mkM_disj (by decide), mkM_disj (by decide), mkM_disj (by decide),
      fun _ => mkM_disj (by decide), fun _ => mkM_disj (by decide), fun _ => mkM_disj (by decide), mkM_disj (by decide)⟩
    (fun l : Nat × Nat × Nat => if l.1 = 0 then smEx l.2.1 l.2.2 else 0) (j0 := 0) (n1 := 1) (n2 := 2) (.inl rfl) (.inr rfl) (le_refl 3)
    (by rw [e]; exact w.1) (by rw [e]; exact nm)
  rw [h1] at e2
  obtain ⟨-, rfl⟩ := Prod.mk.injEq .. ▸ e2
  rw [e] at ex u2
  exact smEx_block ex u1 u2

end TLA
