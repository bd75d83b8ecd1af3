import Verif.Props.BlockRefl
import Verif.Props.Region
import Verif.Proofs.TikAlg
set_option linter.unusedTactic false
set_option linter.unusedVariables false

/-! # C70: regularised least squares -/

namespace TLA
open Finset Matrix
variable {L 𝕜 : Type} [DecidableEq L] [RCLike 𝕜] [DecidableEq 𝕜] {p : HhPar}

theorem entry_congr {A : MatV L} {T : Type} {μ ν : Store L T} (h : ∀ i j, i < A.m → j < A.n → ν (A.cell i j) = μ (A.cell i j)) {m n : Nat}
    (hm : m ≤ A.m) (hn : n ≤ A.n) : mat m n (entry ν A) = mat m n (entry μ A) :=
  mat_ext_iff.2 fun i j hi hj => h i j (by omega) (by omega)

set_option maxHeartbeats 1000000 in
/-- **C70** tik_qr solves the Tikhonov problem: on return the first `n` rows of `b` hold `X` with
`(A^H A + lambda² I) X = A^H B`, for every shape with at least as many rows as columns, provided `lambda ≠ 0` or `A` has full
column rank (and no column norm exceeds the range of the unscaled accumulation). -/
theorem C70_tik_qr (hl : HhLaws 𝕜 p) (hreal : (hhOps (𝕜 := 𝕜) p).isReal = true → ∀ z : 𝕜, star z = z)
    (nb : Nat) (A b : MatV L) (tau1 : VecV L) (Raug : MatV L) (tau2 : VecV L) (baug : MatV L) (work : VecV L)
    (ok : TikOK nb A b tau1 Raug tau2 baug work) (lam : ℝ) (μ : Store L 𝕜)
    (hrank : lam ≠ 0 ∨ Function.Injective (mat A.m A.n (entry μ A)).mulVec)
    (hb : ∀ c, c < A.n → ∑ r ∈ range A.m, ‖entry μ A r c‖ ^ 2 + lam ^ 2 ≤ p.tbig ^ 2) :
    ∃ ν, tikQr (hhOps p) nb A b (lam : 𝕜) tau1 Raug tau2 baug work μ = (.ok (), ν) ∧
      ((mat A.m A.n (entry μ A))ᴴ * mat A.m A.n (entry μ A) + ((lam : 𝕜) ^ 2) • 1) * mat A.n b.n (entry ν b) =
        (mat A.m A.n (entry μ A))ᴴ * mat A.m b.n (entry μ b) ∧
      ∀ l, ¬ A.Owns l → ¬ b.Owns l → ¬ tau1.Owns l → ¬ Raug.Owns l → ¬ tau2.Owns l → ¬ baug.Owns l → ¬ work.Owns l →
        ν l = μ l := by
  obtain ⟨hmn, hbm, hnb, t1n, t2n, Rm, Rn, gm, gn, w1, w2, w3, w4, Ainj, binj, t1inj, Rinj, t2inj, ginj, winj, dAb, dAt, dAw, dtw, dtb, dbw,
    dAR, dbR, dRt, dRw, duw, dbu, dbg, dRg, dug, dgw⟩ := ok
  have hmin1 : min A.m A.n = A.n := by omega
  have hmin2 : min Raug.m Raug.n = A.n := by omega
  have osub : ∀ {t : VecV L} {k : Nat} {l : L}, k ≤ t.n → ¬ t.Owns l → ¬ (t.sub 0 k).Owns l := by
    intro t k l hk h ho
    obtain ⟨i, hi, e⟩ := ho
    exact h ⟨0 + i, by simp [VecV.sub] at hi; omega, e⟩
  suffices key : wp (tikQr (hhOps p) nb A b (lam : 𝕜) tau1 Raug tau2 baug work) μ (fun _ ν =>
      ((mat A.m A.n (entry μ A))ᴴ * mat A.m A.n (entry μ A) + ((lam : 𝕜) ^ 2) • 1) * mat A.n b.n (entry ν b) =
        (mat A.m A.n (entry μ A))ᴴ * mat A.m b.n (entry μ b) ∧
      ∀ l, ¬ A.Owns l → ¬ b.Owns l → ¬ tau1.Owns l → ¬ Raug.Owns l → ¬ tau2.Owns l → ¬ baug.Owns l → ¬ work.Owns l → ν l = μ l) by
    obtain ⟨ν, h1, h2⟩ := wp_unit key
    exact ⟨ν, h1, h2⟩
  unfold tikQr
  simp only [wp_bind]
  -- geqrf(A)
  obtain ⟨μ1, x1, ⟨hA, hQ1⟩, -, f1⟩ := C46_geqrf hl hreal A tau1 work ⟨Ainj, t1inj, winj, dAt, dAw, dtw⟩ (by omega) nb hnb w1 μ
    (fun c hc => le_trans (by have := sq_nonneg lam; linarith) (hb c hc))
  refine wp_of_eq x1 ?_
  rw [hmin1] at hA hQ1 f1
  -- unmqr(b)
  obtain ⟨μ2, x2, hB, f2⟩ := C47_unmq (hhOps (𝕜 := 𝕜) p).isReal nb .Left .ConjTrans .Forward .Columnwise A tau1 b work
    ⟨.inl rfl, binj, winj, dAb, dAw, dtb, dtw, dbw, by simp [hbm, t1n], by simp [hbm, t1n, hmn], hnb, by rw [t1n]; exact w2⟩ (.inr (.inl rfl)) hreal μ1
  refine wp_of_eq x2 ?_
  rw [if_pos rfl] at hB
  rw [t1n] at hB
  -- the augmented matrix
  obtain ⟨μ3, x3, h3, f3⟩ := C24_laset .General (.inr (.inr rfl)) (0 : 𝕜) 0 Raug Rinj μ2
  refine wp_of_eq x3 ?_
  refine wp_slice (by omega) (by omega) (by omega) (by omega) ?_
  refine wp_slice (by omega) (by omega) (by omega) (by omega) ?_
  obtain ⟨μ4, x4, h4, f4⟩ := C24_lacpy .Upper (.inl rfl) (A.sub 0 A.n 0 A.n) Raug (by simp [MatV.sub]; omega) (by simp [MatV.sub]; omega) Rinj
    (dAR.sub_left (by omega) (by omega)) μ3
  refine wp_of_eq x4 ?_
  obtain ⟨μ5, x5, h5, f5⟩ := C24_laset .General (.inr (.inr rfl)) (0 : 𝕜) (lam : 𝕜) (Raug.sub A.n (A.n + A.n) 0 A.n)
    (Rinj.sub (by omega) (by omega)) μ4
  refine wp_of_eq x5 ?_
  -- geqrf(Raug)
  have hG : mat (A.n + A.n) A.n (entry μ5 Raug) = mat (A.n + A.n) A.n (tikG A.n (lam : 𝕜) (entry μ1 A)) := by
    rw [mat_ext_iff]
    intro i j hi hj
    unfold tikG
    by_cases hin : i < A.n
    · rw [if_pos hin]
      have q1 : entry μ5 Raug i j = entry μ4 Raug i j := Only.out (f5 : Only _ _ _) Rinj (by omega) (by omega) (by omega) (by omega) (.inl hin)
      have q2 : entry μ3 (A.sub 0 A.n 0 A.n) i j = entry μ1 A i j := by
        simp only [entry, MatV.sub, Nat.zero_add]
        rw [f3 _ (dAR i j (by omega) (by omega)), f2 _ (dAb i j (by omega) (by omega)) (dAw i j (by omega) (by omega))]
      rw [q1, h4 i j (by omega) (by omega), q2]
      by_cases hij : i ≤ j
      · rw [triU_above hij, if_pos ⟨by simpa [MatV.sub] using hin, by simpa [MatV.sub] using hj, by simpa [inTri] using hij⟩]
      · rw [triU_below (by omega), if_neg (by simp only [inTri]; omega), h3 i j (by omega) (by omega)]
        unfold lasetVal
        rw [if_neg (by omega)]
        simp [inTri]
    · rw [if_neg hin]
      have q1 := h5 (i - A.n) j (by simp [MatV.sub]; omega) (by simp [MatV.sub]; omega)
      simp only [entry, MatV.sub, Nat.zero_add] at q1
      rw [show A.n + (i - A.n) = i by omega] at q1
      rw [entry, q1]
      unfold lasetVal
      by_cases e : i - A.n = j
      · rw [if_pos e, if_pos e]
      · rw [if_neg e, if_neg e]; simp [inTri]
  obtain ⟨μ6, x6, ⟨hR, hQ2⟩, -, f6⟩ := C46_geqrf hl hreal Raug tau2 work ⟨Rinj, t2inj, winj, dRt, dRw, duw⟩ (by omega) nb hnb w3 μ5
    (fun c hc => by
      rw [Rm]
      rw [Rn] at hc
      have e : ∀ r ∈ range (A.n + A.n), ‖entry μ5 Raug r c‖ ^ 2 = ‖tikG A.n (lam : 𝕜) (entry μ1 A) r c‖ ^ 2 := fun r hr => by
        rw [mat_ext_iff.1 hG r c (mem_range.1 hr) hc]
      rw [Finset.sum_congr rfl e, tikG_colsq hmn hA hQ1 hc]
      exact hb c hc)
  refine wp_of_eq x6 ?_
  rw [hmin2] at hR hQ2 f6
  -- the right hand side
  refine wp_slice (by omega) (by omega) (by omega) (by omega) ?_
  refine wp_slice (by omega) (by omega) (by omega) (by omega) ?_
  obtain ⟨μ7, x7, h7, f7⟩ := C24_lacpy .General (.inr (.inr rfl)) (b.sub 0 A.n 0 b.n) baug (by simp [MatV.sub]; omega) (by simp [MatV.sub]; omega) ginj
    (dbg.sub_left (by omega) (by omega)) μ6
  refine wp_of_eq x7 ?_
  obtain ⟨μ8, x8, h8, f8⟩ := C24_laset .General (.inr (.inr rfl)) (0 : 𝕜) 0 (baug.sub A.n (A.n + A.n) 0 b.n) (ginj.sub (by omega) (by omega)) μ7
  refine wp_of_eq x8 ?_
  have hC : mat (A.n + A.n) b.n (entry μ8 baug) = mat (A.n + A.n) b.n (fun i j => if i < A.n then entry μ2 b i j else 0) := by
    rw [mat_ext_iff]
    intro i j hi hj
    beta_reduce
    by_cases hin : i < A.n
    · rw [if_pos hin]
      have q1 : entry μ8 baug i j = entry μ7 baug i j := Only.out (f8 : Only _ _ _) ginj (by omega) (by omega) (by omega) (by omega) (.inl hin)
      rw [q1, h7 i j (by omega) (by omega), if_pos ⟨by simpa [MatV.sub] using hin, by simpa [MatV.sub] using hj, by simp [inTri]⟩]
      simp only [entry, MatV.sub, Nat.zero_add]
      have hi' : i < b.m := by omega
      rw [f6 _ (dbR i j hi' hj) (osub (by omega) (dbu i j hi' hj)) (dbw i j hi' hj),
        f5 _ (fun ho => dbR i j hi' hj (ho.sub (by omega) (by omega))), f4 _ (dbR i j hi' hj), f3 _ (dbR i j hi' hj)]
    · rw [if_neg hin]
      have q1 := h8 (i - A.n) j (by simp [MatV.sub]; omega) (by simp [MatV.sub]; omega)
      simp only [entry, MatV.sub, Nat.zero_add] at q1
      rw [show A.n + (i - A.n) = i by omega] at q1
      rw [entry, q1]
      unfold lasetVal
      by_cases e : i - A.n = j
      · rw [if_pos e]
      · rw [if_neg e]; simp [inTri]
  obtain ⟨μ9, x9, hD, f9⟩ := C47_unmq (hhOps (𝕜 := 𝕜) p).isReal nb .Left .ConjTrans .Forward .Columnwise Raug tau2 baug work
    ⟨.inl rfl, ginj, winj, dRg, dRw, dug, duw, dgw, by simp [Rm, Rn, gm, t2n], by simp [gm, t2n], hnb, by rw [t2n]; exact w4⟩ (.inr (.inl rfl)) hreal μ8
  refine wp_of_eq x9 ?_
  rw [if_pos rfl, t2n] at hD
  -- the factor is still in Raug
  have g89 : ∀ i j, i < Raug.m → j < Raug.n → μ8 (Raug.cell i j) = μ6 (Raug.cell i j) := fun i j hi hj => by
    rw [f8 _ (fun ho => dRg i j hi hj (ho.sub (by omega) (by omega))), f7 _ (dRg i j hi hj)]
  have g9 : ∀ i j, i < Raug.m → j < Raug.n → μ9 (Raug.cell i j) = μ6 (Raug.cell i j) := fun i j hi hj => by
    rw [f9 _ (dRg i j hi hj) (dRw i j hi hj), g89 i j hi hj]
  have hu8 : ∀ i, i < A.n → ventry μ8 tau2 i = ventry μ6 tau2 i := fun i hi => by
    simp only [ventry]
    rw [f8 _ (fun ho => dug i (by omega) (ho.sub (by omega) (by omega))), f7 _ (dug i (by omega))]
  have hR' : mat (A.n + A.n) A.n (entry μ5 Raug) = houseQ .Forward .Columnwise (A.n + A.n) A.n (entry μ6 Raug) (ventry μ6 tau2) *
      mat (A.n + A.n) A.n (triF .Upper .NonUnit (entry μ6 Raug)) := by
    have : ∀ q c, Raug.m = q → Raug.n = c → mat q c (entry μ5 Raug) = houseQ .Forward .Columnwise q A.n (entry μ6 Raug) (ventry μ6 tau2) *
      mat q c (triF .Upper .NonUnit (entry μ6 Raug)) := by rintro _ _ rfl rfl; exact hR
    exact this _ _ Rm Rn
  have hQ2' : (houseQ .Forward .Columnwise (A.n + A.n) A.n (entry μ6 Raug) (ventry μ6 tau2))ᴴ *
      houseQ .Forward .Columnwise (A.n + A.n) A.n (entry μ6 Raug) (ventry μ6 tau2) = 1 := by
    have : ∀ q, Raug.m = q → (houseQ .Forward .Columnwise q A.n (entry μ6 Raug) (ventry μ6 tau2))ᴴ *
      houseQ .Forward .Columnwise q A.n (entry μ6 Raug) (ventry μ6 tau2) = 1 := by rintro _ rfl; exact hQ2
    exact this _ Rm
  have hD' : mat (A.n + A.n) b.n (entry μ9 baug) = (houseQ .Forward .Columnwise (A.n + A.n) A.n (entry μ6 Raug) (ventry μ6 tau2))ᴴ *
      mat (A.n + A.n) b.n (entry μ8 baug) := by
    have : ∀ q c, baug.m = q → baug.n = c → mat q c (entry μ9 baug) = (houseQ .Forward .Columnwise q A.n (entry μ8 Raug) (ventry μ8 tau2))ᴴ *
      mat q c (entry μ8 baug) := by rintro _ _ rfl rfl; exact hD
    rw [this _ _ gm gn, houseQ_congr_cols (V := entry μ8 Raug) (V' := entry μ6 Raug) (fun r i hr hi => g89 r i (by omega) (by omega)) hu8]
  have hB' : mat A.m b.n (entry μ2 b) = (houseQ .Forward .Columnwise A.m A.n (entry μ1 A) (ventry μ1 tau1))ᴴ *
      mat A.m b.n (entry μ b) := by
    have : ∀ q, b.m = q → mat q b.n (entry μ2 b) = (houseQ .Forward .Columnwise q A.n (entry μ1 A) (ventry μ1 tau1))ᴴ *
      mat q b.n (entry μ1 b) := by rintro _ rfl; exact hB
    rw [this _ hbm]
    congr 1
    refine entry_congr (A := b) (fun i j hi hj => f1 _ (fun ho => ?_) (osub (by omega) fun ho => ?_) (dbw i j hi hj)) (by omega) (by omega)
    · obtain ⟨i', j', hi', hj', e⟩ := ho
      exact dAb i' j' hi' hj' (e ▸ ⟨i, j, hi, hj, rfl⟩)
    · obtain ⟨i', hi', e⟩ := ho
      exact dtb i' hi' (e ▸ ⟨i, j, hi, hj, rfl⟩)
  -- triangular solve
  have hgram := qr_gram (by omega) hR' hQ2'
  rw [hG, tikG_gram, qr_gram hmn hA hQ1, show star (lam : 𝕜) * lam = (lam : 𝕜) ^ 2 by simp [pow_two]] at hgram
  refine wp_slice (by omega) (by omega) (by omega) (by omega) ?_
  refine wp_slice (by omega) (by omega) (by omega) (by omega) ?_
  refine wp_conseq (wp_trsmL_m (m := A.n) (n := b.n) (by simp [MatV.sub]) (by simp [MatV.sub])
    ⟨.inl rfl, .inl rfl, by simp, by simp [MatV.sub], by simp [MatV.sub], ginj.sub (by omega) (by omega),
      (dRg.sub_left (by omega) (by omega)).sub_right (by omega) (by omega)⟩ (fun _ i hi => ?_)) ?_
  · simp only [entry, MatV.sub, Nat.zero_add]
    rw [g9 i i (by omega) (by omega)]
    exact triU_diag_ne (tik_posDef hrank) hgram hi
  rintro _ μ10 ⟨f10, h10⟩
  obtain ⟨ν, x11, h11, f11⟩ := C24_lacpy .General (.inr (.inr rfl)) (baug.sub 0 A.n 0 b.n) b (by simp [MatV.sub]; omega) (by simp [MatV.sub]) binj
    (dbg.symm.sub_left (by omega) (by omega)) μ10
  refine wp_of_eq x11 ⟨?_, fun l hA hb h1 hR h2 hg hw => ?_⟩
  · refine tik_normal hmn hA hQ1 hB' hG hR' hQ2' hC hD' ?_
    have e1 : mat A.n b.n (entry ν b) = mat A.n b.n (entry μ10 (baug.sub 0 A.n 0 b.n)) := by
      rw [mat_ext_iff]
      intro i j hi hj
      rw [h11 i j (by omega) hj, if_pos ⟨by simpa [MatV.sub] using hi, by simpa [MatV.sub] using hj, by simp [inTri]⟩]
    have e2 : mat A.n A.n (triF .Upper .NonUnit (entry μ6 Raug)) = mat A.n A.n (opF .NoTrans (triF .Upper .NonUnit (entry μ9 (Raug.sub 0 A.n 0 A.n)))) := by
      have q : ∀ i j, i < A.n → j < A.n → entry μ6 Raug i j = entry μ9 (Raug.sub 0 A.n 0 A.n) i j := fun i j hi hj => by
        simp only [entry, MatV.sub, Nat.zero_add]
        exact (g9 i j (by omega) (by omega)).symm
      exact mat_triF_congr (fun _ i hi => q i i hi hi) (fun i j hi hj _ _ => q i j hi hj)
    rw [e1, e2, h10, one_smul, mat_ext_iff]
    intro i j _ _
    simp only [entry, MatV.sub, Nat.zero_add]
  · rw [f11 l hb, f10 l (fun ho => hg (ho.sub (by omega) (by omega))), f9 l hg hw, f8 l (fun ho => hg (ho.sub (by omega) (by omega))), f7 l hg,
      f6 l hR (osub (by omega) h2) hw, f5 l (fun ho => hR (ho.sub (by omega) (by omega))), f4 l hR, f3 l hR, f2 l hb hw,
      f1 l hA (osub (by omega) h1) hw]

/-- **C70** Column by column the returned `x` is the unique minimiser of `‖A y - b‖² + lambda² ‖y‖²`. -/
theorem C70_tik_qr_min (hl : HhLaws 𝕜 p) (hreal : (hhOps (𝕜 := 𝕜) p).isReal = true → ∀ z : 𝕜, star z = z)
    (nb : Nat) (A b : MatV L) (tau1 : VecV L) (Raug : MatV L) (tau2 : VecV L) (baug : MatV L) (work : VecV L)
    (ok : TikOK nb A b tau1 Raug tau2 baug work) (lam : ℝ) (μ : Store L 𝕜)
    (hrank : lam ≠ 0 ∨ Function.Injective (mat A.m A.n (entry μ A)).mulVec)
    (hb : ∀ c, c < A.n → ∑ r ∈ range A.m, ‖entry μ A r c‖ ^ 2 + lam ^ 2 ≤ p.tbig ^ 2) :
    ∃ ν, tikQr (hhOps p) nb A b (lam : 𝕜) tau1 Raug tau2 baug work μ = (.ok (), ν) ∧
      ∀ j, j < b.n → ∀ y, y ≠ vec A.n (fun i => entry ν b i j) →
        tikhonov (mat A.m A.n (entry μ A)) (vec A.m fun i => entry μ b i j) lam (vec A.n fun i => entry ν b i j) <
        tikhonov (mat A.m A.n (entry μ A)) (vec A.m fun i => entry μ b i j) lam y := by
  obtain ⟨ν, e, h, -⟩ := C70_tik_qr hl hreal nb A b tau1 Raug tau2 baug work ok lam μ hrank hb
  refine ⟨ν, e, fun j hj y hy => ?_⟩
  rw [tikhonov_add (x := vec A.n fun i => entry ν b i j) (y := y)]
  · have hd : y - vec A.n (fun i => entry ν b i j) ≠ 0 := sub_ne_zero.2 hy
    generalize y - vec A.n (fun i => entry ν b i j) = d at hd
    obtain ⟨c, hc⟩ := Function.ne_iff.1 hd
    have p1 : 0 ≤ ∑ r, ‖(mat A.m A.n (entry μ A)).mulVec d r‖ ^ 2 := Finset.sum_nonneg fun _ _ => sq_nonneg _
    have p2 : 0 < ∑ c, ‖d c‖ ^ 2 :=
      Finset.sum_pos' (fun _ _ => sq_nonneg _) ⟨c, mem_univ _, by have := norm_pos_iff.2 hc; positivity⟩
    rcases hrank with hl | hi
    · have : 0 < lam ^ 2 * ∑ c, ‖d c‖ ^ 2 := mul_pos (by positivity) p2
      linarith
    · have hne : (mat A.m A.n (entry μ A)).mulVec d ≠ 0 := fun h0 => hd (hi (by rw [h0, mulVec_zero]))
      obtain ⟨r, hr⟩ := Function.ne_iff.1 hne
      have p3 : 0 < ∑ r, ‖(mat A.m A.n (entry μ A)).mulVec d r‖ ^ 2 :=
        Finset.sum_pos' (fun _ _ => sq_nonneg _) ⟨r, mem_univ _, by have := norm_pos_iff.2 hr; positivity⟩
      have : 0 ≤ lam ^ 2 * ∑ c, ‖d c‖ ^ 2 := by positivity
      linarith
  · funext i
    have := congrFun (congrFun h i) ⟨j, hj⟩
    simpa only [Matrix.mul_apply, Matrix.mulVec, dotProduct, vec, mat] using this

/-- Ones in a 3×2 matrix, two right hand sides, `lambda = 1`. -/
example : TikOK 32 (mkM 0 3 2) (mkM 1 3 2) (mkV 2 2) (mkM 3 4 2) (mkV 4 2) (mkM 5 4 2) (mkV 6 16) ∧
    (∀ c, c < (mkM 0 3 2).n → ∑ r ∈ range (mkM 0 3 2).m,
      ‖entry (fun _ => (1 : ℂ)) (mkM 0 3 2) r c‖ ^ 2 + (1 : ℝ) ^ 2 ≤ (doublePar false).tbig ^ 2) ∧
    HhLaws ℂ (doublePar false) ∧ ((hhOps (𝕜 := ℂ) (doublePar false)).isReal = true → ∀ z : ℂ, star z = z) := by
  refine ⟨⟨?_, ?_, ?_, ?_, ?_, ?_, ?_, ?_, ?_, ?_, ?_, ?_, ?_, ?_, ?_, ?_, ?_, ?_, ?_, ?_, ?_, ?_, ?_, ?_, ?_, ?_, ?_, ?_, ?_, ?_, ?_, ?_, ?_, ?_, ?_, ?_⟩, fun c _ => ?_,
    doublePar_laws _ (by simp), by simp [hhOps, doublePar, luOps]⟩ <;> try adm
  simp only [entry, norm_one, mkM, doublePar]
  simp only [one_pow, Finset.sum_const, Finset.card_range, nsmul_eq_mul, mul_one]
  rw [← pow_mul]
  refine le_trans ?_ (pow_le_pow_right₀ (by norm_num : (1 : ℝ) ≤ 2) (by norm_num : 2 ≤ 486 * 2))
  norm_num

/-- **C70** tkhnv rejects a matrix with fewer rows than columns and writes nothing. -/
theorem C70_tkhnv_rejects (nb : Nat) (A b : MatV L) (lam : 𝕜) (tau1 : VecV L) (Raug : MatV L) (tau2 : VecV L)
    (baug : MatV L) (work : VecV L) (h : A.m < A.n) (μ : Store L 𝕜) :
    tkhnvQr (hhOps p) nb A b lam tau1 Raug tau2 baug work μ = (.error .check, μ) := by
  unfold tkhnvQr check
  have : decide (A.m ≥ A.n) = false := by simpa using h
  rw [this]; rfl

end TLA
