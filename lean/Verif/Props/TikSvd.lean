import Verif.SpecElden
import Verif.Proofs.TikSvd
import Verif.Props.Elden
import Verif.Props.Level3
set_option linter.unusedTactic false
set_option linter.unusedVariables false

/-! # C90: regularised least squares through the singular value decomposition -/

namespace TLA
open Finset Matrix Kernel
variable {L 𝕜 : Type} [DecidableEq L] [RCLike 𝕜] [DecidableEq 𝕜] {p : RotPar} {hp : HhPar}

/-- Admissible call of tik_svd: as for tik_bidiag_elden, with the two factors the routine allocates. -/
structure TikSvdOK (nb : Nat) (A b : MatV L) (tauv tauw : VecV L) (Q2 P2 wk : MatV L) (work : VecV L) : Prop extends EldenOK nb A b tauv tauw wk work where
  qm : Q2.m = A.n
  qn : Q2.n = A.n
  pm : P2.m = A.n
  pn : P2.n = A.n
  qinj : Q2.Inj
  pinj : P2.Inj
  dQP : Q2.Disj P2
  dAQ : A.Disj Q2
  dAP : A.Disj P2
  dbQ : b.Disj Q2
  dbP : b.Disj P2
  dQk : Q2.Disj wk
  dPk : P2.Disj wk
  dtQ : tauw.DisjM Q2
  dtP : tauw.DisjM P2

set_option maxHeartbeats 2000000 in
/-- **C90** tik_svd, `lambda ≠ 0`: when the internal singular value decomposition finishes (`err = 0`), the first `n` rows of `b` hold a solution of the
Tikhonov problem of a matrix `A + E` with a small `E`, up to a relative error of `5 eps²` in each singular direction:
`((A+E)^H (A+E) + lambda² I) X = V^H diag(rho) V (A+E)^H B` with unitary `V` and `|rho - 1| ≤ 5 eps²`. -/
theorem C90_tik_svd (h1 : 0 < p.safmin) (h2 : 0 < p.safmax) (h3 : 0 < p.ulp) (h4 : p.ulp ≤ 1 / 2) (hl : HhLaws 𝕜 hp)
    (hreal : (hhOps (𝕜 := 𝕜) hp).isReal = true → ∀ z : 𝕜, star z = z)
    (nb : Nat) (A b : MatV L) (tauv tauw : VecV L) (Q2 P2 wk : MatV L) (work : VecV L)
    (ok : TikSvdOK nb A b tauv tauw Q2 P2 wk work) (lam : ℝ) (hlam : lam ≠ 0) (μ : Store L 𝕜)
    (hb : frobSq A.m A.n (entry μ A) ≤ hp.tbig ^ 2) :
    ∃ err ν, tikSvd (hhOps hp) p RCLike.re nb A b lam tauv tauw Q2 P2 wk work μ = (.ok err, ν) ∧
      (err = 0 → ∃ (E : Matrix (Fin A.m) (Fin A.n) 𝕜) (V : Matrix (Fin A.n) (Fin A.n) 𝕜) (rho : Fin A.n → ℝ),
        frobM E ≤ (A.n - 1 : ℕ) * svdTol A.n p.ulp p.safmin (frobM (mat A.m A.n (entry μ A))) ∧ Vᴴ * V = 1 ∧ (∀ i, |rho i - 1| ≤ 5 * p.ulp ^ 2) ∧
        ((mat A.m A.n (entry μ A) + E)ᴴ * (mat A.m A.n (entry μ A) + E) + ((lam : 𝕜) ^ 2) • 1) * mat A.n b.n (entry ν b) =
          Vᴴ * diagonal (fun i => (rho i : 𝕜)) * V * ((mat A.m A.n (entry μ A) + E)ᴴ * mat A.m b.n (entry μ b))) ∧
      (A.n ≤ 2 → err = 0) ∧
      ∀ l, ¬ A.Owns l → ¬ b.Owns l → ¬ tauv.Owns l → ¬ tauw.Owns l → ¬ Q2.Owns l → ¬ P2.Owns l → ¬ wk.Owns l → ¬ work.Owns l → ν l = μ l := by
  obtain ⟨⟨hn, hmn, hbm, hnb, tvn, twn, wkm, wkn, brd, binj, kinj, dAb, dvb, dwb, dbw, dbk, dAk, dwk, w1, w2, w3⟩, qm, qn, pm, pn, qinj, pinj, dQP, dAQ, dAP, dbQ, dbP, dQk, dPk, dtQ, dtP⟩ := ok
  obtain ⟨⟨Ainj, tvinj, winj, dAv, dAw, dvw⟩, ⟨-, twinj, -, dAt, -, dtw⟩, dvt⟩ := brd
  have osub : ∀ {t : VecV L} {k : Nat} {l : L}, k ≤ t.n → ¬ t.Owns l → ¬ (t.sub 0 k).Owns l := by
    intro t k l hk h ho
    obtain ⟨i, hi, e⟩ := ho
    exact h ⟨0 + i, by simp [VecV.sub] at hi; omega, e⟩
  suffices key : wp (tikSvd (hhOps hp) p RCLike.re nb A b lam tauv tauw Q2 P2 wk work) μ (fun err ν =>
      (err = 0 → ∃ (E : Matrix (Fin A.m) (Fin A.n) 𝕜) (V : Matrix (Fin A.n) (Fin A.n) 𝕜) (rho : Fin A.n → ℝ),
        frobM E ≤ (A.n - 1 : ℕ) * svdTol A.n p.ulp p.safmin (frobM (mat A.m A.n (entry μ A))) ∧ Vᴴ * V = 1 ∧ (∀ i, |rho i - 1| ≤ 5 * p.ulp ^ 2) ∧
        ((mat A.m A.n (entry μ A) + E)ᴴ * (mat A.m A.n (entry μ A) + E) + ((lam : 𝕜) ^ 2) • 1) * mat A.n b.n (entry ν b) =
          Vᴴ * diagonal (fun i => (rho i : 𝕜)) * V * ((mat A.m A.n (entry μ A) + E)ᴴ * mat A.m b.n (entry μ b))) ∧
      (A.n ≤ 2 → err = 0) ∧
      ∀ l, ¬ A.Owns l → ¬ b.Owns l → ¬ tauv.Owns l → ¬ tauw.Owns l → ¬ Q2.Owns l → ¬ P2.Owns l → ¬ wk.Owns l → ¬ work.Owns l → ν l = μ l) by
    obtain ⟨err, ν, e, h⟩ := wp_iff.1 key
    exact ⟨err, ν, e, h⟩
  unfold tikSvd
  simp only [wp_bind]
  obtain ⟨μ1, x1, ⟨hA, hQ, hZ⟩, hd0, he0, f1⟩ := C76_gebrd_upper hl nb hnb A tauv tauw work ⟨⟨Ainj, tvinj, winj, dAv, dAw, dvw⟩, ⟨Ainj, twinj, winj, dAt, dAw, dtw⟩, dvt⟩
    hmn (by omega) (by omega) w1 μ hb
  refine wp_of_eq x1 ?_
  obtain ⟨μ2, x2, hB, f2⟩ := C47_unmq (hhOps (𝕜 := 𝕜) hp).isReal nb .Left .ConjTrans .Forward .Columnwise A tauv b work
    ⟨.inl rfl, binj, winj, dAb, dAw, dvb, dvw, dbw, by simp [hbm, tvn], by simp [hbm, tvn, hmn], hnb, by rw [tvn]; exact w2⟩ (.inr (.inl rfl)) hreal μ1
  refine wp_of_eq x2 ?_
  rw [if_pos rfl, tvn] at hB
  refine wp_slice (by omega) (by omega) (by omega) (by omega) ?_
  refine wp_conseq (wp_tikCopy hn hmn μ2) ?_
  rintro ⟨d, e⟩ μ2' ⟨rfl, dn, en, hd, he⟩
  dsimp only at dn en hd he ⊢
  obtain ⟨μ3, x3, hQ3, f3⟩ := C24_laset .General (.inr (.inr rfl)) (0 : 𝕜) 1 Q2 qinj μ2'
  refine wp_of_eq x3 ?_
  obtain ⟨μ4, x4, hP4, f4⟩ := C24_laset .General (.inr (.inr rfl)) (0 : 𝕜) 1 P2 pinj μ3
  refine wp_of_eq x4 ?_
  -- contents of A and b
  have gA : ∀ i j, i < A.m → j < A.n → entry μ2' A i j = entry μ1 A i j := fun i j hi hj => f2 _ (dAb i j hi hj) (dAw i j hi hj)
  have hQ' : reflProd A.m 0 A.n (ventry μ1 tauv) (reflCol 0 A.m (entry μ1 A)) = houseQ .Forward .Columnwise A.m A.n (entry μ1 A) (ventry μ1 tauv) := by
    rw [reflCol_emb (by omega)]
    simp only [Nat.zero_add, Nat.sub_zero]
    exact emb_zero _
  have hB' : mat A.m b.n (entry μ2' b) = (reflProd A.m 0 A.n (ventry μ1 tauv) (reflCol 0 A.m (entry μ1 A)))ᴴ * mat A.m b.n (entry μ b) := by
    rw [hQ']
    have : ∀ q, b.m = q → mat q b.n (entry μ2' b) = (houseQ .Forward .Columnwise q A.n (entry μ1 A) (ventry μ1 tauv))ᴴ *
      mat q b.n (entry μ1 b) := by rintro _ rfl; exact hB
    rw [this _ hbm]
    congr 1
    refine entry_congr (A := b) (fun i j hi hj => f1 _ (dAb.symm i j hi hj) (osub (by omega) fun ho => ?_) (osub (by omega) fun ho => ?_) (dbw i j hi hj)) (by omega) (by omega)
    · obtain ⟨i', hi', e⟩ := ho
      exact dvb i' hi' (e ▸ ⟨i, j, hi, hj, rfl⟩)
    · obtain ⟨i', hi', e⟩ := ho
      exact dwb i' hi' (e ▸ ⟨i, j, hi, hj, rfl⟩)
  have re : ∀ z : 𝕜, RCLike.im z = 0 → ((RCLike.re z : ℝ) : 𝕜) = z := fun z hz => by
    conv_rhs => rw [← RCLike.re_add_im z, hz]
    simp
  have hBid : ∀ i j, i < A.n → j < A.n → ((bidR false d.f e.f i j : ℝ) : 𝕜) = bidUF (entry μ1 A) i j := by
    intro i j hi hj
    unfold bidR bidUF
    by_cases q : i = j
    · subst q
      rw [if_pos rfl, if_pos (.inl rfl), hd i hi, gA i i (by omega) hi, re _ (hd0 i hi)]
    · rw [if_neg q]
      by_cases q2 : i + 1 = j
      · subst q2
        rw [if_pos ⟨rfl, rfl⟩, if_pos (.inr rfl), he i hj, gA i (i + 1) (by omega) hj, re _ (he0 i hj)]
      · rw [if_neg (fun h => q2 h.2), if_neg (by simp), if_neg (by omega)]; simp
  have idM : ∀ {ν ν0 : Store L 𝕜} {X : MatV L}, X.m = A.n → X.n = A.n → (∀ i j, i < X.m → j < X.n → entry ν X i j = lasetVal .General (0 : 𝕜) 1 (entry ν0 X i j) i j) →
      mat A.n A.n (entry ν X) = 1 := by
    intro ν ν0 X hm hn h
    ext i j
    show entry ν X i j = _
    rw [h i j (by omega) (by omega)]
    unfold lasetVal
    by_cases q : (i : Nat) = j
    · rw [if_pos q, Fin.ext q, one_apply_eq]
    · rw [if_neg q, one_apply_ne (fun h => q (congrArg Fin.val h))]; simp [inTri]
  have iQ : mat A.n A.n (entry μ4 Q2) = 1 := by
    rw [entry_congr (A := Q2) (μ := μ3) (fun i j hi hj => f4 _ (dQP i j hi hj)) (by omega) (by omega)]
    exact idM qm qn hQ3
  have iP : mat A.n A.n (entry μ4 P2) = 1 := idM pm pn hP4
  obtain ⟨nn, df⟩ := d
  dsimp only at dn hd hBid
  subst dn
  -- the singular value decomposition
  obtain ⟨err, d', e', μ5, x5, dn', ⟨P, R, E0, δ1, δ2, oP, oR, eB, nE, b1, b2, uQ, uP, f5⟩, hfin⟩ := C81_svd_qr (𝕜 := 𝕜) h1 h2 h3 h4 false true true (⟨A.n, df⟩ : RArr) e Q2 P2 (by dsimp only; omega)
    (fun _ => ⟨qinj, by dsimp only; omega⟩) (fun _ => ⟨pinj, by dsimp only; omega⟩) (fun _ _ => dQP) μ4
  refine wp_of_eq x5 ?_
  dsimp only at nE eB dn' hfin ⊢
  have vQ : mat A.n A.n (entry μ5 Q2) = emb𝕜 𝕜 (P * diagonal δ1) := by
    have : ∀ q, Q2.m = q → mat q A.n (entry μ5 Q2) = mat q A.n (entry μ4 Q2) * emb𝕜 𝕜 (P * diagonal δ1) := by rintro _ rfl; exact uQ rfl
    rw [this _ qm, iQ, Matrix.one_mul]
  have vP : mat A.n A.n (entry μ5 P2) = emb𝕜 𝕜 (diagonal δ2 * R) := by
    have : ∀ q, P2.n = q → mat A.n q (entry μ5 P2) = emb𝕜 𝕜 (diagonal δ2 * R) * mat A.n q (entry μ4 P2) := by rintro _ rfl; exact uP rfl
    rw [this _ pn, iP, Matrix.mul_one]
  have f5' : ∀ l, ¬ Q2.Owns l → ¬ P2.Owns l → μ5 l = μ4 l := fun l a1 a2 =>
    f5 l (fun h => a1 (MatV.firstCols_own (by dsimp only; omega) h.2)) (fun h => a2 (MatV.firstRows_own (by dsimp only; omega) h.2))
  have dbx : ∀ {X : MatV L}, b.Disj X → (b.sub 0 A.n 0 b.n).Disj X := fun h => h.sub_left (by omega) (by omega)
  have xinj : (b.sub 0 A.n 0 b.n).Inj := binj.sub (by omega) (by omega)
  have ox : ∀ {l}, ¬ b.Owns l → ¬ (b.sub 0 A.n 0 b.n).Owns l := fun h ho => h (ho.sub (by omega) (by omega))
  have ex : ∀ (ν : Store L 𝕜) k, mat A.n k (entry ν (b.sub 0 A.n 0 b.n)) = mat A.n k (entry ν b) := fun ν k =>
    mat_ext_iff.2 fun i j _ _ => by simp only [entry, MatV.sub, Nat.zero_add]
  -- gemm with Q2
  obtain ⟨μ6, x6, h6, f6⟩ := C13_gemm (1 : 𝕜) (transA := .ConjTrans) (transB := .NoTrans) (A := Q2) (B := b.sub 0 A.n 0 b.n) (C := wk) .strongZero
    (m := A.n) (n := b.n) (k := A.n) ⟨by simp, by simp, by simp [qn], by simp [qm], by simp [MatV.sub], by simp [MatV.sub], wkm, wkn, kinj, dQk, dbx dbk⟩ μ5
  refine wp_of_eq x6 ?_
  refine wp_conseq (wp_tikScale (d := d') hlam dn' wkm wkn kinj μ6) ?_
  intro _ μ7 hM7
  obtain ⟨μ8, x8, h8, f8⟩ := C13_gemm (1 : 𝕜) (transA := .ConjTrans) (transB := .NoTrans) (A := P2) (B := wk) (C := b.sub 0 A.n 0 b.n) .strongZero
    (m := A.n) (n := b.n) (k := A.n) ⟨by simp, by simp, by simp [pn], by simp [pm], by simp [wkm], by simp [wkn], by simp [MatV.sub], by simp [MatV.sub], xinj, (dbx dbP).symm, (dbx dbk).symm⟩ μ7
  refine wp_of_eq x8 ?_
  have s6 : mat A.n b.n (entry μ6 wk) = (emb𝕜 𝕜 (P * diagonal δ1))ᴴ * mat A.n b.n (entry μ2' b) := by
    rw [h6, ← vQ]
    simp only [Coef.toVal, one_smul, zero_smul, add_zero]
    congr 1
    show mat A.n b.n (entry μ5 (b.sub 0 A.n 0 b.n)) = _
    rw [ex]
    refine entry_congr (A := b) (fun i j hi hj => ?_) (by omega) le_rfl
    rw [f5' _ (dbQ i j hi hj) (dbP i j hi hj), f4 _ (dbP i j hi hj), f3 _ (dbQ i j hi hj)]
  have s7 : mat A.n b.n (entry μ7 wk) = emb𝕜 𝕜 (diagonal fun i : Fin A.n => d'.f i / (d'.f i * d'.f i + lam * lam)) * mat A.n b.n (entry μ6 wk) := by
    have : emb𝕜 𝕜 (diagonal fun i : Fin A.n => d'.f i / (d'.f i * d'.f i + lam * lam)) =
        diagonal fun i : Fin A.n => ((d'.f i / (d'.f i * d'.f i + lam * lam) : ℝ) : 𝕜) := by
      ext i j; by_cases q : i = j <;> simp [q, diagonal_apply]
    rw [this]
    ext i j
    rw [diagonal_mul]
    show μ7 (wk.cell i j) = _ * entry μ6 wk i j
    rw [hM7.val i j (by omega) (by omega), mul_comm]
  have s8 : mat A.n b.n (entry μ8 b) = (emb𝕜 𝕜 (diagonal δ2 * R))ᴴ * mat A.n b.n (entry μ7 wk) := by
    rw [← ex, h8, ← vP]
    simp only [Coef.toVal, one_smul, zero_smul, add_zero]
    congr 1
    show (mat A.n A.n (entry μ7 P2))ᴴ = _
    congr 1
    refine entry_congr (A := P2) (fun i j hi hj => ?_) (by omega) (by omega)
    rw [hM7.frame _ (dPk i j hi hj), f6 _ (dPk i j hi hj)]
  have fr8 : ∀ l, ¬ b.Owns l → ¬ Q2.Owns l → ¬ P2.Owns l → ¬ wk.Owns l → μ8 l = μ2' l := fun l a1 a2 a3 a4 => by
    rw [f8 l (ox a1), hM7.frame l a4, f6 l a4, f5' l a2 a3, f4 l a3, f3 l a2]
  refine wp_tikZ (hp := hp) hreal hnb (x := b.sub 0 A.n 0 b.n) hn rfl hmn (by simp [MatV.sub]) twn xinj winj (dAb.sub_right (by omega) (by omega)) dAw
    (fun i hi ho => dwb i hi (ho.sub (by omega) (by omega))) dtw (fun i j hi hj => by simp only [MatV.sub] at hi hj ⊢; exact dbw _ _ (by omega) (by omega))
    (by simpa [MatV.sub, unmqBlkWorksize] using w3) μ8 _ err ?_
  intro ν hX fν
  have hX' : mat A.n b.n (entry ν b) = reflProd A.n 0 (A.n - 1) (ventry μ1 tauw) (reflRow 1 A.n (entry μ1 A)) * mat A.n b.n (entry μ8 b) := by
    rw [← ex ν, ← ex μ8]
    refine Eq.trans hX ?_
    congr 1
    refine reflProd_congr (fun i _ hi => ?_) fun i _ hi r hr => ?_
    · exact (fr8 _ (dwb i (by omega)) (dtQ i (by omega)) (dtP i (by omega)) (dwk i (by omega))).trans (f2 _ (dwb i (by omega)) (dtw i (by omega)))
    · unfold reflRow; split_ifs
      · rfl
      · exact congrArg star ((fr8 _ (dAb _ _ (by omega) hr) (dAQ _ _ (by omega) hr) (dAP _ _ (by omega) hr) (dAk _ _ (by omega) hr)).trans (gA _ _ (by omega) hr))
      · rfl
  refine ⟨fun herr => ?_, fun h => ?_, fun l a1 a2 a3 a4 a5 a6 a7 a8 => ?_⟩
  · have hz : ∀ j, j + 1 < A.n → e'.f j = 0 := by
      rcases hfin with ⟨-, h, -⟩ | ⟨-, -, h⟩
      · exact h
      · intro j hj; exact h j (by omega) hj
    rw [bidR_diag hz] at eB
    generalize hQd : reflProd A.m 0 A.n (ventry μ1 tauv) (reflCol 0 A.m (entry μ1 A)) = Q at *
    generalize hZd : reflProd A.n 0 (A.n - 1) (ventry μ1 tauw) (reflRow 1 A.n (entry μ1 A)) = Z at *
    have hZ' : Z * Zᴴ = 1 := mul_eq_one_comm.1 hZ
    have oR' : Rᵀ * R = 1 := mul_eq_one_comm.1 oR
    have hAp : mat A.m A.n (entry μ A) = Q * padM A.m A.n (emb𝕜 𝕜 (mat A.n A.n (bidR false df e.f))) * Zᴴ := by
      rw [hA, pad_fun]
      congr 2
      refine mat_ext_iff.2 fun i j hi hj => ?_
      by_cases q : i < A.n
      · rw [if_pos ⟨q, hj⟩, hBid i j q hj]
      · rw [if_neg (fun h => q h.1)]; unfold bidUF; rw [if_neg (by omega)]
    have uZ : (Zᴴ)ᴴ * Zᴴ = 1 := by rw [conjTranspose_conjTranspose]; exact hZ'
    have hsum : mat A.m A.n (entry μ A) + Q * padM A.m A.n (emb𝕜 𝕜 E0) * Zᴴ =
        Q * padM A.m A.n (emb𝕜 𝕜 (mat A.n A.n (bidR false df e.f) + E0)) * Zᴴ := by
      have : emb𝕜 𝕜 (mat A.n A.n (bidR false df e.f) + E0) = emb𝕜 𝕜 (mat A.n A.n (bidR false df e.f)) + emb𝕜 𝕜 E0 := by ext i j; simp
      rw [hAp, this, padM_add, Matrix.mul_add, Matrix.add_mul]
    refine ⟨Q * padM A.m A.n (emb𝕜 𝕜 E0) * Zᴴ, emb𝕜 𝕜 R * Zᴴ, fun i => δ1 i * δ2 i, ?_, ?_, fun i => ?_, ?_⟩
    · rw [hAp, frobM_unitary2 hQ (by rw [conjTranspose_conjTranspose]; exact hZ), frobM_unitary2 hQ (by rw [conjTranspose_conjTranspose]; exact hZ),
        frobM_pad hmn le_rfl, frobM_pad hmn le_rfl]
      exact nE
    · have hT : (emb𝕜 𝕜 R)ᴴ = emb𝕜 𝕜 Rᵀ := by ext i j; simp [conjTranspose_apply]
      rw [conjTranspose_mul, conjTranspose_conjTranspose, hT]
      calc Z * emb𝕜 𝕜 Rᵀ * (emb𝕜 𝕜 R * Zᴴ) = Z * (emb𝕜 𝕜 Rᵀ * emb𝕜 𝕜 R) * Zᴴ := by simp only [Matrix.mul_assoc]
        _ = 1 := by rw [← embR_mul, oR', embR_one, Matrix.mul_one, hZ']
    · have q1 := b1 i
      have q2 := b2 i
      have l1 := abs_le.1 q1.2
      have l2 := abs_le.1 q2.2
      have hu2 : p.ulp ^ 2 ≤ 1 / 4 := by nlinarith
      have hu0 : 0 ≤ p.ulp ^ 2 := sq_nonneg _
      have hpos : 0 < δ1 i * δ2 i := mul_pos q1.1 q2.1
      generalize p.ulp ^ 2 = u at *
      have hsq : (δ1 i * δ2 i) ^ 2 = δ1 i ^ 2 * δ2 i ^ 2 := by ring
      generalize δ1 i ^ 2 = a at *
      generalize δ2 i ^ 2 = c at *
      have a0 : 0 ≤ a := by linarith
      have c0 : 0 ≤ c := by linarith
      have up : (δ1 i * δ2 i) ^ 2 - 1 ≤ 5 * u := by rw [hsq]; nlinarith
      have lo : -(5 * u) ≤ (δ1 i * δ2 i) ^ 2 - 1 := by rw [hsq]; nlinarith
      rw [abs_le]
      constructor
      · by_contra hc
        push Not at hc
        nlinarith
      · by_contra hc
        push Not at hc
        nlinarith
    · rw [hsum]
      have hn' : mat A.n A.n (fun i j => if i < A.n ∧ j < A.n then toF (emb𝕜 𝕜 (mat A.n A.n (bidR false df e.f) + E0)) i j else 0) =
          emb𝕜 𝕜 (mat A.n A.n (bidR false df e.f) + E0) := by
        rw [← mat_toF (emb𝕜 𝕜 (mat A.n A.n (bidR false df e.f) + E0))]
        refine mat_ext_iff.2 fun i j hi hj => ?_
        rw [if_pos ⟨hi, hj⟩, mat_toF]
      have hfil := svd_filter (𝕜 := 𝕜) (k := b.n) hlam (δ1 := δ1) (δ2 := δ2) oP oR eB (mat A.n b.n (entry μ2' b))
      rw [← s6, ← s7, ← s8] at hfil
      have fin := tik_lift (lam := lam) hmn (B := fun i j => if i < A.n ∧ j < A.n then toF (emb𝕜 𝕜 (mat A.n A.n (bidR false df e.f) + E0)) i j else 0)
        (K := emb𝕜 𝕜 (Rᵀ * diagonal (fun i => δ1 i * δ2 i) * R)) (rfl : Q * padM A.m A.n (emb𝕜 𝕜 (mat A.n A.n (bidR false df e.f) + E0)) * Zᴴ = _) hQ hZ
        (fun i j hi _ _ => if_neg (by omega)) hB' hX' (by rw [hn']; exact hfil)
      rw [fin]
      congr 1
      have hT : (emb𝕜 𝕜 R)ᴴ = emb𝕜 𝕜 Rᵀ := by ext i j; simp [conjTranspose_apply]
      have hD : (diagonal fun i : Fin A.n => ((δ1 i * δ2 i : ℝ) : 𝕜)) = emb𝕜 𝕜 (diagonal fun i => δ1 i * δ2 i) := by
        ext i j; by_cases q : i = j <;> simp [q, diagonal_apply]
      rw [hD, conjTranspose_mul, conjTranspose_conjTranspose, hT, embR_mul, embR_mul]
      simp only [Matrix.mul_assoc]
  · rcases hfin with ⟨h, -⟩ | ⟨h, -⟩
    · exact h
    · omega
  · rw [fν l (ox a2) a8, fr8 l a2 a5 a6 a7, f2 l a2 a8, f1 l a1 (osub (by omega) a3) (osub (by omega) a4) a8]

/-- Ones in a 3×2 matrix, two right hand sides. -/
example : TikSvdOK 32 (mkM 0 3 2) (mkM 1 3 2) (mkV 2 2) (mkV 3 2) (mkM 6 2 2) (mkM 7 2 2) (mkM 4 2 2) (mkV 5 1000) := by
  refine ⟨⟨?_, ?_, ?_, ?_, ?_, ?_, ?_, ?_, ⟨⟨?_, ?_, ?_, ?_, ?_, ?_⟩, ⟨?_, ?_, ?_, ?_, ?_, ?_⟩, ?_⟩, ?_, ?_, ?_, ?_, ?_, ?_, ?_, ?_, ?_, ?_, ?_, ?_⟩, ?_, ?_, ?_, ?_, ?_, ?_, ?_,
    ?_, ?_, ?_, ?_, ?_, ?_, ?_, ?_⟩ <;> try adm

end TLA
