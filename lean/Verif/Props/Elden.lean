import Verif.SpecElden
import Verif.Proofs.Elden
import Verif.Proofs.UnmqBlk
import Verif.Props.Gebrd
import Verif.Props.Tik
set_option linter.unusedTactic false
set_option linter.unusedVariables false

/-! # C89: regularised least squares through the bidiagonal form -/

namespace TLA
open Finset Matrix Kernel
variable {L 𝕜 : Type} [DecidableEq L] [RCLike 𝕜] [DecidableEq 𝕜] {p : RotPar} {hp : HhPar}

set_option maxHeartbeats 1000000 in
/-- **C89** tik_bidiag_elden solves the Tikhonov problem: on return the first `n` rows of `b` hold `X` with
`(A^H A + lambda² I) X = A^H B`, for every shape with at least as many rows as columns and at least one column, provided `lambda ≠ 0` or `A` has
full column rank (and the norm of `A` does not exceed the range of the unscaled accumulation). -/
theorem C89_tik_elden (h1 : 0 < p.safmin) (h2 : 0 < p.safmax) (hl : HhLaws 𝕜 hp)
    (hreal : (hhOps (𝕜 := 𝕜) hp).isReal = true → ∀ z : 𝕜, star z = z)
    (nb : Nat) (A b : MatV L) (tauv tauw : VecV L) (wk : MatV L) (work : VecV L)
    (ok : EldenOK nb A b tauv tauw wk work) (lam : ℝ) (μ : Store L 𝕜)
    (hrank : lam ≠ 0 ∨ Function.Injective (mat A.m A.n (entry μ A)).mulVec)
    (hb : frobSq A.m A.n (entry μ A) ≤ hp.tbig ^ 2) :
    ∃ ν, tikElden (hhOps hp) p RCLike.re nb A b lam tauv tauw wk work μ = (.ok (), ν) ∧
      ((mat A.m A.n (entry μ A))ᴴ * mat A.m A.n (entry μ A) + ((lam : 𝕜) ^ 2) • 1) * mat A.n b.n (entry ν b) =
        (mat A.m A.n (entry μ A))ᴴ * mat A.m b.n (entry μ b) ∧
      ∀ l, ¬ A.Owns l → ¬ b.Owns l → ¬ tauv.Owns l → ¬ tauw.Owns l → ¬ wk.Owns l → ¬ work.Owns l → ν l = μ l := by
  obtain ⟨hn, hmn, hbm, hnb, tvn, twn, wkm, wkn, brd, binj, kinj, dAb, dvb, dwb, dbw, dbk, dAk, dwk, w1, w2, w3⟩ := ok
  obtain ⟨⟨Ainj, tvinj, winj, dAv, dAw, dvw⟩, ⟨-, twinj, -, dAt, -, dtw⟩, dvt⟩ := brd
  have osub : ∀ {t : VecV L} {k : Nat} {l : L}, k ≤ t.n → ¬ t.Owns l → ¬ (t.sub 0 k).Owns l := by
    intro t k l hk h ho
    obtain ⟨i, hi, e⟩ := ho
    exact h ⟨0 + i, by simp [VecV.sub] at hi; omega, e⟩
  suffices key : wp (tikElden (hhOps hp) p RCLike.re nb A b lam tauv tauw wk work) μ (fun _ ν =>
      ((mat A.m A.n (entry μ A))ᴴ * mat A.m A.n (entry μ A) + ((lam : 𝕜) ^ 2) • 1) * mat A.n b.n (entry ν b) =
        (mat A.m A.n (entry μ A))ᴴ * mat A.m b.n (entry μ b) ∧
      ∀ l, ¬ A.Owns l → ¬ b.Owns l → ¬ tauv.Owns l → ¬ tauw.Owns l → ¬ wk.Owns l → ¬ work.Owns l → ν l = μ l) by
    obtain ⟨ν, h1, h2⟩ := wp_unit key
    exact ⟨ν, h1, h2⟩
  unfold tikElden
  simp only [wp_bind, wp_check]
  rw [if_pos (by simpa using hmn)]
  obtain ⟨μ1, x1, ⟨hA, hQ, hZ⟩, hd0, he0, f1⟩ := C76_gebrd_upper hl nb hnb A tauv tauw work ⟨⟨Ainj, tvinj, winj, dAv, dAw, dvw⟩, ⟨Ainj, twinj, winj, dAt, dAw, dtw⟩, dvt⟩
    hmn (by omega) (by omega) w1 μ hb
  refine wp_of_eq x1 ?_
  obtain ⟨μ2, x2, hB, f2⟩ := C47_unmq (hhOps (𝕜 := 𝕜) hp).isReal nb .Left .ConjTrans .Forward .Columnwise A tauv b work
    ⟨.inl rfl, binj, winj, dAb, dAw, dvb, dvw, dbw, by simp [hbm, tvn], by simp [hbm, tvn, hmn], hnb, by rw [tvn]; exact w2⟩ (.inr (.inl rfl)) hreal μ1
  refine wp_of_eq x2 ?_
  rw [if_pos rfl, tvn] at hB
  refine wp_conseq (wp_tikCopy hn hmn μ2) ?_
  rintro ⟨d, e⟩ μ2' ⟨rfl, dn, en, hd, he⟩
  dsimp only at dn en hd he ⊢
  obtain ⟨μ3, x3, h3, f3⟩ := C24_laset .General (.inr (.inr rfl)) (0 : 𝕜) 0 wk kinj μ2'
  refine wp_of_eq x3 ?_
  -- contents of A and b
  have gA : ∀ i j, i < A.m → j < A.n → entry μ2' A i j = entry μ1 A i j := fun i j hi hj => f2 _ (dAb i j hi hj) (dAw i j hi hj)
  have hQ' : reflProd A.m 0 A.n (ventry μ1 tauv) (reflCol 0 A.m (entry μ1 A)) = houseQ .Forward .Columnwise A.m A.n (entry μ1 A) (ventry μ1 tauv) := by
    rw [reflCol_emb (by omega)]
    simp only [Nat.zero_add, Nat.sub_zero]
    exact emb_zero _
  have hB' : mat A.m b.n (entry μ2' b) = (reflProd A.m 0 A.n (ventry μ1 tauv) (reflCol 0 A.m (entry μ1 A)))ᴴ * mat A.m b.n (entry μ b) := by
    rw [hQ']
    have : ∀ q, b.m = q → mat q b.n (entry μ2' b) = (houseQ .Forward .Columnwise q A.n (entry μ1 A) (ventry μ1 tauv))ᴴ *
      mat q b.n (entry μ1 b) := by rintro _ rfl; exact hB
    rw [this _ hbm]
    congr 1
    refine entry_congr (A := b) (fun i j hi hj => f1 _ (dAb.symm i j hi hj) (osub (by omega) fun ho => ?_) (osub (by omega) fun ho => ?_) (dbw i j hi hj)) (by omega) (by omega)
    · obtain ⟨i', hi', e⟩ := ho
      exact dvb i' hi' (e ▸ ⟨i, j, hi, hj, rfl⟩)
    · obtain ⟨i', hi', e⟩ := ho
      exact dwb i' hi' (e ▸ ⟨i, j, hi, hj, rfl⟩)
  have gb3 : ∀ i j, i < b.m → j < b.n → entry μ3 b i j = entry μ2' b i j := fun i j hi hj => f3 _ (dbk i j hi hj)
  have re : ∀ z : 𝕜, RCLike.im z = 0 → ((RCLike.re z : ℝ) : 𝕜) = z := fun z hz => by
    conv_rhs => rw [← RCLike.re_add_im z, hz]
    simp
  have hBid : ∀ i j, i < A.n → j < A.n → ((bidR false d.f e.f i j : ℝ) : 𝕜) = bidUF (entry μ1 A) i j := by
    intro i j hi hj
    unfold bidR bidUF
    by_cases q : i = j
    · subst q
      rw [if_pos rfl, if_pos (.inl rfl), hd i hi, gA i i (by omega) hi, re _ (hd0 i hi)]
    · rw [if_neg q]
      by_cases q2 : i + 1 = j
      · subst q2
        rw [if_pos ⟨rfl, rfl⟩, if_pos (.inr rfl), he i hj, gA i (i + 1) (by omega) hj, re _ (he0 i hj)]
      · rw [if_neg (fun h => q2 h.2), if_neg (by simp), if_neg (by omega)]; simp
  have hlow : ∀ i j, j < i → bidUF (entry μ1 A) i j = 0 := fun i j h => by unfold bidUF; rw [if_neg (by omega)]
  -- reduction
  refine wp_conseq (wp_eldenLoop h1 h2 (lam := lam) (n := A.n) (d := d) (e := e) dn en binj kinj dbk wkn hn (by omega) wkm (fun i j hi hj => ?_) ?_) ?_
  · have := h3 i j (by omega) (by omega)
    rw [show μ3 (wk.cell i j) = entry μ3 wk i j from rfl, this]
    unfold lasetVal
    by_cases q : i = j
    · rw [if_pos q]
    · rw [if_neg q]; simp [inTri]
  · by_cases q : lam = 0
    · refine .inr fun i hi h0 => ?_
      have hne := bid_diag_ne hmn hA hQ hZ hlow (hrank.resolve_left fun h => h q) hi
      rw [← hBid i i hi hi] at hne
      unfold bidR at hne
      rw [if_pos rfl, h0] at hne
      simp at hne
    · exact .inl q
  rintro ⟨low, d1, e1⟩ μ4 ⟨c, w, d1n, e1n, inv, hm⟩
  dsimp only at d1n e1n inv ⊢
  refine wp_conseq (wp_eldenBack hl.safe d1n e1n hn binj (by omega) (fun i hi => inv.nz i hi hi) μ4) ?_
  rintro _ μ5 ⟨hx, f5⟩
  have hY := inv.solve (x := entry μ5 b) (fun j a hj ha => by rw [hx j a hj ha]; exact hm.vb j a (by omega) ha)
  refine wp_slice (by omega) (by omega) (by omega) (by omega) ?_
  refine wp_slice (by omega) (by omega) (by omega) (by omega) ?_
  refine wp_vslice (by omega) (by omega) ?_
  have gA5 : ∀ i j, i < A.m → j < A.n → μ5 (A.cell i j) = μ1 (A.cell i j) := fun i j hi hj => by
    rw [f5 _ (dAb i j hi hj), hm.frame _ (dAb i j hi hj) (dAk i j hi hj), f3 _ (dAk i j hi hj)]; exact gA i j hi hj
  have gt5 : ∀ i, i < A.n → μ5 (tauw.cell i) = μ1 (tauw.cell i) := fun i hi => by
    rw [f5 _ (dwb i (by omega)), hm.frame _ (dwb i (by omega)) (dwk i (by omega)), f3 _ (dwk i (by omega)), f2 _ (dwb i (by omega)) (dtw i (by omega))]
  obtain ⟨ν, x6, h6, f6⟩ := C47_unmq (hhOps (𝕜 := 𝕜) hp).isReal nb .Left .ConjTrans .Forward .Rowwise (A.sub 0 (A.n - 1) 1 A.n) (tauw.sub 0 (A.n - 1))
    (b.sub 1 A.n 0 b.n) work
    ⟨.inl rfl, binj.sub (by omega) (by omega), winj, (dAb.sub_left (by omega) (by omega)).sub_right (by omega) (by omega),
      fun i j hi hj => by simp only [MatV.sub] at hi hj ⊢; exact dAw _ _ (by omega) (by omega),
      fun i hi ho => by simp only [VecV.sub] at hi ho ⊢; exact dwb _ (by omega) (ho.sub (by omega) (by omega)),
      fun i hi => by simp only [VecV.sub] at hi ⊢; exact dtw _ (by omega),
      fun i j hi hj => by simp only [MatV.sub] at hi hj ⊢; exact dbw _ _ (by omega) (by omega),
      by simp [MatV.sub, VecV.sub], by simp [MatV.sub, VecV.sub], hnb, by simpa [VecV.sub] using w3⟩ (.inr (.inl rfl)) hreal μ5
  refine wp_of_eq x6 ?_
  simp only [wp_pure]
  have hX : mat A.n b.n (entry ν b) = reflProd A.n 0 (A.n - 1) (ventry μ1 tauw) (reflRow 1 A.n (entry μ1 A)) * mat A.n b.n (entry μ5 b) := by
    rw [← conjTranspose_conjTranspose (reflProd A.n 0 (A.n - 1) (ventry μ1 tauw) (reflRow 1 A.n (entry μ1 A))), reflRow_emb (by omega), ← emb_conjTranspose,
      emb_mul_mat (by omega), mat_ext_iff]
    rw [if_pos rfl] at h6
    have e6 : houseQ .Forward .Rowwise (A.n - 1) (A.n - 1) (entry μ5 (A.sub 0 (A.n - 1) 1 A.n)) (ventry μ5 (tauw.sub 0 (A.n - 1))) =
        houseQ .Forward .Rowwise (A.n - 1) (A.n - 1) (fun i c => entry μ1 A i (1 + c)) (ventry μ1 tauw) := by
      refine houseQ_congr (fun i r hi hr => ?_) (fun i hi => ?_)
      · unfold houseVec
        simp only [entry, MatV.sub, Nat.zero_add]
        rw [gA5 i (1 + r) (by omega) (by omega)]
      · simp only [ventry, VecV.sub, Nat.zero_add]
        exact gt5 i (by omega)
    have h6' : mat (A.n - 1) b.n (fun i j => entry ν b (1 + i) j) = (houseQ .Forward .Rowwise (A.n - 1) (A.n - 1) (fun i c => entry μ1 A i (1 + c)) (ventry μ1 tauw))ᴴ *
        mat (A.n - 1) b.n (fun i j => entry μ5 b (1 + i) j) := by
      rw [← e6]
      have a1 : (fun i j => entry ν b (1 + i) j) = entry ν (b.sub 1 A.n 0 b.n) := by funext i j; simp only [entry, MatV.sub, Nat.zero_add]
      have a2 : (fun i j => entry μ5 b (1 + i) j) = entry μ5 (b.sub 1 A.n 0 b.n) := by funext i j; simp only [entry, MatV.sub, Nat.zero_add]
      rw [a1, a2]
      exact h6
    intro i j hi hj
    beta_reduce
    by_cases q : 1 ≤ i
    · rw [if_pos ⟨q, by omega⟩]
      rw [← mat_toF (houseQ .Forward .Rowwise (A.n - 1) (A.n - 1) (fun i c => entry μ1 A i (1 + c)) (ventry μ1 tauw))ᴴ, mat_mul, mat_ext_iff] at h6'
      have h7 := h6' (i - 1) j (by omega) hj
      rw [← h7]
      show entry ν b i j = entry ν b (1 + (i - 1)) j
      rw [show 1 + (i - 1) = i by omega]
    · rw [if_neg (by omega)]
      refine f6 _ (fun ho => ?_) (dbw i j (by omega) hj)
      obtain ⟨i', j', hi', hj', ee⟩ := ho
      simp only [MatV.sub] at hi' hj' ee
      have := (binj _ _ _ _ (by omega) (by omega) (by omega) hj ee).1
      omega
  refine ⟨elden_normal hmn hA hQ hZ hlow hB' hX ?_, fun l a1 a2 a3 a4 a5 a6 => ?_⟩
  · have e1 : mat A.n A.n (bidUF (entry μ1 A)) = mat A.n A.n fun i j => ((bidR false d.f e.f i j : ℝ) : 𝕜) :=
      mat_ext_iff.2 fun i j hi hj => (hBid i j hi hj).symm
    have e2 : mat A.n b.n (entry μ3 b) = mat A.n b.n (entry μ2' b) := mat_ext_iff.2 fun i j hi hj => gb3 i j (by omega) hj
    rw [e1, ← e2]
    exact hY
  · rw [f6 l (fun ho => a2 (ho.sub (by omega) (by omega))) a6, f5 l a2, hm.frame l a2 a5, f3 l a5, f2 l a2 a6, f1 l a1 (osub (by omega) a3) (osub (by omega) a4) a6]

/-- **C89** Column by column the returned `x` is the unique minimiser of `‖A y - b‖² + lambda² ‖y‖²`. -/
theorem C89_tik_elden_min (h1 : 0 < p.safmin) (h2 : 0 < p.safmax) (hl : HhLaws 𝕜 hp)
    (hreal : (hhOps (𝕜 := 𝕜) hp).isReal = true → ∀ z : 𝕜, star z = z)
    (nb : Nat) (A b : MatV L) (tauv tauw : VecV L) (wk : MatV L) (work : VecV L)
    (ok : EldenOK nb A b tauv tauw wk work) (lam : ℝ) (μ : Store L 𝕜)
    (hrank : lam ≠ 0 ∨ Function.Injective (mat A.m A.n (entry μ A)).mulVec)
    (hb : frobSq A.m A.n (entry μ A) ≤ hp.tbig ^ 2) :
    ∃ ν, tikElden (hhOps hp) p RCLike.re nb A b lam tauv tauw wk work μ = (.ok (), ν) ∧
      ∀ j, j < b.n → ∀ y, y ≠ vec A.n (fun i => entry ν b i j) →
        tikhonov (mat A.m A.n (entry μ A)) (vec A.m fun i => entry μ b i j) lam (vec A.n fun i => entry ν b i j) <
        tikhonov (mat A.m A.n (entry μ A)) (vec A.m fun i => entry μ b i j) lam y := by
  obtain ⟨ν, e, h, -⟩ := C89_tik_elden h1 h2 hl hreal nb A b tauv tauw wk work ok lam μ hrank hb
  refine ⟨ν, e, fun j hj y hy => tik_min hrank ?_ hy⟩
  funext i
  have := congrFun (congrFun h i) ⟨j, hj⟩
  simpa only [Matrix.mul_apply, Matrix.mulVec, dotProduct, vec, mat] using this

/-- **C89** Both solvers of tkhnv give the same answer. -/
theorem C89_agrees_with_qr (h1 : 0 < p.safmin) (h2 : 0 < p.safmax) (hl : HhLaws 𝕜 hp)
    (hreal : (hhOps (𝕜 := 𝕜) hp).isReal = true → ∀ z : 𝕜, star z = z)
    (nb : Nat) (A b : MatV L) (tauv tauw : VecV L) (wk : MatV L) (work : VecV L)
    (ok : EldenOK nb A b tauv tauw wk work) (tau1 : VecV L) (Raug : MatV L) (tau2 : VecV L) (baug : MatV L) (work' : VecV L)
    (ok' : TikOK nb A b tau1 Raug tau2 baug work') (lam : ℝ) (μ : Store L 𝕜)
    (hrank : lam ≠ 0 ∨ Function.Injective (mat A.m A.n (entry μ A)).mulVec)
    (hb : frobSq A.m A.n (entry μ A) ≤ hp.tbig ^ 2) (hb' : ∀ c, c < A.n → ∑ r ∈ range A.m, ‖entry μ A r c‖ ^ 2 + lam ^ 2 ≤ hp.tbig ^ 2) :
    ∃ ν ν', tikElden (hhOps hp) p RCLike.re nb A b lam tauv tauw wk work μ = (.ok (), ν) ∧
      tikQr (hhOps hp) nb A b (lam : 𝕜) tau1 Raug tau2 baug work' μ = (.ok (), ν') ∧
      mat A.n b.n (entry ν b) = mat A.n b.n (entry ν' b) := by
  obtain ⟨ν, e, h, -⟩ := C89_tik_elden h1 h2 hl hreal nb A b tauv tauw wk work ok lam μ hrank hb
  obtain ⟨ν', e', h', -⟩ := C70_tik_qr hl hreal nb A b tau1 Raug tau2 baug work' ok' lam μ hrank hb'
  refine ⟨ν, ν', e, e', ?_⟩
  have hu : IsUnit ((mat A.m A.n (entry μ A))ᴴ * mat A.m A.n (entry μ A) + ((lam : 𝕜) ^ 2) • 1) := by
    open scoped ComplexOrder in
    exact (tik_posDef (A := mat A.m A.n (entry μ A)) hrank).isUnit
  rw [← h'] at h
  have hi := Matrix.nonsing_inv_mul _ ((Matrix.isUnit_iff_isUnit_det _).1 hu)
  have h3 := congrArg (((mat A.m A.n (entry μ A))ᴴ * mat A.m A.n (entry μ A) + ((lam : 𝕜) ^ 2) • 1)⁻¹ * ·) h
  simpa only [← Matrix.mul_assoc, hi, Matrix.one_mul] using h3

/-- **C89** (deviation) A matrix without columns is accepted by the other solver but not by this one: an array of `n - 1` elements is asked for. -/
theorem C89_empty_violated (hl : HhLaws 𝕜 hp) (hreal : (hhOps (𝕜 := 𝕜) hp).isReal = true → ∀ z : 𝕜, star z = z)
    (nb : Nat) (hnb : 0 < nb) (A b : MatV L) (tauv tauw : VecV L) (wk : MatV L) (work : VecV L) (lam : ℝ) (μ : Store L 𝕜) (hn : A.n = 0) (hbm : b.m = A.m)
    (brd : BrdOK A tauv tauw work) (binj : b.Inj) (dvb : tauv.DisjM b) (dbw : b.DisjV work) (tvn : tauv.n = 0)
    (w1 : (gebrdWorksize nb A).size ≤ work.n) (w2 : (unmqBlkWorksize .Left b 0 nb).size ≤ work.n) :
    ∃ ν, tikElden (hhOps hp) p RCLike.re nb A b lam tauv tauw wk work μ = (.error (.runtime 0), ν) := by
  have key : wp (tikElden (hhOps hp) p RCLike.re nb A b lam tauv tauw wk work) μ (fun _ _ => False) (fun e _ => e = .runtime 0) := by
    unfold tikElden
    simp only [wp_bind]
    refine wp_check.2 ?_
    rw [if_pos (show decide (A.m ≥ A.n) = true by simp [hn])]
    obtain ⟨μ1, x1, -⟩ := C76_gebrd_upper hl nb hnb A tauv tauw work brd (by omega) (by omega) (by omega) w1 μ (by
      unfold frobSq; rw [hn]; simp; positivity)
    refine wp_of_eq x1 ?_
    obtain ⟨μ2, x2, -⟩ := C47_unmq (hhOps (𝕜 := 𝕜) hp).isReal nb .Left .ConjTrans .Forward .Columnwise A tauv b work
      ⟨.inl rfl, binj, brd.qv.winj, fun i j _ hj => by omega, fun i j _ hj => by omega, dvb, brd.qv.tw, dbw, by simp [hbm, tvn, hn], by simp [tvn], hnb, by rw [tvn]; exact w2⟩
      (.inr (.inl rfl)) hreal μ1
    refine wp_of_eq x2 ?_
    unfold tikCopy
    rw [if_pos hn]
    exact rfl
  unfold wp at key
  rcases hx : tikElden (hhOps hp) p RCLike.re nb A b lam tauv tauw wk work μ with ⟨r, ν⟩
  rw [hx] at key
  cases r with
  | ok _ => exact key.elim
  | error e => exact ⟨ν, by rw [show e = .runtime 0 from key]⟩

/-- Ones in a 3×2 matrix, two right hand sides, `lambda = 1`. -/
example : EldenOK 32 (mkM 0 3 2) (mkM 1 3 2) (mkV 2 2) (mkV 3 2) (mkM 4 2 2) (mkV 5 1000) ∧
    frobSq (mkM 0 3 2).m (mkM 0 3 2).n (entry (fun _ => (1 : ℂ)) (mkM 0 3 2)) ≤ (doublePar false).tbig ^ 2 ∧
    HhLaws ℂ (doublePar false) ∧ ((hhOps (𝕜 := ℂ) (doublePar false)).isReal = true → ∀ z : ℂ, star z = z) := by
  refine ⟨⟨?_, ?_, ?_, ?_, ?_, ?_, ?_, ?_, ⟨⟨?_, ?_, ?_, ?_, ?_, ?_⟩, ⟨?_, ?_, ?_, ?_, ?_, ?_⟩, ?_⟩, ?_, ?_, ?_, ?_, ?_, ?_, ?_, ?_, ?_, ?_, ?_, ?_⟩, ?_,
    doublePar_laws _ (by simp), by simp [hhOps, doublePar, luOps]⟩ <;> try adm
  simp only [frobSq, entry, norm_one, mkM, doublePar]
  simp only [one_pow, Finset.sum_const, Finset.card_range, nsmul_eq_mul, mul_one]
  rw [← pow_mul]
  refine le_trans ?_ (pow_le_pow_right₀ (by norm_num : (1 : ℝ) ≤ 2) (by norm_num : 3 ≤ 486 * 2))
  norm_num

end TLA
