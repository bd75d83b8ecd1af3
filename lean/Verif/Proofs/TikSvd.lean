import Verif.Proofs.Elden
import Verif.Proofs.UnmqBlk
import Verif.Props.Gebrd
import Verif.Props.BlockRefl
import Verif.Props.Tik
import Verif.Props.Svd
import Verif.Proofs.GesvdAlg
set_option linter.unusedVariables false
set_option linter.unusedTactic false

/-! # Pieces of tik_svd -/

namespace TLA
open Finset Matrix Kernel
variable {L 𝕜 : Type} [DecidableEq L] [RCLike 𝕜] [DecidableEq 𝕜] {p : RotPar} {hp : HhPar}

/-- From the bidiagonal problem, perturbed and scaled, to the original one. -/
theorem tik_lift {m n k : Nat} (hle : n ≤ m) {lam : ℝ} {B B0 B1 : Nat → Nat → 𝕜} {Q : Matrix (Fin m) (Fin m) 𝕜} {Z K : Matrix (Fin n) (Fin n) 𝕜}
    {A : Matrix (Fin m) (Fin n) 𝕜} {X Y : Matrix (Fin n) (Fin k) 𝕜} (hA : A = Q * mat m n B * Zᴴ) (hQ : Qᴴ * Q = 1) (hZ : Zᴴ * Z = 1)
    (hB : ∀ i j, n ≤ i → i < m → j < n → B i j = 0) (hb : mat m k B1 = Qᴴ * mat m k B0) (hX : X = Z * Y)
    (h : ((mat n n B)ᴴ * mat n n B + ((lam : 𝕜) ^ 2) • 1) * Y = K * ((mat n n B)ᴴ * mat n k B1)) :
    (Aᴴ * A + ((lam : 𝕜) ^ 2) • 1) * X = (Z * K * Zᴴ) * (Aᴴ * mat m k B0) := by
  have t1 : (mat m n B)ᴴ * mat m n B = (mat n n B)ᴴ * mat n n B := mul_top hle hB
  have t2 : (mat m n B)ᴴ * mat m k B1 = (mat n n B)ᴴ * mat n k B1 := mul_top hle hB
  have g : Aᴴ * A = Z * ((mat n n B)ᴴ * mat n n B) * Zᴴ := by
    rw [← t1, hA, conjTranspose_mul, conjTranspose_mul, conjTranspose_conjTranspose]
    calc Z * ((mat m n B)ᴴ * Qᴴ) * (Q * mat m n B * Zᴴ) = Z * ((mat m n B)ᴴ * (Qᴴ * Q) * mat m n B) * Zᴴ := by simp only [Matrix.mul_assoc]
      _ = _ := by rw [hQ, Matrix.mul_one]
  have r : Aᴴ * mat m k B0 = Z * ((mat n n B)ᴴ * mat n k B1) := by
    rw [← t2, hA, conjTranspose_mul, conjTranspose_mul, conjTranspose_conjTranspose, hb]
    simp only [Matrix.mul_assoc]
  have e2 : Z * K * Zᴴ * (Z * ((mat n n B)ᴴ * mat n k B1)) = Z * (K * ((mat n n B)ᴴ * mat n k B1)) := by
    calc Z * K * Zᴴ * (Z * ((mat n n B)ᴴ * mat n k B1)) = Z * K * (Zᴴ * Z) * ((mat n n B)ᴴ * mat n k B1) := by simp only [Matrix.mul_assoc]
      _ = _ := by rw [hZ, Matrix.mul_one]; simp only [Matrix.mul_assoc]
  rw [g, r, e2, hX, ← h, Matrix.add_mul, Matrix.add_mul, Matrix.mul_add, Matrix.smul_mul, Matrix.smul_mul, Matrix.one_mul, Matrix.one_mul, Matrix.mul_smul]
  congr 1
  calc Z * ((mat n n B)ᴴ * mat n n B) * Zᴴ * (Z * Y) = Z * ((mat n n B)ᴴ * mat n n B) * (Zᴴ * Z) * Y := by simp only [Matrix.mul_assoc]
    _ = _ := by rw [hZ, Matrix.mul_one]; simp only [Matrix.mul_assoc]

/-- The filtered solution of a problem whose singular value decomposition is known. -/
theorem svd_filter {n k : Nat} {lam : ℝ} (hlam : lam ≠ 0) {M P R : Matrix (Fin n) (Fin n) ℝ} {s : Fin n → ℝ} {δ1 δ2 : Fin n → ℝ}
    (oP : Pᵀ * P = 1) (oR : R * Rᵀ = 1) (hM : M = P * diagonal s * R) (C : Matrix (Fin n) (Fin k) 𝕜) :
    ((emb𝕜 𝕜 M)ᴴ * emb𝕜 𝕜 M + ((lam : 𝕜) ^ 2) • 1) * ((emb𝕜 𝕜 (diagonal δ2 * R))ᴴ *
        (emb𝕜 𝕜 (diagonal fun i => s i / (s i * s i + lam * lam)) * ((emb𝕜 𝕜 (P * diagonal δ1))ᴴ * C))) =
      emb𝕜 𝕜 (Rᵀ * diagonal (fun i => δ1 i * δ2 i) * R) * ((emb𝕜 𝕜 M)ᴴ * C) := by
  have hT : ∀ X : Matrix (Fin n) (Fin n) ℝ, (emb𝕜 𝕜 X)ᴴ = emb𝕜 𝕜 Xᵀ := fun X => by ext i j; simp [conjTranspose_apply]
  have hs : ((lam : 𝕜) ^ 2) • (1 : Matrix (Fin n) (Fin n) 𝕜) = emb𝕜 𝕜 ((lam ^ 2) • (1 : Matrix (Fin n) (Fin n) ℝ)) := by
    ext i j; by_cases q : i = j <;> simp [q, one_apply]
  have ha : ∀ X Y : Matrix (Fin n) (Fin n) ℝ, emb𝕜 𝕜 X + emb𝕜 𝕜 Y = emb𝕜 𝕜 (X + Y) := fun X Y => by ext i j; simp
  rw [hT, hT, hT, hs, ← embR_mul, ha, ← Matrix.mul_assoc, ← Matrix.mul_assoc, ← Matrix.mul_assoc, ← embR_mul, ← embR_mul, ← embR_mul, ← Matrix.mul_assoc, ← embR_mul]
  congr 2
  have oR' : Rᵀ * R = 1 := mul_eq_one_comm.1 oR
  subst hM
  simp only [transpose_mul, diagonal_transpose]
  have g : Rᵀ * (diagonal s * Pᵀ) * (P * diagonal s * R) + lam ^ 2 • (1 : Matrix (Fin n) (Fin n) ℝ) = Rᵀ * diagonal (fun i => s i * s i + lam * lam) * R := by
    have : (diagonal fun i => s i * s i + lam * lam) = diagonal s * diagonal s + (lam ^ 2) • (1 : Matrix (Fin n) (Fin n) ℝ) := by
      rw [diagonal_mul_diagonal, smul_one_eq_diagonal, diagonal_add]
      congr 1; funext i; ring
    rw [this, Matrix.mul_add, Matrix.add_mul]
    congr 1
    · calc Rᵀ * (diagonal s * Pᵀ) * (P * diagonal s * R) = Rᵀ * (diagonal s * ((Pᵀ * P) * diagonal s)) * R := by simp only [Matrix.mul_assoc]
        _ = _ := by rw [oP, Matrix.one_mul]
    · rw [Matrix.mul_smul, Matrix.mul_one, Matrix.smul_mul, oR']
  rw [g]
  have hd : ∀ i, s i * s i + lam * lam ≠ 0 := fun i => by
    have := mul_self_pos.2 hlam
    have := mul_self_nonneg (s i)
    linarith
  calc Rᵀ * diagonal (fun i => s i * s i + lam * lam) * R * (Rᵀ * diagonal δ2) * diagonal (fun i => s i / (s i * s i + lam * lam)) * (diagonal δ1 * Pᵀ)
      = Rᵀ * (diagonal (fun i => s i * s i + lam * lam) * (R * Rᵀ) * diagonal δ2 * diagonal (fun i => s i / (s i * s i + lam * lam)) * diagonal δ1) * Pᵀ := by
        simp only [Matrix.mul_assoc]
    _ = Rᵀ * (diagonal (fun i => δ1 i * δ2 i) * diagonal s) * Pᵀ := by
        rw [oR, Matrix.mul_one, diagonal_mul_diagonal, diagonal_mul_diagonal, diagonal_mul_diagonal, diagonal_mul_diagonal]
        congr 3; funext i
        have := hd i
        field_simp
    _ = Rᵀ * (diagonal (fun i => δ1 i * δ2 i) * (R * Rᵀ) * diagonal s) * Pᵀ := by rw [oR, Matrix.mul_one]
    _ = _ := by simp only [Matrix.mul_assoc]

theorem wp_tikScale {lam : ℝ} (hlam : lam ≠ 0) {d : RArr} {wk : MatV L} {n k : Nat} (hd : d.n = n) (hm : wk.m = n) (hk : wk.n = k) (hw : wk.Inj) (μ : Store L 𝕜) :
    wp (tikScale (fun x : ℝ => (x : 𝕜)) lam d wk n k) μ (fun _ ν =>
      MState wk μ (fun j i => entry μ wk j i * ((d.f j / (d.f j * d.f j + lam * lam) : ℝ) : 𝕜)) ν) := by
  unfold tikScale
  refine wp_forUp_ (fun a ν => MState wk μ (fun j i => if j < a then entry μ wk j i * ((d.f j / (d.f j * d.f j + lam * lam) : ℝ) : 𝕜) else entry μ wk j i) ν)
    (Nat.zero_le _) (MState.init wk μ _ fun _ _ _ _ => (if_neg (by omega)).symm) ?_ ?_
  · intro a ν _ ha hM
    refine wp_forUp_ (fun b ν => MState wk μ (fun j i => if j < a ∨ (j = a ∧ i < b) then entry μ wk j i * ((d.f j / (d.f j * d.f j + lam * lam) : ℝ) : 𝕜) else entry μ wk j i) ν)
      (Nat.zero_le _) (hM.congr fun j i _ _ => if_congr (by omega) rfl rfl) ?_ ?_
    · intro b ν' _ hb hM'
      simp only [wp_bind]
      refine wp_rget (by omega) ?_
      have hne : d.f a * d.f a + lam * lam ≠ 0 := by
        have := mul_self_pos.2 hlam
        have := mul_self_nonneg (d.f a)
        linarith
      refine wp_liftO_some (a := d.f a / (d.f a * d.f a + lam * lam)) (by unfold dv; rw [if_neg hne]) ?_
      refine wp_modifyE ⟨by omega, by omega⟩ ?_
      have e0 := hM'.val a b (by omega) (by omega)
      rw [if_neg (by omega)] at e0
      rw [e0]
      refine MState.upd (G' := fun j i => if j < a ∨ (j = a ∧ i < b + 1) then entry μ wk j i * ((d.f j / (d.f j * d.f j + lam * lam) : ℝ) : 𝕜) else entry μ wk j i)
        hM' hw (by omega) (by omega) fun j i hj hi => ?_
      beta_reduce
      by_cases q : j = a ∧ i = b
      · rw [if_pos q, if_pos (by omega), q.1, q.2]
      · rw [if_neg q]
        exact if_congr (by omega) rfl rfl
    · intro ν' hM'
      exact hM'.congr fun j i hj hi => if_congr (by omega) rfl rfl
  · intro ν hM
    exact hM.congr fun j i hj hi => (if_pos (by omega)).symm

/-- The last step: the reflectors of the rows applied to `x`. -/
theorem wp_tikZ (hreal : (hhOps (𝕜 := 𝕜) hp).isReal = true → ∀ z : 𝕜, star z = z) {nb : Nat} (hnb : 0 < nb) {A x : MatV L} {tauw work : VecV L} {n : Nat}
    (hn : 0 < n) (hAn : A.n = n) (hAm : n ≤ A.m) (hxm : n ≤ x.m) (htn : tauw.n = n) (xinj : x.Inj) (winj : work.Inj) (dAx : A.Disj x) (dAw : A.DisjV work)
    (dtx : tauw.DisjM x) (dtw : tauw.Disj work) (dxw : x.DisjV work) (w3 : (unmqBlkWorksize .Left (x.sub 1 n 0 x.n) (n - 1) nb).size ≤ work.n) (μ : Store L 𝕜)
    (Q : Nat → Store L 𝕜 → Prop) (err : Nat)
    (h : ∀ ν, mat n x.n (entry ν x) = reflProd n 0 (n - 1) (ventry μ tauw) (reflRow 1 n (entry μ A)) * mat n x.n (entry μ x) →
      (∀ l, ¬ x.Owns l → ¬ work.Owns l → ν l = μ l) → Q err ν) :
    wp (x.slice 1 n 0 x.n) μ fun x1 ν => wp (A.slice 0 (n - 1) 1 n) ν fun A2 ν => wp (tauw.slice 0 (n - 1)) ν fun t2 ν =>
      wp (unmqBlk (hhOps (𝕜 := 𝕜) hp).isReal nb .Left .ConjTrans .Forward .Rowwise A2 t2 x1 work) ν fun _ ν => wp (pure err : M L 𝕜 Nat) ν Q := by
  refine wp_slice (by omega) (by omega) (by omega) (by omega) ?_
  refine wp_slice (by omega) (by omega) (by omega) (by omega) ?_
  refine wp_vslice (by omega) (by omega) ?_
  obtain ⟨ν, x6, h6, f6⟩ := C47_unmq (hhOps (𝕜 := 𝕜) hp).isReal nb .Left .ConjTrans .Forward .Rowwise (A.sub 0 (n - 1) 1 n) (tauw.sub 0 (n - 1))
    (x.sub 1 n 0 x.n) work
    ⟨.inl rfl, xinj.sub (by omega) (by omega), winj, (dAx.sub_left (by omega) (by omega)).sub_right (by omega) (by omega),
      fun i j hi hj => by simp only [MatV.sub] at hi hj ⊢; exact dAw _ _ (by omega) (by omega),
      fun i hi ho => by simp only [VecV.sub] at hi ho ⊢; exact dtx _ (by omega) (ho.sub (by omega) (by omega)),
      fun i hi => by simp only [VecV.sub] at hi ⊢; exact dtw _ (by omega),
      fun i j hi hj => by simp only [MatV.sub] at hi hj ⊢; exact dxw _ _ (by omega) (by omega),
      by simp [MatV.sub, VecV.sub], by simp [MatV.sub, VecV.sub], hnb, by simpa [VecV.sub] using w3⟩ (.inr (.inl rfl)) hreal μ
  refine wp_of_eq x6 ?_
  simp only [wp_pure]
  refine h ν ?_ (fun l a1 a2 => f6 l (fun ho => a1 (ho.sub (by omega) (by omega))) a2)
  rw [← conjTranspose_conjTranspose (reflProd n 0 (n - 1) (ventry μ tauw) (reflRow 1 n (entry μ A))), reflRow_emb (by omega), ← emb_conjTranspose,
    emb_mul_mat (by omega), mat_ext_iff]
  rw [if_pos rfl] at h6
  have e6 : houseQ .Forward .Rowwise (n - 1) (n - 1) (entry μ (A.sub 0 (n - 1) 1 n)) (ventry μ (tauw.sub 0 (n - 1))) =
      houseQ .Forward .Rowwise (n - 1) (n - 1) (fun i c => entry μ A i (1 + c)) (ventry μ tauw) := by
    refine houseQ_congr (fun i r hi hr => ?_) (fun i hi => ?_)
    · unfold houseVec
      simp only [entry, MatV.sub, Nat.zero_add]
    · simp only [ventry, VecV.sub, Nat.zero_add]
  have h6' : mat (n - 1) x.n (fun i j => entry ν x (1 + i) j) = (houseQ .Forward .Rowwise (n - 1) (n - 1) (fun i c => entry μ A i (1 + c)) (ventry μ tauw))ᴴ *
      mat (n - 1) x.n (fun i j => entry μ x (1 + i) j) := by
    rw [← e6]
    have a1 : (fun i j => entry ν x (1 + i) j) = entry ν (x.sub 1 n 0 x.n) := by funext i j; simp only [entry, MatV.sub, Nat.zero_add]
    have a2 : (fun i j => entry μ x (1 + i) j) = entry μ (x.sub 1 n 0 x.n) := by funext i j; simp only [entry, MatV.sub, Nat.zero_add]
    rw [a1, a2]
    exact h6
  intro i j hi hj
  beta_reduce
  by_cases q : 1 ≤ i
  · rw [if_pos ⟨q, by omega⟩]
    rw [← mat_toF (houseQ .Forward .Rowwise (n - 1) (n - 1) (fun i c => entry μ A i (1 + c)) (ventry μ tauw))ᴴ, mat_mul, mat_ext_iff] at h6'
    have h7 := h6' (i - 1) j (by omega) hj
    rw [← h7]
    show entry ν x i j = entry ν x (1 + (i - 1)) j
    rw [show 1 + (i - 1) = i by omega]
  · rw [if_neg (by omega)]
    refine f6 _ (fun ho => ?_) (dxw i j (by omega) hj)
    obtain ⟨i', j', hi', hj', ee⟩ := ho
    simp only [MatV.sub] at hi' hj' ee
    have := (xinj _ _ _ _ (by omega) (by omega) (by omega) hj ee).1
    omega

end TLA
