import Verif.Proofs.SteqrAlg
import Verif.Proofs.RotView
import Verif.Proofs.KernelRot
import Verif.Proofs.KernelEig
set_option linter.unusedTactic false
set_option linter.unusedVariables false
set_option linter.unusedSimpArgs false
set_option linter.unreachableTactic false

/-! # steqr: monadic part of the sweeps -/

namespace TLA
open Finset Matrix Kernel
variable {L 𝕜 : Type} [DecidableEq L] [RCLike 𝕜] [DecidableEq 𝕜]

/-- The only failure of steqr. -/
abbrev DZ {L T : Type} : Err → Store L T → Prop := fun e _ => e = .divz

theorem wp_rget {L T : Type} {d : RArr} {i : Nat} {μ : Store L T} {Q : ℝ → Store L T → Prop} {E} (h : i < d.n) (hQ : Q (d.f i) μ) :
    wp (d.get i : M L T ℝ) μ Q E := by
  unfold RArr.get; rw [if_pos h]; exact hQ

theorem wp_rset {L T : Type} {d : RArr} {i : Nat} {v : ℝ} {μ : Store L T} {Q : RArr → Store L T → Prop} {E} (h : i < d.n)
    (hQ : Q ⟨d.n, fun k => if k = i then v else d.f k⟩ μ) : wp (d.set i v : M L T RArr) μ Q E := by
  unfold RArr.set; rw [if_pos h]; exact hQ

theorem wp_liftO {L T α : Type} {x : Option α} {μ : Store L T} {Q : α → Store L T → Prop} (hQ : ∀ a, x = some a → Q a μ) :
    wp (liftO x : M L T α) μ Q DZ := by
  cases x with
  | none => exact (rfl : Err.divz = Err.divz)
  | some a => exact hQ a rfl

theorem wp_liftO_some {L T α : Type} {x : Option α} {a : α} {μ : Store L T} {Q : α → Store L T → Prop} {E} (h : x = some a) (hQ : Q a μ) :
    wp (liftO x : M L T α) μ Q E := by
  subst h; exact hQ

theorem lartg_ok {p : RotPar} (h1 : 0 < p.safmin) (h2 : 0 < p.safmax) (a b : ℝ) :
    ∃ c s r, lartg p a b = some (c, s, r) ∧ RotOK a b r c s := by
  obtain ⟨r, z, c, s, e, ok, -⟩ := rotg_ok h1 h2 a b
  refine ⟨c, s, r, ?_, ok⟩
  unfold lartg; rw [e]; rfl

/-- The real matrix `Q` seen as a matrix over `𝕜`. -/
noncomputable abbrev emb𝕜 (𝕜 : Type) [RCLike 𝕜] {n : Nat} (Q : Matrix (Fin n) (Fin n) ℝ) : Matrix (Fin n) (Fin n) 𝕜 :=
  Q.map (fun x : ℝ => (x : 𝕜))

theorem embR_mul {n : Nat} (P Q : Matrix (Fin n) (Fin n) ℝ) : emb𝕜 𝕜 (P * Q) = emb𝕜 𝕜 P * emb𝕜 𝕜 Q := by
  ext i j
  simp only [map_apply, mul_apply, RCLike.ofReal_sum, RCLike.ofReal_mul]

theorem embR_rot {n p q : Nat} (c s : ℝ) : emb𝕜 𝕜 (rotMat n p q c s)ᵀ = (rotMat n p q (c : 𝕜) (s : 𝕜))ᵀ := by
  ext i j
  simp only [rotMat, mat, map_apply, transpose_apply, of_apply, rotF]
  split_ifs <;> simp

/-- State of `Z` after the rotations collected in `Q`. -/
structure ZSt (n : Nat) (wantz : Bool) (Z : MatV L) (μ : Store L 𝕜) (Q : Matrix (Fin n) (Fin n) ℝ) (ν : Store L 𝕜) : Prop where
  val : wantz = true → mat Z.m n (entry ν Z) = mat Z.m n (entry μ Z) * emb𝕜 𝕜 Q
  frame : ∀ l, ¬ (wantz = true ∧ Z.Owns l) → ν l = μ l

variable {n : Nat} {wantz : Bool} {Z : MatV L} {μ ν : Store L 𝕜} {Q : Matrix (Fin n) (Fin n) ℝ}

theorem ZSt.start (μ : Store L 𝕜) : ZSt n wantz Z μ 1 μ := by
  refine ⟨fun _ => ?_, fun _ _ => rfl⟩
  rw [show emb𝕜 𝕜 (1 : Matrix (Fin n) (Fin n) ℝ) = 1 from by
    ext i j; by_cases h : i = j <;> simp [h, one_apply], Matrix.mul_one]

theorem wp_stqRot (hZ : wantz = true → Z.Inj ∧ Z.n = n) (h : ZSt n wantz Z μ Q ν) {i j : Nat} (hi : i < n) (hj : j < n) (hij : i ≠ j)
    (c s : ℝ) {E} : wp (stqRot (fun x : ℝ => (x : 𝕜)) wantz Z i j c s) ν (fun _ ν' => ZSt n wantz Z μ (Q * (rotMat n i j c s)ᵀ) ν') E := by
  unfold stqRot
  cases wantz with
  | false =>
    rw [if_neg (by simp)]
    exact ⟨fun h => by simp at h, h.frame⟩
  | true =>
    obtain ⟨hinj, hn⟩ := hZ rfl
    rw [if_pos rfl]
    simp only [wp_bind]
    refine wp_sliceCol (by omega) le_rfl (by omega) ?_
    refine wp_sliceCol (by omega) le_rfl (by omega) ?_
    refine wp_mono (wp_rotCols (MState.start Z ν) hinj (by omega) (by omega) hij le_rfl _ _) (fun _ ν' hν => ?_) (fun _ _ h => h.elim)
    refine ⟨fun _ => ?_, fun l hl => ?_⟩
    · have e1 : mat Z.m n (entry ν' Z) = mat Z.m n (rowMap (pairRot i j (c : 𝕜) (s : 𝕜)) (entry ν Z)) := by
        refine mat_ext_iff.2 fun r v hr hv => ?_
        have := hν.val r v hr (by omega)
        rw [if_pos hr] at this
        exact this
      rw [e1, mat_rowMap_rot hi hj hij, h.val rfl, embR_mul, embR_rot, Matrix.mul_assoc]
    · rw [hν.frame l (fun ho => hl ⟨rfl, ho⟩)]
      exact h.frame l hl

/-- `T1 = Q T2 Q^T` with `Q` orthogonal, for tridiagonal matrices. -/
structure TSim (n : Nat) (d e d' e' : Nat → ℝ) (G : Matrix (Fin n) (Fin n) ℝ) : Prop where
  orth : Gᵀ * G = 1
  sim : mat n n (triS d e) = G * mat n n (triS d' e') * Gᵀ

theorem wp_stqShift {p q ee dd : ℝ} {ν : Store L 𝕜} {Q : ℝ → Store L 𝕜 → Prop} (hQ : ∀ a, Q a ν) : wp (stqShift p q ee dd : M L 𝕜 ℝ) ν Q DZ := by
  unfold stqShift
  simp only [wp_bind]
  refine wp_liftO fun a _ => wp_liftO fun b _ => hQ _

/-- The off-diagonal entries outside `[a, b)` are unchanged. -/
def EFix (a b : Nat) (e e' : Nat → ℝ) : Prop := ∀ j, j < a ∨ b ≤ j → e' j = e j

set_option maxHeartbeats 1000000 in
theorem wp_stqFwd {p : RotPar} (h1 : 0 < p.safmin) (h2 : 0 < p.safmax) (hZ : wantz = true → Z.Inj ∧ Z.n = n) (h : ZSt n wantz Z μ Q ν)
    {istart istop : Nat} {d e : RArr} (hd : d.n = n) (he : e.n + 1 = n) (hs : istart + 2 ≤ istop) (hn : istop ≤ n)
    (hl : 0 < istart → e.f (istart - 1) = 0) (hr : istop < n → e.f (istop - 1) = 0) :
    wp (stqFwd p (fun x : ℝ => (x : 𝕜)) wantz Z istart istop d e) ν (fun x ν' => x.1.n = n ∧ x.2.n + 1 = n ∧
      EFix istart (istop - 1) e.f x.2.f ∧ ∃ G, TSim n d.f e.f x.1.f x.2.f G ∧ ZSt n wantz Z μ (Q * G) ν') DZ := by
  unfold stqFwd
  simp only [wp_bind]
  refine wp_rget (by omega) (wp_rget (by omega) (wp_rget (by omega) (wp_rget (by omega) (wp_stqShift fun g0 => ?_))))
  have hf : Function.Injective (fun i : Nat => (i : ℤ)) := fun a b h => by simpa using h
  refine wp_forUp (fun i x ν' => x.d.n = n ∧ x.e.n + 1 = n ∧ EFix istart (istop - 1) e.f x.e.f ∧
    (istart < i → x.e.f (istop - 1) = e.f (istop - 1)) ∧
    ∃ G, SwInv n (fun i : Nat => (i : ℤ)) (mat n n (triS d.f e.f)) istart i x.g x.s x.c x.p (dUp x.d.f) (eUp n x.e.f) G ∧
      ZSt n wantz Z μ (Q * G) ν') (by omega) ?_ ?_ ?_
  · refine ⟨hd, he, fun _ _ => rfl, fun _ => rfl, 1, SwInv.start ?_ (triS_up _), by rwa [Matrix.mul_one]⟩
    unfold eUp
    split_ifs with q
    · have : ((istart : ℤ) - 1).toNat = istart - 1 := by omega
      rw [this, hl (by omega)]
    · rfl
  · rintro i x ν' hi1 hi2 ⟨xd, xe, xf, -, G, hG, hz⟩
    unfold stqFwdStep
    simp only [wp_bind]
    refine wp_rget (by omega) ?_
    obtain ⟨c, s, r, er, ok⟩ := lartg_ok h1 h2 x.g (x.s * x.e.f i)
    refine wp_liftO_some er ?_
    have hset : ∀ {Q' : RArr → Store L 𝕜 → Prop} {E}, Q' ⟨x.e.n, fun k => if i ≠ istart ∧ k = i - 1 then r else x.e.f k⟩ ν' →
        wp (if i ≠ istart then x.e.set (i - 1) r else pure x.e : M L 𝕜 RArr) ν' Q' E := by
      intro Q' E hq
      by_cases hii : i = istart
      · rw [if_neg (by simp [hii])]
        have : (⟨x.e.n, fun k => if i ≠ istart ∧ k = i - 1 then r else x.e.f k⟩ : RArr) = x.e := by
          simp [hii]
        rwa [this] at hq
      · rw [if_pos hii]
        refine wp_rset (by omega) ?_
        have : (fun k => if i ≠ istart ∧ k = i - 1 then r else x.e.f k) = fun k => if k = i - 1 then r else x.e.f k := by
          funext k; simp [hii]
        rwa [this] at hq
    refine hset (wp_rget (by omega) (wp_rget (by omega) (wp_rset (by omega) ?_)))
    refine wp_mono (wp_stqRot hZ hz (show i < n by omega) (show i + 1 < n by omega) (by omega) c s) ?_ (fun _ _ h => h)
    intro _ ν'' hz'
    have ei : eUp n x.e.f i = x.e.f i := by unfold eUp; rw [if_pos (by omega)]; rfl
    have di : ∀ (f : Nat → ℝ) (j : Nat), dUp f j = f j := fun f j => by simp [dUp]
    have di1 : ∀ (f : Nat → ℝ), dUp f ((i : ℤ) + 1) = f (i + 1) := fun f => by
      have := di f (i + 1); push_cast at this; exact this
    refine ⟨xd, xe, fun j hj => ?_, fun _ => ?_, G * (rotMat n i (i + 1) c s)ᵀ, ?_, by rw [← Matrix.mul_assoc]; exact hz'⟩
    · show (if i ≠ istart ∧ j = i - 1 then r else x.e.f j) = _
      rw [if_neg (by omega)]; exact xf j hj
    · show (if i ≠ istart ∧ istop - 1 = i - 1 then r else x.e.f (istop - 1)) = _
      rw [if_neg (by omega)]; exact xf _ (by omega)
    · have key := SwInv.step hf (show i < n by omega) (show i + 1 < n by omega) (by push_cast; ring) (by push_cast; omega) hG
        (dz' := dUp fun k => if k = i then x.d.f i - x.p + s * ((x.d.f (i + 1) - (x.d.f i - x.p)) * s + 2 * c * (x.c * x.e.f i)) else x.d.f k)
        (ez' := eUp n fun k => if i ≠ istart ∧ k = i - 1 then r else x.e.f k) ok.unit (r' := r) (by rw [ei]; exact ok.top)
        (by rw [ei]; exact ok.bot) ?_ ?_ ?_ ?_
      · simp only [ei, di, di1] at key
        push_cast
        exact key
      · simp only [ei, di, di1, if_pos]
      · intro j hj
        unfold dUp
        by_cases q0 : 0 ≤ j
        · rw [if_pos q0, if_pos q0]
          exact if_neg (by omega)
        · rw [if_neg q0, if_neg q0]
      · by_cases q : i = istart
        · rw [if_pos (by exact_mod_cast q)]
          congr 1
          funext k
          exact if_neg (by tauto)
        · rw [if_neg (by simpa using q)]
          unfold eUp
          rw [if_pos (by omega)]
          exact if_pos ⟨q, by omega⟩
      · intro j hj
        unfold eUp
        by_cases q0 : 0 ≤ j ∧ j + 1 < n
        · rw [if_pos q0, if_pos q0]
          exact if_neg (by omega)
        · rw [if_neg q0, if_neg q0]
  · rintro x ν' ⟨xd, xe, xf, xr, G, hG, hz⟩
    refine wp_rget (by omega) (wp_rset (by omega) (wp_rset (by omega) ?_))
    have hd' : ∀ (f : Nat → ℝ) (j : Nat), dUp f j = f j := fun f j => by simp [dUp]
    refine ⟨xd, xe, fun j hj => ?_, G, ⟨hG.orth, ?_⟩, hz⟩
    · show (if j = istop - 2 then x.g else x.e.f j) = _
      rw [if_neg (by omega)]; exact xf j hj
    · have key := hG.final (by omega)
        (dz' := dUp fun k => if k = istop - 1 then x.d.f (istop - 1) - x.p else x.d.f k)
        (ez' := eUp n fun k => if k = istop - 2 then x.g else x.e.f k) ?_ ?_ ?_ ?_ ?_
      · rw [key, ← triS_up]
      · unfold eUp
        split_ifs with q
        · rw [show ((istop - 1 : ℕ) : ℤ).toNat = istop - 1 by omega, xr (by omega), hr (by omega)]
        · rfl
      · rw [hd', hd', if_pos rfl]
      · intro j hj
        unfold dUp
        by_cases q0 : 0 ≤ j
        · rw [if_pos q0, if_pos q0]
          exact if_neg (by omega)
        · rw [if_neg q0, if_neg q0]
      · unfold eUp
        rw [if_pos (by omega)]
        exact if_pos (by omega)
      · intro j hj
        unfold eUp
        by_cases q0 : 0 ≤ j ∧ j + 1 < n
        · rw [if_pos q0, if_pos q0]
          exact if_neg (by omega)
        · rw [if_neg q0, if_neg q0]

set_option maxHeartbeats 1000000 in
theorem wp_stqBwd {p : RotPar} (h1 : 0 < p.safmin) (h2 : 0 < p.safmax) (hZ : wantz = true → Z.Inj ∧ Z.n = n) (h : ZSt n wantz Z μ Q ν)
    {istart istop : Nat} {d e : RArr} (hd : d.n = n) (he : e.n + 1 = n) (hs : istart + 2 ≤ istop) (hn : istop ≤ n)
    (hl : 0 < istart → e.f (istart - 1) = 0) (hr : istop < n → e.f (istop - 1) = 0) :
    wp (stqBwd p (fun x : ℝ => (x : 𝕜)) wantz Z istart istop d e) ν (fun x ν' => x.1.n = n ∧ x.2.n + 1 = n ∧
      EFix istart (istop - 1) e.f x.2.f ∧ ∃ G, TSim n d.f e.f x.1.f x.2.f G ∧ ZSt n wantz Z μ (Q * G) ν') DZ := by
  unfold stqBwd
  simp only [wp_bind]
  refine wp_rget (by omega) (wp_rget (by omega) (wp_rget (by omega) (wp_rget (by omega) (wp_stqShift fun g0 => ?_))))
  have hf : Function.Injective (fun i : Nat => -(i : ℤ)) := fun a b h => by simpa using h
  have di : ∀ (f : Nat → ℝ) (j : Nat), dDn f (-(j : ℤ)) = f j := fun f j => by simp [dDn]
  refine wp_forDown (fun i x ν' => x.d.n = n ∧ x.e.n + 1 = n ∧ EFix istart (istop - 1) e.f x.e.f ∧
    ∃ G, SwInv n (fun i : Nat => -(i : ℤ)) (mat n n (triS d.f e.f)) (-((istop - 1 : ℕ) : ℤ)) (-((i - 1 : ℕ) : ℤ)) x.g x.s x.c x.p
        (dDn x.d.f) (eDn n x.e.f) G ∧
      ZSt n wantz Z μ (Q * G) ν') (by omega) ?_ ?_ ?_
  · refine ⟨hd, he, fun _ _ => rfl, 1, SwInv.start ?_ (triS_dn _), by rwa [Matrix.mul_one]⟩
    unfold eDn
    split_ifs with q
    · rw [show (-(-((istop - 1 : ℕ) : ℤ) - 1)).toNat - 1 = istop - 1 by omega, hr (by omega)]
    · rfl
  · rintro i x ν' hi1 hi2 ⟨xd, xe, xf, G, hG, hz⟩
    unfold stqBwdStep
    simp only [wp_bind]
    refine wp_rget (by omega) ?_
    obtain ⟨c, s, r, er, ok⟩ := lartg_ok h1 h2 x.g (x.s * x.e.f (i - 1))
    refine wp_liftO_some er ?_
    have hset : ∀ {Q' : RArr → Store L 𝕜 → Prop} {E}, Q' ⟨x.e.n, fun k => if i ≠ istop - 1 ∧ k = i then r else x.e.f k⟩ ν' →
        wp (if i ≠ istop - 1 then x.e.set i r else pure x.e : M L 𝕜 RArr) ν' Q' E := by
      intro Q' E hq
      by_cases hii : i = istop - 1
      · rw [if_neg (by simp [hii])]
        have : (⟨x.e.n, fun k => if i ≠ istop - 1 ∧ k = i then r else x.e.f k⟩ : RArr) = x.e := by
          simp [hii]
        rwa [this] at hq
      · rw [if_pos hii]
        refine wp_rset (by omega) ?_
        have : (fun k => if i ≠ istop - 1 ∧ k = i then r else x.e.f k) = fun k => if k = i then r else x.e.f k := by
          funext k; simp [hii]
        rwa [this] at hq
    refine hset (wp_rget (by omega) (wp_rget (by omega) (wp_rset (by omega) ?_)))
    refine wp_mono (wp_stqRot hZ hz (show i < n by omega) (show i - 1 < n by omega) (by omega) c s) ?_ (fun _ _ h => h)
    intro _ ν'' hz'
    rw [Nat.add_sub_cancel] at hG
    have ei : eDn n x.e.f (-(i : ℤ)) = x.e.f (i - 1) := by unfold eDn; rw [if_pos (by omega)]; congr 1; omega
    have ec : -((i - 1 : ℕ) : ℤ) = -(i : ℤ) + 1 := by omega
    have di1 : ∀ (f : Nat → ℝ), dDn f (-(i : ℤ) + 1) = f (i - 1) := fun f => by rw [← ec, di]
    refine ⟨xd, xe, fun j hj => ?_, G * (rotMat n i (i - 1) c s)ᵀ, ?_, by rw [← Matrix.mul_assoc]; exact hz'⟩
    · show (if i ≠ istop - 1 ∧ j = i then r else x.e.f j) = _
      rw [if_neg (by omega)]; exact xf j hj
    · have key := SwInv.step hf (show i < n by omega) (show i - 1 < n by omega) ec (by omega) hG
        (dz' := dDn fun k => if k = i then x.d.f i - x.p + s * ((x.d.f (i - 1) - (x.d.f i - x.p)) * s + 2 * c * (x.c * x.e.f (i - 1))) else x.d.f k)
        (ez' := eDn n fun k => if i ≠ istop - 1 ∧ k = i then r else x.e.f k) ok.unit (r' := r) (by rw [ei]; exact ok.top)
        (by rw [ei]; exact ok.bot) ?_ ?_ ?_ ?_
      · simp only [ei, di, di1] at key
        rw [ec]
        exact key
      · simp only [ei, di, di1, if_pos]
      · intro j hj
        unfold dDn
        by_cases q0 : j ≤ 0
        · rw [if_pos q0, if_pos q0]
          exact if_neg (by omega)
        · rw [if_neg q0, if_neg q0]
      · by_cases q : i = istop - 1
        · rw [if_pos (by simp [q])]
          congr 1
          funext k
          exact if_neg (by tauto)
        · rw [if_neg (by simpa using q)]
          unfold eDn
          rw [if_pos (by omega)]
          exact if_pos ⟨q, by omega⟩
      · intro j hj
        unfold eDn
        by_cases q0 : 0 < -j ∧ -j < n
        · rw [if_pos q0, if_pos q0]
          exact if_neg (by omega)
        · rw [if_neg q0, if_neg q0]
  · rintro x ν' ⟨xd, xe, xf, G, hG, hz⟩
    refine wp_rget (by omega) (wp_rset (by omega) (wp_rset (by omega) ?_))
    rw [Nat.add_sub_cancel] at hG
    refine ⟨xd, xe, fun j hj => ?_, G, ⟨hG.orth, ?_⟩, hz⟩
    · show (if j = istart then x.g else x.e.f j) = _
      rw [if_neg (by omega)]; exact xf j hj
    · have key := hG.final (by omega)
        (dz' := dDn fun k => if k = istart then x.d.f istart - x.p else x.d.f k)
        (ez' := eDn n fun k => if k = istart then x.g else x.e.f k) ?_ ?_ ?_ ?_ ?_
      · rw [key, ← triS_dn]
      · unfold eDn
        split_ifs with q
        · rw [show (-(-(istart : ℤ))).toNat - 1 = istart - 1 by omega, xf _ (by omega), hl (by omega)]
        · rfl
      · rw [di, di, if_pos rfl]
      · intro j hj
        unfold dDn
        by_cases q0 : j ≤ 0
        · rw [if_pos q0, if_pos q0]
          exact if_neg (by omega)
        · rw [if_neg q0, if_neg q0]
      · unfold eDn
        rw [if_pos (by omega)]
        exact if_pos (by omega)
      · intro j hj
        unfold eDn
        by_cases q0 : 0 < -j ∧ -j < n
        · rw [if_pos q0, if_pos q0]
          exact if_neg (by omega)
        · rw [if_neg q0, if_neg q0]

/-! ### Blocks of order two -/

theorem triS_congr {d e d' e' : Nat → ℝ} (hd : ∀ i, i < n → d' i = d i) (he : ∀ i, i + 1 < n → e' i = e i) :
    mat n n (triS d' e') = mat n n (triS d e) := by
  refine mat_ext_iff.2 fun i j hi hj => ?_
  unfold triS
  split_ifs with q1 q2 q3
  · exact hd i hi
  · exact he i (by omega)
  · exact he j (by omega)
  · rfl

theorem eigPair_diag {a b c s1 s2 : ℝ} (h : EigPair a b c s1 s2) : ∃ C S, Diag2 a b c s1 s2 C S := by
  obtain ⟨t1, t2, C, S, -, ⟨f1, f2, -⟩, hD⟩ := laev2_ok a b c
  obtain ⟨g1, g2, -⟩ := h
  have hs : (s1 - t1) * (s1 - t2) = 0 := by linear_combination s1 * g1 - s1 * f1 - g2 + f2
  rcases mul_eq_zero.1 hs with q | q
  · have e1 : s1 = t1 := by linarith
    have e2 : s2 = t2 := by linarith
    subst e1 e2
    exact ⟨C, S, hD⟩
  · have e1 : s1 = t2 := by linarith
    have e2 : s2 = t1 := by linarith
    subst e1 e2
    exact ⟨-S, C, diag_swap hD⟩

/-- The rotation of `Diag2` diagonalises an isolated block. -/
theorem tsim_two {d e : Nat → ℝ} {k : Nat} (hk : k + 1 < n) (hl : 0 < k → e (k - 1) = 0) (hr : k + 2 < n → e (k + 1) = 0) {s1 s2 C S : ℝ}
    (h : Diag2 (d k) (e k) (d (k + 1)) s1 s2 C S) :
    TSim n d e (fun i => if i = k + 1 then s2 else if i = k then s1 else d i) (fun i => if i = k then 0 else e i) (rotMat n k (k + 1) C S)ᵀ := by
  obtain ⟨hu, g1, g2, g3⟩ := h
  refine ⟨by rw [transpose_transpose]; exact rotMat_orth' (by omega) hk (by omega) hu, ?_⟩
  have o := rotMat_orth (show k < n by omega) hk (by omega) hu
  have key : rotMat n k (k + 1) C S * mat n n (triS d e) * (rotMat n k (k + 1) C S)ᵀ =
      mat n n (triS (fun i => if i = k + 1 then s2 else if i = k then s1 else d i) (fun i => if i = k then 0 else e i)) := by
    rw [← mat_colMap_rot (by omega) hk (by omega), ← mat_rowMap_rot (by omega) hk (by omega), mat_ext_iff]
    intro r v hr' hv
    have hsk : ∀ v, v < n → v ≠ k → v ≠ k + 1 → triS d e k v = 0 ∧ triS d e (k + 1) v = 0 ∧ triS d e v k = 0 ∧ triS d e v (k + 1) = 0 := by
      intro v hv h1 h2
      have z1 : v + 1 = k → e v = 0 := fun q => by rw [show v = k - 1 by omega]; exact hl (by omega)
      have z2 : k + 1 + 1 = v → e (k + 1) = 0 := fun q => hr (by omega)
      unfold triS
      refine ⟨?_, ?_, ?_, ?_⟩ <;> split_ifs <;> first | rfl | omega | (apply z1; assumption) | (apply z2; assumption)
    have a1 : ∀ (d e : Nat → ℝ) k, triS d e k k = d k := fun _ _ _ => by simp [triS]
    have a2 : ∀ (d e : Nat → ℝ) k, triS d e k (k + 1) = e k := fun _ _ _ => by simp [triS]
    have a3 : ∀ (d e : Nat → ℝ) k, triS d e (k + 1) k = e k := fun _ _ k => by
      unfold triS; rw [if_neg (by omega), if_neg (by omega), if_pos rfl]
    have hne : k ≠ k + 1 := by omega
    have hne' : k + 1 ≠ k := by omega
    simp only [rowMap, colMap, pairRot, star_trivial]
    by_cases v1 : v = k
    · subst v1
      rw [if_pos rfl]
      by_cases r1 : r = v
      · subst r1
        simp only [a1, a2, a3, if_true, if_neg hne]
        linear_combination g1
      · by_cases r2 : r = v + 1
        · subst r2
          simp only [a1, a2, a3, if_true, if_neg hne']
          linear_combination g2
        · obtain ⟨b1, b2, b3, b4⟩ := hsk r hr' r1 r2
          simp only [if_neg r1, if_neg r2, b3, b4]
          have z1 : r + 1 = v → e r = 0 := fun q => by rw [show r = v - 1 by omega]; exact hl (by omega)
          unfold triS
          beta_reduce
          split_ifs <;> first | ring1 | omega | (rw [z1 (by assumption)]; ring1)
    · by_cases v2 : v = k + 1
      · subst v2
        simp only [if_neg v1, if_true]
        by_cases r1 : r = k
        · subst r1
          simp only [a1, a2, a3, if_true, if_neg hne, if_neg hne']
          linear_combination g2
        · by_cases r2 : r = k + 1
          · subst r2
            simp only [a1, a2, a3, if_true, if_neg hne']
            linear_combination g3
          · obtain ⟨b1, b2, b3, b4⟩ := hsk r hr' r1 r2
            simp only [if_neg r1, if_neg r2, b3, b4]
            have z2 : k + 1 + 1 = r → e (k + 1) = 0 := fun q => hr (by omega)
            unfold triS
            beta_reduce
            split_ifs <;> first | ring1 | omega | (rw [z2 (by assumption)]; ring1)
      · simp only [if_neg v1, if_neg v2]
        obtain ⟨b1, b2, b3, b4⟩ := hsk v hv v1 v2
        by_cases r1 : r = k
        · subst r1
          simp only [if_true, b1, b2]
          have z1 : v + 1 = r → e v = 0 := fun q => by rw [show v = r - 1 by omega]; exact hl (by omega)
          unfold triS
          beta_reduce
          split_ifs <;> first | ring1 | omega | (rw [z1 (by assumption)]; ring1)
        · by_cases r2 : r = k + 1
          · subst r2
            simp only [if_neg r1, if_true, b1, b2]
            have z2 : k + 1 + 1 = v → e (k + 1) = 0 := fun q => hr (by omega)
            unfold triS
            beta_reduce
            split_ifs <;> first | ring1 | omega | (rw [z2 (by assumption)]; ring1)
          · simp only [if_neg r1, if_neg r2]
            unfold triS
            beta_reduce
            split_ifs <;> first | rfl | omega
  rw [← key, transpose_transpose]
  generalize rotMat n k (k + 1) C S = P at o
  calc mat n n (triS d e) = 1 * mat n n (triS d e) * 1 := by rw [Matrix.one_mul, Matrix.mul_one]
    _ = (Pᵀ * P) * mat n n (triS d e) * (Pᵀ * P) := by rw [o]
    _ = _ := by simp only [Matrix.mul_assoc]

theorem wp_stqTwo (hZ : wantz = true → Z.Inj ∧ Z.n = n) (h : ZSt n wantz Z μ Q ν)
    {istart : Nat} {d e : RArr} (hd : d.n = n) (he : e.n + 1 = n) (hn : istart + 2 ≤ n)
    (hl : 0 < istart → e.f (istart - 1) = 0) (hr : istart + 2 < n → e.f (istart + 1) = 0) :
    wp (stqTwo (fun x : ℝ => (x : 𝕜)) wantz Z istart d e) ν (fun x ν' => x.1.n = n ∧ x.2.n + 1 = n ∧
      x.2.f = (fun j => if j = istart then 0 else e.f j) ∧ ∃ G, TSim n d.f e.f x.1.f x.2.f G ∧ ZSt n wantz Z μ (Q * G) ν') := by
  unfold stqTwo
  simp only [wp_bind]
  refine wp_rget (by omega) (wp_rget (by omega) (wp_rget (by omega) ?_))
  have fin : ∀ {d0 : RArr}, d0 = d → ∀ {s1 s2 C S ν'}, Diag2 (d.f istart) (e.f istart) (d.f (istart + 1)) s1 s2 C S →
      ZSt n wantz Z μ (Q * (rotMat n istart (istart + 1) C S)ᵀ) ν' →
      wp (d.set istart s1 : M L 𝕜 RArr) ν' fun d ν => wp (d.set (istart + 1) s2 : M L 𝕜 RArr) ν fun d ν => wp (e.set istart 0 : M L 𝕜 RArr) ν fun e' ν =>
        wp (pure (d, e') : M L 𝕜 (RArr × RArr)) ν (fun x ν' => x.1.n = n ∧ x.2.n + 1 = n ∧
      x.2.f = (fun j => if j = istart then 0 else e.f j) ∧ ∃ G, TSim n d0.f e.f x.1.f x.2.f G ∧ ZSt n wantz Z μ (Q * G) ν') := by
    rintro d0 rfl s1 s2 C S ν' hD hz
    refine wp_rset (by omega) (wp_rset (by simp; omega) (wp_rset (by omega) ?_))
    exact ⟨hd, he, rfl, _, tsim_two (by omega) hl hr hD, hz⟩
  cases wantz with
  | true =>
    rw [if_pos rfl]
    obtain ⟨s1, s2, C, S, e1, -, hD⟩ := laev2_ok (d.f istart) (e.f istart) (d.f (istart + 1))
    simp only [wp_bind]
    refine wp_liftO_some e1 ?_
    refine wp_mono (wp_stqRot hZ h (show istart < n by omega) (show istart + 1 < n by omega) (by omega) C S) (fun _ ν' hz => ?_) (fun _ _ h => h)
    exact fin rfl hD hz
  | false =>
    rw [if_neg (by simp)]
    obtain ⟨s1, s2, e1, hE⟩ := lae2_ok (d.f istart) (e.f istart) (d.f (istart + 1))
    obtain ⟨C, S, hD⟩ := eigPair_diag hE
    refine wp_liftO_some e1 (fin rfl hD ⟨fun h => by simp at h, h.frame⟩)

end TLA
