import Verif.Model.Svd
import Verif.Proofs.SvdAlg
import Verif.Proofs.Steqr
import Verif.Proofs.KernelSvd
set_option linter.unusedTactic false
set_option linter.unusedVariables false
set_option linter.unusedSimpArgs false
set_option linter.unreachableTactic false
set_option linter.unusedSectionVars false

/-! # svd_qr: monadic part of the sweeps -/

namespace TLA
open Finset Matrix Kernel
variable {L 𝕜 : Type} [DecidableEq L] [RCLike 𝕜] [DecidableEq 𝕜]

/-- Requirements on the matrices of singular vectors. -/
structure SvReq (n : Nat) (wu wv : Bool) (U V : MatV L) : Prop where
  u : wu = true → U.Inj ∧ n ≤ U.n
  v : wv = true → V.Inj ∧ n ≤ V.m
  dj : wu = true → wv = true → U.Disj V

/-- State of `U` and `Vt` after the rotations collected in `P` and `Q`. -/
structure UV (n : Nat) (wu wv : Bool) (U V : MatV L) (μ : Store L 𝕜) (P Q : Matrix (Fin n) (Fin n) ℝ) (ν : Store L 𝕜) : Prop where
  uval : wu = true → mat U.m n (entry ν U) = mat U.m n (entry μ U) * emb𝕜 𝕜 P
  vval : wv = true → mat n V.n (entry ν V) = emb𝕜 𝕜 Q * mat n V.n (entry μ V)
  frame : ∀ l, ¬ (wu = true ∧ (U.firstCols n).Owns l) → ¬ (wv = true ∧ (V.firstRows n).Owns l) → ν l = μ l

variable {n : Nat} {wu wv : Bool} {U V : MatV L} {μ ν : Store L 𝕜} {P Q : Matrix (Fin n) (Fin n) ℝ}

theorem embR_one : emb𝕜 𝕜 (1 : Matrix (Fin n) (Fin n) ℝ) = 1 := by
  ext i j; by_cases h : i = j <;> simp [h, one_apply]

theorem UV.start (μ : Store L 𝕜) : UV n wu wv U V μ 1 1 μ :=
  ⟨fun _ => by rw [embR_one, Matrix.mul_one], fun _ => by rw [embR_one, Matrix.one_mul], fun _ _ _ => rfl⟩

theorem MatV.firstCols_own {U : MatV L} {n : Nat} (h : n ≤ U.n) {l : L} (ho : (U.firstCols n).Owns l) : U.Owns l := by
  obtain ⟨i, j, hi, hj, e⟩ := ho; exact ⟨i, j, hi, lt_of_lt_of_le hj h, e⟩

theorem MatV.firstRows_own {V : MatV L} {n : Nat} (h : n ≤ V.m) {l : L} (ho : (V.firstRows n).Owns l) : V.Owns l := by
  obtain ⟨i, j, hi, hj, e⟩ := ho; exact ⟨i, j, lt_of_lt_of_le hi h, hj, e⟩

theorem MatV.firstCols_inj {U : MatV L} {n : Nat} (hU : U.Inj) (h : n ≤ U.n) : (U.firstCols n).Inj :=
  fun a b c d h1 h2 h3 h4 e => hU a b c d h1 (lt_of_lt_of_le h2 h) h3 (lt_of_lt_of_le h4 h) e

theorem MatV.firstRows_inj {V : MatV L} {n : Nat} (hV : V.Inj) (h : n ≤ V.m) : (V.firstRows n).Inj :=
  fun a b c d h1 h2 h3 h4 e => hV a b c d (lt_of_lt_of_le h1 h) h2 (lt_of_lt_of_le h3 h) h4 e

/-- An operation on the first columns of `U`. -/
theorem UV.onU (hr : SvReq n wu wv U V) (h : UV n wu wv U V μ P Q ν) (hu : wu = true) {ν' : Store L 𝕜} {P' : Matrix (Fin n) (Fin n) ℝ}
    (h1 : mat U.m n (entry ν' U) = mat U.m n (entry μ U) * emb𝕜 𝕜 P') (h2 : ∀ l, ¬ (U.firstCols n).Owns l → ν' l = ν l) :
    UV n wu wv U V μ P' Q ν' := by
  refine ⟨fun _ => h1, fun hw => ?_, fun l g1 g2 => ?_⟩
  · rw [← h.vval hw]
    refine mat_ext_iff.2 fun r v hr' hv => ?_
    refine h2 _ fun ho => ?_
    have := MatV.firstCols_own (hr.u hu).2 ho
    obtain ⟨i, j, hi, hj, e⟩ := this
    exact hr.dj hu hw i j hi hj ⟨r, v, by have := (hr.v hw).2; omega, hv, e.symm⟩
  · rw [h2 l (fun ho => g1 ⟨hu, ho⟩), h.frame l g1 g2]

/-- An operation on the first rows of `Vt`. -/
theorem UV.onV (hr : SvReq n wu wv U V) (h : UV n wu wv U V μ P Q ν) (hv : wv = true) {ν' : Store L 𝕜} {Q' : Matrix (Fin n) (Fin n) ℝ}
    (h1 : mat n V.n (entry ν' V) = emb𝕜 𝕜 Q' * mat n V.n (entry μ V)) (h2 : ∀ l, ¬ (V.firstRows n).Owns l → ν' l = ν l) :
    UV n wu wv U V μ P Q' ν' := by
  refine ⟨fun hw => ?_, fun _ => h1, fun l g1 g2 => ?_⟩
  · rw [← h.uval hw]
    refine mat_ext_iff.2 fun r v hr' hv' => ?_
    refine h2 _ fun ho => ?_
    exact hr.dj hw hv r v hr' (by have := (hr.u hw).2; omega) (MatV.firstRows_own (hr.v hv).2 ho)
  · rw [h2 l (fun ho => g2 ⟨hv, ho⟩), h.frame l g1 g2]

theorem wp_svU (hr : SvReq n wu wv U V) (h : UV n wu wv U V μ P Q ν) {i j : Nat} (hi : i < n) (hj : j < n) (hij : i ≠ j)
    (c s : ℝ) {E} : wp (stqRot (fun x : ℝ => (x : 𝕜)) wu U i j c s) ν (fun _ ν' => UV n wu wv U V μ (P * (rotMat n i j c s)ᵀ) Q ν') E := by
  unfold stqRot
  by_cases hw : wu = true
  · obtain ⟨hinj, hn⟩ := hr.u hw
    rw [if_pos hw]
    simp only [wp_bind]
    refine wp_sliceCol (by omega) le_rfl (by omega) ?_
    refine wp_sliceCol (by omega) le_rfl (by omega) ?_
    refine wp_mono (wp_rotCols (MState.start (U.firstCols n) ν) (MatV.firstCols_inj hinj hn) hi hj hij (le_refl U.m) _ _) (fun _ ν' hν => ?_)
      (fun _ _ h => h.elim)
    refine h.onU hr hw ?_ hν.frame
    have e1 : mat U.m n (entry ν' U) = mat U.m n (rowMap (pairRot i j (c : 𝕜) (s : 𝕜)) (entry ν U)) := by
      refine mat_ext_iff.2 fun r v hr hv => ?_
      have := hν.val r v hr hv
      rw [if_pos hr] at this
      exact this
    rw [e1, mat_rowMap_rot hi hj hij, h.uval hw, embR_mul, embR_rot, Matrix.mul_assoc]
  · rw [if_neg hw]
    exact ⟨fun h => absurd h hw, h.vval, h.frame⟩

theorem embR_rot' {n p q : Nat} (c s : ℝ) : emb𝕜 𝕜 (rotMat n p q c s) = rotMat n p q (c : 𝕜) (s : 𝕜) := by
  ext i j
  simp only [rotMat, mat, map_apply, transpose_apply, of_apply, rotF]
  split_ifs <;> simp

theorem wp_svV (hr : SvReq n wu wv U V) (h : UV n wu wv U V μ P Q ν) {i j : Nat} (hi : i < n) (hj : j < n) (hij : i ≠ j)
    (c s : ℝ) {E} : wp (svRotRow (fun x : ℝ => (x : 𝕜)) wv V i j c s) ν (fun _ ν' => UV n wu wv U V μ P (rotMat n i j c s * Q) ν') E := by
  unfold svRotRow
  by_cases hw : wv = true
  · obtain ⟨hinj, hn⟩ := hr.v hw
    rw [if_pos hw]
    simp only [wp_bind]
    refine wp_sliceRow (by omega) (by omega) le_rfl ?_
    refine wp_sliceRow (by omega) (by omega) le_rfl ?_
    refine wp_mono (wp_rotRows (MState.start (V.firstRows n) ν) (MatV.firstRows_inj hinj hn) hi hj hij (le_refl V.n) _ _) (fun _ ν' hν => ?_)
      (fun _ _ h => h.elim)
    refine h.onV hr hw ?_ hν.frame
    have e1 : mat n V.n (entry ν' V) = mat n V.n (colMap (pairRot i j (c : 𝕜) (s : 𝕜)) (entry ν V)) := by
      refine mat_ext_iff.2 fun r v hr hv => ?_
      have := hν.val r v hr hv
      rw [if_pos ⟨Nat.zero_le _, hv⟩] at this
      exact this
    rw [e1, mat_colMap_rot hi hj hij, h.vval hw, embR_mul, embR_rot', Matrix.mul_assoc]
  · rw [if_neg hw]
    exact ⟨h.uval, fun h => absurd h hw, h.frame⟩

/-- `B = G B' H` with orthogonal `G`, `H` that move only the coordinates below `m`. -/
structure BSim (n m : Nat) (d e d' e' : Nat → ℝ) (G H : Matrix (Fin n) (Fin n) ℝ) : Prop where
  orthG : Gᵀ * G = 1
  orthH : H * Hᵀ = 1
  actG : ActsBelow m G
  actH : ActsBelow m H
  sim : mat n n (bidR false d e) = G * mat n n (bidR false d' e') * H

/-- The result of a sweep. -/
def SvSwept (n m : Nat) (wu wv : Bool) (U V : MatV L) (μ : Store L 𝕜) (P Q : Matrix (Fin n) (Fin n) ℝ) (istart : Nat) (d e : RArr)
    (x : RArr × RArr) (ν' : Store L 𝕜) : Prop :=
  x.1.n = n ∧ x.2.n = e.n ∧ EFix istart (m - 1) e.f x.2.f ∧
    ∃ G H, BSim n m d.f e.f x.1.f x.2.f G H ∧ UV n wu wv U V μ (P * G) (H * Q) ν'

theorem dUp_cast (f : Nat → ℝ) (j : Nat) : dUp f j = f j := by simp [dUp]
theorem dUp_succ (f : Nat → ℝ) (i : Nat) : dUp f ((i : ℤ) + 1) = f (i + 1) := by
  have := dUp_cast f (i + 1); push_cast at this; exact this
theorem eUp_cast {n : Nat} (f : Nat → ℝ) {j : Nat} (h : j + 1 < n) : eUp n f j = f j := by
  unfold eUp; rw [if_pos (by omega)]; rfl
theorem dUp_congr {f g : Nat → ℝ} {j : ℤ} (h : 0 ≤ j → f j.toNat = g j.toNat) : dUp f j = dUp g j := by
  unfold dUp; split_ifs with q
  · exact h q
  · rfl
theorem eUp_congr {n : Nat} {f g : Nat → ℝ} {j : ℤ} (h : 0 ≤ j → j + 1 < n → f j.toNat = g j.toNat) : eUp n f j = eUp n g j := by
  unfold eUp; split_ifs with q
  · exact h q.1 q.2
  · rfl
theorem dDn_cast (f : Nat → ℝ) (j : Nat) : dDn f (-(j : ℤ)) = f j := by simp [dDn]
theorem eDn_cast {n : Nat} (f : Nat → ℝ) {j : Nat} (h0 : 0 < j) (h : j < n) : eDn n f (-(j : ℤ)) = f (j - 1) := by
  unfold eDn; rw [if_pos (by omega)]; congr 1; omega
theorem dDn_congr {f g : Nat → ℝ} {j : ℤ} (h : j ≤ 0 → f (-j).toNat = g (-j).toNat) : dDn f j = dDn g j := by
  unfold dDn; split_ifs with q
  · exact h q
  · rfl
theorem eDn_congr {n : Nat} {f g : Nat → ℝ} {j : ℤ} (h : 0 < -j → -j < n → f ((-j).toNat - 1) = g ((-j).toNat - 1)) : eDn n f j = eDn n g j := by
  unfold eDn; split_ifs with q
  · exact h q.1 q.2
  · rfl

theorem wp_setIf {T : Type} {b : Prop} [Decidable b] {e : RArr} {i : Nat} {v : ℝ} {ν : Store L T} {Q' : RArr → Store L T → Prop} {E} (hi : b → i < e.n)
    (hq : Q' ⟨e.n, fun k => if b ∧ k = i then v else e.f k⟩ ν) : wp (if b then e.set i v else pure e : M L T RArr) ν Q' E := by
  by_cases hb : b
  · rw [if_pos hb]
    refine wp_rset (hi hb) ?_
    simpa [hb] using hq
  · rw [if_neg hb]
    have : (⟨e.n, fun k => if b ∧ k = i then v else e.f k⟩ : RArr) = e := by simp [hb]
    rw [this] at hq
    exact hq

theorem injUp : Function.Injective (fun i : Nat => (i : ℤ)) := fun a b h => by simpa using h
theorem injDn : Function.Injective (fun i : Nat => -(i : ℤ)) := fun a b h => by simpa using h

theorem eUp_left {n istart : Nat} {e : Nat → ℝ} (hl : 0 < istart → e (istart - 1) = 0) : eUp n e ((istart : ℤ) - 1) = 0 := by
  unfold eUp
  split_ifs with q
  · rw [show ((istart : ℤ) - 1).toNat = istart - 1 by omega, hl (by omega)]
  · rfl

theorem eDn_right {n istop : Nat} {e : Nat → ℝ} (h0 : 0 < istop) (hr : istop < n → e (istop - 1) = 0) : eDn n e (-((istop - 1 : ℕ) : ℤ) - 1) = 0 := by
  unfold eDn
  split_ifs with q
  · rw [show (-(-((istop - 1 : ℕ) : ℤ) - 1)).toNat - 1 = istop - 1 by omega, hr (by omega)]
  · rfl

section
variable {p : RotPar} {istart istop : Nat} {d e : RArr}

set_option maxHeartbeats 1000000 in
theorem wp_svZeroF (h1 : 0 < p.safmin) (h2 : 0 < p.safmax) (hR : SvReq n wu wv U V) (h : UV n wu wv U V μ P Q ν)
    (hd : d.n = n) (he : n ≤ e.n + 1) (hs : istart + 2 ≤ istop) (hn : istop ≤ n)
    (hl : 0 < istart → e.f (istart - 1) = 0) (hr : istop < n → e.f (istop - 1) = 0) {E} :
    wp (svZeroF p (fun x : ℝ => (x : 𝕜)) wu wv U V istart istop d e) ν (SvSwept n istop wu wv U V μ P Q istart d e) E := by
  unfold svZeroF
  simp only [wp_bind]
  refine wp_forUp (fun i x ν' => x.d.n = n ∧ x.e.n = e.n ∧ EFix istart (istop - 1) e.f x.e.f ∧ ∃ G H,
    SvInv n istop (fun i : Nat => (i : ℤ)) (mat n n (bidR false d.f e.f)) i (x.oldsn * (x.cs * x.d.f i)) (x.oldsn * eUp n x.e.f i)
      (x.oldcs * (x.cs * x.d.f i)) (x.oldcs * eUp n x.e.f i) (dUp x.d.f) (eUp n x.e.f) G H ∧
    (i = istart → x.oldsn = 0) ∧ UV n wu wv U V μ (P * G) (H * Q) ν') (by omega) ?_ ?_ ?_
  · refine ⟨hd, rfl, fun _ _ => rfl, 1, 1, (SvInv.start (eUp_left hl) (bid_up _)).congr ?_ ?_ ?_ ?_ (fun _ _ => rfl) (fun _ _ _ => rfl),
      fun _ => rfl, by rwa [Matrix.mul_one, Matrix.one_mul]⟩
    · simp
    · simp
    · simp [dUp_cast]
    · simp
  · rintro i x ν' hi1 hi2 ⟨xd, xe, xf, G, H, hG, hi0, hz⟩
    unfold svZeroFStep
    simp only [wp_bind]
    refine wp_rget (by omega) (wp_rget (by omega) ?_)
    obtain ⟨c, s, r, er, ok⟩ := lartg_ok h1 h2 (x.d.f i * x.cs) (x.e.f i)
    refine wp_liftO_some er (wp_setIf (fun _ => by omega) (wp_rget (by omega) ?_))
    obtain ⟨c', s', r', er', ok'⟩ := lartg_ok h1 h2 (x.oldcs * r) (x.d.f (i + 1) * s)
    refine wp_liftO_some er' (wp_rset (by omega) ?_)
    refine wp_mono (wp_svU hR hz (show i < n by omega) (show i + 1 < n by omega) (by omega) c' s') ?_ (fun _ _ h => h)
    intro _ ν'' hz'
    refine wp_mono (wp_svV hR hz' (show i < n by omega) (show i + 1 < n by omega) (by omega) c s) ?_ (fun _ _ h => h)
    intro _ ν3 hz3
    refine ⟨xd, xe, fun j hj => ?_, G * (rotMat n i (i + 1) c' s')ᵀ, rotMat n i (i + 1) c s * H, ?_, fun h => absurd h (by omega), ?_⟩
    · show (if i > istart ∧ j = i - 1 then x.oldsn * r else x.e.f j) = _
      rw [if_neg (by omega)]; exact xf j hj
    · have ei : eUp n x.e.f i = x.e.f i := eUp_cast _ (by omega)
      have eset : ∀ j : ℤ, j ≠ (i : ℤ) - 1 → eUp n (fun k => if i > istart ∧ k = i - 1 then x.oldsn * r else x.e.f k) j = eUp n x.e.f j := by
        intro j hj
        exact eUp_congr fun g1 g2 => if_neg (by omega)
      have key := SvInv.step injUp (show i < n by omega) (show i + 1 < n by omega) (show i < istop by omega) (show i + 1 < istop by omega)
        (by push_cast; ring) hG
        (d' := dUp fun k => if k = i then r' else x.d.f k) (e' := eUp n fun k => if i > istart ∧ k = i - 1 then x.oldsn * r else x.e.f k)
        (u' := s' * (c * x.d.f (i + 1))) (w' := s' * eUp n x.e.f ((i : ℤ) + 1)) (a' := c' * (c * x.d.f (i + 1)))
        (b' := c' * eUp n x.e.f ((i : ℤ) + 1)) (cr := c) (sr := s) (cl := c') (sl := s') ok.unit ok'.unit ?_ ?_ ?_ ?_ ?_ ?_ ?_ ?_ ?_ ?_
      · push_cast
        rw [eset _ (by omega)]
        simpa using key
      · rw [ei]; linear_combination x.oldsn * ok.bot
      · rw [ei, dUp_succ]; linear_combination ok'.bot - s' * x.oldcs * ok.top
      · rw [ei, dUp_succ]; simp only [dUp_cast, if_true]; linear_combination -ok'.top - c' * x.oldcs * ok.top
      · rw [ei]
        by_cases q : i = istart
        · rw [hi0 q, eUp_congr (g := x.e.f) (fun g1 g2 => if_neg (by omega)), q, eUp_left (fun g => ?_)]
          · ring
          · rw [xf _ (by omega)]; exact hl g
        · rw [show ((i : ℤ) - 1) = ((i - 1 : ℕ) : ℤ) by omega, eUp_cast _ (by omega), if_pos ⟨by omega, rfl⟩]
          linear_combination -x.oldsn * ok.top
      · rw [ei, dUp_succ]; linear_combination -c' * x.oldcs * ok.bot
      · rfl
      · rw [ei, dUp_succ]; linear_combination s' * x.oldcs * ok.bot
      · rfl
      · intro j g1 g2
        exact dUp_congr fun g => if_neg (by omega)
      · intro j g1 g2 g3
        exact eset j g1
    · rw [← Matrix.mul_assoc, Matrix.mul_assoc _ H]; exact hz3
  · rintro x ν' ⟨xd, xe, xf, G, H, hG, -, hz⟩
    refine wp_rget (by omega) (wp_rset (by omega) (wp_rset (by omega) ?_))
    refine ⟨xd, xe, fun j hj => ?_, G, H, ⟨hG.orthP, hG.orthQ, hG.actP, hG.actQ, ?_⟩, hz⟩
    · show (if j = istop - 2 then x.d.f (istop - 1) * x.cs * x.oldsn else x.e.f j) = _
      rw [if_neg (by omega)]; exact xf j hj
    · have e0 : eUp n x.e.f ((istop - 1 : ℕ) : ℤ) = 0 := by
        unfold eUp
        split_ifs with q
        · rw [show ((istop - 1 : ℕ) : ℤ).toNat = istop - 1 by omega, xf _ (by omega), hr (by omega)]
        · rfl
      have e1 : ((istop - 1 : ℕ) : ℤ) - 1 = ((istop - 2 : ℕ) : ℤ) := by omega
      have key := hG.congr (d' := dUp fun k => if k = istop - 1 then x.d.f (istop - 1) * x.cs * x.oldcs else x.d.f k)
        (e' := eUp n fun k => if k = istop - 2 then x.d.f (istop - 1) * x.cs * x.oldsn else x.e.f k)
        (u' := eUp n (fun k => if k = istop - 2 then x.d.f (istop - 1) * x.cs * x.oldsn else x.e.f k) (((istop - 1 : ℕ) : ℤ) - 1))
        (w' := 0) (a' := dUp (fun k => if k = istop - 1 then x.d.f (istop - 1) * x.cs * x.oldcs else x.d.f k) ((istop - 1 : ℕ) : ℤ))
        (b' := eUp n (fun k => if k = istop - 2 then x.d.f (istop - 1) * x.cs * x.oldsn else x.e.f k) ((istop - 1 : ℕ) : ℤ)) ?_ ?_ ?_ ?_ ?_ ?_
      · rw [key.eq, ← bid_up]
      · rw [e1, eUp_cast _ (by omega), if_pos rfl]; ring
      · rw [e0]; ring
      · rw [dUp_cast, if_pos rfl]; ring
      · rw [e0, mul_zero, ← e0]
        exact eUp_congr fun g1 g2 => if_neg (by omega)
      · intro j hj
        exact dUp_congr fun g => if_neg (by omega)
      · intro j g1 g2
        exact eUp_congr fun g g' => if_neg (by omega)


theorem BSim.ofDn {G' H' : Matrix (Fin n) (Fin n) ℝ} {m : Nat} {d e d' e' : Nat → ℝ} {k : ℤ}
    (h : SvInv n m (fun i : Nat => -(i : ℤ)) (mat n n (bidR false d e))ᵀ k (eDn n e' (k - 1)) 0 (dDn d' k) (eDn n e' k) (dDn d') (eDn n e') G' H') :
    BSim n m d e d' e' H'ᵀ G'ᵀ := by
  refine ⟨?_, ?_, h.actQ.tr, h.actP.tr, ?_⟩
  · rw [transpose_transpose]; exact h.orthQ
  · rw [transpose_transpose]; exact h.orthP
  · have := h.eq
    rw [← bid_dn] at this
    have := congrArg transpose this
    rw [transpose_transpose, transpose_mul, transpose_mul, transpose_transpose] at this
    rw [this, Matrix.mul_assoc]

set_option maxHeartbeats 1000000 in
theorem wp_svZeroB (h1 : 0 < p.safmin) (h2 : 0 < p.safmax) (hR : SvReq n wu wv U V) (h : UV n wu wv U V μ P Q ν)
    (hd : d.n = n) (he : n ≤ e.n + 1) (hs : istart + 2 ≤ istop) (hn : istop ≤ n)
    (hl : 0 < istart → e.f (istart - 1) = 0) (hr : istop < n → e.f (istop - 1) = 0) {E} :
    wp (svZeroB p (fun x : ℝ => (x : 𝕜)) wu wv U V istart istop d e) ν (SvSwept n istop wu wv U V μ P Q istart d e) E := by
  unfold svZeroB
  simp only [wp_bind]
  refine wp_forDown (fun i x ν' => x.d.n = n ∧ x.e.n = e.n ∧ EFix istart (istop - 1) e.f x.e.f ∧ ∃ G H,
    SvInv n istop (fun i : Nat => -(i : ℤ)) (mat n n (bidR false d.f e.f))ᵀ (-((i - 1 : ℕ) : ℤ)) (x.oldsn * (x.cs * x.d.f (i - 1)))
      (x.oldsn * eDn n x.e.f (-((i - 1 : ℕ) : ℤ)))
      (x.oldcs * (x.cs * x.d.f (i - 1))) (x.oldcs * eDn n x.e.f (-((i - 1 : ℕ) : ℤ))) (dDn x.d.f) (eDn n x.e.f) G H ∧
    (i = istop → x.oldsn = 0) ∧ UV n wu wv U V μ (P * Hᵀ) (Gᵀ * Q) ν') (by omega) ?_ ?_ ?_
  · refine ⟨hd, rfl, fun _ _ => rfl, 1, 1, (SvInv.start (eDn_right (by omega) hr) (bid_dn _)).congr ?_ ?_ ?_ ?_ (fun _ _ => rfl)
      (fun _ _ _ => rfl), fun _ => rfl, by simpa using h⟩
    · simp
    · simp
    · simp only [dDn_cast]; simp
    · simp
  · rintro i x ν' hi1 hi2 ⟨xd, xe, xf, G, H, hG, hi0, hz⟩
    rw [Nat.add_sub_cancel] at hG
    unfold svZeroBStep
    simp only [wp_bind]
    refine wp_rget (by omega) (wp_rget (by omega) ?_)
    obtain ⟨c, s, r, er, ok⟩ := lartg_ok h1 h2 (x.d.f i * x.cs) (x.e.f (i - 1))
    refine wp_liftO_some er (wp_setIf (fun _ => by omega) (wp_rget (by omega) ?_))
    obtain ⟨c', s', r', er', ok'⟩ := lartg_ok h1 h2 (x.oldcs * r) (x.d.f (i - 1) * s)
    refine wp_liftO_some er' (wp_rset (by omega) ?_)
    refine wp_mono (wp_svU hR hz (show i - 1 < n by omega) (show i < n by omega) (by omega) c (-s)) ?_ (fun _ _ h => h)
    intro _ ν'' hz'
    refine wp_mono (wp_svV hR hz' (show i - 1 < n by omega) (show i < n by omega) (by omega) c' (-s')) ?_ (fun _ _ h => h)
    intro _ ν3 hz3
    rw [rotMat_swap (by omega), rotMat_swap (by omega)] at hz3
    have ec : -((i - 1 : ℕ) : ℤ) = -(i : ℤ) + 1 := by omega
    refine ⟨xd, xe, fun j hj => ?_, G * (rotMat n i (i - 1) c' s')ᵀ, rotMat n i (i - 1) c s * H, ?_, fun h => absurd h (by omega), ?_⟩
    · show (if i < istop - 1 ∧ j = i then x.oldsn * r else x.e.f j) = _
      rw [if_neg (by omega)]; exact xf j hj
    · have ei : eDn n x.e.f (-(i : ℤ)) = x.e.f (i - 1) := eDn_cast _ (by omega) (by omega)
      have di : dDn x.d.f (-(i : ℤ) + 1) = x.d.f (i - 1) := by rw [← ec, dDn_cast]
      have eset : ∀ j : ℤ, j ≠ -(i : ℤ) - 1 → eDn n (fun k => if i < istop - 1 ∧ k = i then x.oldsn * r else x.e.f k) j = eDn n x.e.f j := by
        intro j hj
        exact eDn_congr fun g1 g2 => if_neg (by omega)
      have key := SvInv.step injDn (show i < n by omega) (show i - 1 < n by omega) (show i < istop by omega) (show i - 1 < istop by omega)
        ec hG
        (d' := dDn fun k => if k = i then r' else x.d.f k) (e' := eDn n fun k => if i < istop - 1 ∧ k = i then x.oldsn * r else x.e.f k)
        (u' := s' * (c * x.d.f (i - 1))) (w' := s' * eDn n x.e.f (-(i : ℤ) + 1)) (a' := c' * (c * x.d.f (i - 1)))
        (b' := c' * eDn n x.e.f (-(i : ℤ) + 1)) (cr := c) (sr := s) (cl := c') (sl := s') ok.unit ok'.unit ?_ ?_ ?_ ?_ ?_ ?_ ?_ ?_ ?_ ?_
      · beta_reduce at key
        dsimp only
        rw [ec, eset _ (by omega), if_neg (by omega)]
        exact key
      · beta_reduce; rw [ei]; linear_combination x.oldsn * ok.bot
      · beta_reduce; rw [ei, di]; linear_combination ok'.bot - s' * x.oldcs * ok.top
      · beta_reduce; rw [ei, di]; simp only [dDn_cast, if_true]; linear_combination -ok'.top - c' * x.oldcs * ok.top
      · beta_reduce; rw [ei]
        by_cases q : i = istop - 1
        · rw [hi0 (by omega), eDn_congr (g := x.e.f) (fun g1 g2 => if_neg (by omega)), q, eDn_right (by omega) (fun g => ?_)]
          · ring
          · rw [xf _ (by omega)]; exact hr g
        · rw [show (-(i : ℤ) - 1) = -((i + 1 : ℕ) : ℤ) by omega, eDn_cast _ (by omega) (by omega), if_pos ⟨by omega, rfl⟩]
          linear_combination -x.oldsn * ok.top
      · beta_reduce; rw [ei, di]; linear_combination -c' * x.oldcs * ok.bot
      · rfl
      · beta_reduce; rw [ei, di]; linear_combination s' * x.oldcs * ok.bot
      · rfl
      · beta_reduce; intro j g1 g2
        exact dDn_congr fun g => if_neg (by omega)
      · beta_reduce; intro j g1 g2 g3
        exact eset j g1
    · rw [transpose_mul, transpose_mul, transpose_transpose, ← Matrix.mul_assoc, Matrix.mul_assoc _ Gᵀ]; exact hz3
  · rintro x ν' ⟨xd, xe, xf, G, H, hG, -, hz⟩
    rw [Nat.add_sub_cancel] at hG
    refine wp_rget (by omega) (wp_rset (by omega) (wp_rset (by omega) ?_))
    refine ⟨xd, xe, fun j hj => ?_, Hᵀ, Gᵀ, BSim.ofDn (k := -((istart : ℕ) : ℤ)) (hG.congr ?_ ?_ ?_ ?_ ?_ ?_), hz⟩
    · show (if j = istart then x.d.f istart * x.cs * x.oldsn else x.e.f j) = _
      rw [if_neg (by omega)]; exact xf j hj
    · rw [show -(istart : ℤ) - 1 = -((istart + 1 : ℕ) : ℤ) by omega, eDn_cast _ (by omega) (by omega)]
      simp only [Nat.add_sub_cancel, if_true]; ring
    · rw [show eDn n x.e.f (-(istart : ℤ)) = 0 from ?_, mul_zero]
      unfold eDn
      split_ifs with q
      · rw [show (-(-((istart : ℕ) : ℤ))).toNat - 1 = istart - 1 by omega, xf _ (by omega), hl (by omega)]
      · rfl
    · simp only [dDn_cast, if_true]; ring
    · have e0 : eDn n x.e.f (-(istart : ℤ)) = 0 := by
        unfold eDn
        split_ifs with q
        · rw [show (-(-((istart : ℕ) : ℤ))).toNat - 1 = istart - 1 by omega, xf _ (by omega), hl (by omega)]
        · rfl
      rw [e0, mul_zero, ← e0]
      exact eDn_congr fun g1 g2 => if_neg (by omega)
    · intro j hj
      exact dDn_congr fun g => if_neg (by omega)
    · intro j g1 g2
      exact eDn_congr fun g g' => if_neg (by omega)


theorem wp_getIf {T : Type} {b : Prop} [Decidable b] {e : RArr} {j : Nat} {c s g : ℝ} {ν : Store L T} {Q' : ℝ × RArr → Store L T → Prop} {E}
    (hj : b → j < e.n) (hq : Q' (if b then s * e.f j else g, ⟨e.n, fun k => if b ∧ k = j then c * e.f j else e.f k⟩) ν) :
    wp (if b then do
      let e1 ← e.get j
      let e ← e.set j (c * e1)
      pure (s * e1, e)
    else pure (g, e) : M L T (ℝ × RArr)) ν Q' E := by
  by_cases hb : b
  · rw [if_pos hb]
    simp only [wp_bind]
    refine wp_rget (hj hb) (wp_rset (hj hb) ?_)
    simpa [hb] using hq
  · rw [if_neg hb]
    have : (⟨e.n, fun k => if b ∧ k = j then c * e.f j else e.f k⟩ : RArr) = e := by simp [hb]
    rw [this, if_neg hb] at hq
    exact hq

set_option maxHeartbeats 2000000 in
theorem wp_svSweepF (h1 : 0 < p.safmin) (h2 : 0 < p.safmax) (hR : SvReq n wu wv U V) (h : UV n wu wv U V μ P Q ν)
    (hd : d.n = n) (he : n ≤ e.n + 1) (hs : istart + 2 ≤ istop) (hn : istop ≤ n)
    (hl : 0 < istart → e.f (istart - 1) = 0) (hr : istop < n → e.f (istop - 1) = 0) (shift : ℝ) (hd0 : d.f istart ≠ 0) {E} :
    wp (svSweepF p (fun x : ℝ => (x : 𝕜)) wu wv U V istart istop d e shift) ν (SvSwept n istop wu wv U V μ P Q istart d e) E := by
  unfold svSweepF
  simp only [wp_bind]
  refine wp_rget (by omega) (wp_liftO_some (a := shift / d.f istart) (by simp [dv, hd0]) (wp_rget (by omega) ?_))
  refine wp_forUp (fun i x ν' => x.d.n = n ∧ x.e.n = e.n ∧ EFix istart (istop - 1) e.f x.e.f ∧ ∃ G H u w,
    SvInv n istop (fun i : Nat => (i : ℤ)) (mat n n (bidR false d.f e.f)) i u w (x.d.f i) (eUp n x.e.f i) (dUp x.d.f) (eUp n x.e.f) G H ∧
    (i = istart → u = 0 ∧ w = 0) ∧ (i ≠ istart → u = x.f ∧ w = if i + 1 < istop then x.g else 0) ∧
    UV n wu wv U V μ (P * G) (H * Q) ν') (by omega) ?_ ?_ ?_
  · refine ⟨hd, rfl, fun _ _ => rfl, 1, 1, 0, 0, (SvInv.start (eUp_left hl) (bid_up _)).congr rfl rfl ?_ rfl (fun _ _ => rfl) (fun _ _ _ => rfl),
      fun _ => ⟨rfl, rfl⟩, fun h => absurd rfl h, by rwa [Matrix.mul_one, Matrix.one_mul]⟩
    simp [dUp_cast]
  · rintro i x ν' hi1 hi2 ⟨xd, xe, xf, G, H, u, w, hG, hi0, hi', hz⟩
    unfold svSweepFStep
    simp only [wp_bind]
    obtain ⟨c, s, r, er, ok⟩ := lartg_ok h1 h2 x.f x.g
    refine wp_liftO_some er (wp_setIf (fun _ => by omega) (wp_rget (by omega) (wp_rget (by simp only; omega) ?_)))
    have hei : (if i > istart ∧ i = i - 1 then r else x.e.f i) = x.e.f i := if_neg (by omega)
    simp only [hei]
    refine wp_rset (by simp only; omega) (wp_rget (by omega) (wp_rset (by omega) ?_))
    obtain ⟨c', s', r', er', ok'⟩ := lartg_ok h1 h2 (c * x.d.f i + s * x.e.f i) (s * x.d.f (i + 1))
    refine wp_liftO_some er' (wp_rset (by simp only; omega) (wp_rset (by simp only; omega) ?_))
    refine wp_getIf (fun _ => by simp only; omega) ?_
    dsimp only
    refine wp_mono (wp_svU hR hz (show i < n by omega) (show i + 1 < n by omega) (by omega) c' s') ?_ (fun _ _ h => h)
    intro _ ν'' hz'
    refine wp_mono (wp_svV hR hz' (show i < n by omega) (show i + 1 < n by omega) (by omega) c s) ?_ (fun _ _ h => h)
    intro _ ν3 hz3
    have uw : -s * u + c * w = 0 := by
      by_cases q : i = istart
      · obtain ⟨rfl, rfl⟩ := hi0 q; ring
      · obtain ⟨rfl, rfl⟩ := hi' q; rw [if_pos (by omega)]; exact ok.bot
    have hw1 : ∀ {e1 : ℝ}, e1 = x.e.f (i + 1) → (if i + 1 + 1 < istop then (if i + 1 < istop - 1 then s' * e1 else s * x.d.f (i + 1)) else 0) =
        s' * eUp n x.e.f ((i : ℤ) + 1) := by
      rintro _ rfl
      by_cases q : i + 1 + 1 < istop
      · rw [if_pos q, if_pos (by omega), show (i : ℤ) + 1 = ((i + 1 : ℕ) : ℤ) by push_cast; ring, eUp_cast _ (by omega)]
      · rw [if_neg q]
        unfold eUp
        split_ifs with g
        · rw [show ((i : ℤ) + 1).toNat = istop - 1 by omega, xf _ (by omega), hr (by omega), mul_zero]
        · ring
    refine ⟨xd, xe, fun j hj => ?_, G * (rotMat n i (i + 1) c' s')ᵀ, rotMat n i (i + 1) c s * H, _, s' * eUp n x.e.f ((i : ℤ) + 1), ?_,
      fun h => absurd h (by omega), fun _ => ⟨rfl, (hw1 ?_).symm⟩, ?_⟩
    · dsimp only
      rw [if_neg (by omega), if_neg (by omega), if_neg (by omega)]; exact xf j hj
    · have ei : eUp n x.e.f i = x.e.f i := eUp_cast _ (by omega)
      have key := SvInv.step injUp (show i < n by omega) (show i + 1 < n by omega) (show i < istop by omega) (show i + 1 < istop by omega)
        (by push_cast; ring) hG
        (d' := dUp fun k => if k = i + 1 then c' * (c * x.d.f (i + 1)) - s' * (c * x.e.f i - s * x.d.f i) else if k = i then r' else
          if k = i + 1 then c * x.d.f (i + 1) else x.d.f k)
        (e' := eUp n fun k => if i + 1 < istop - 1 ∧ k = i + 1 then c' * (if i + 1 = i then c * x.e.f i - s * x.d.f i else
            if i > istart ∧ i + 1 = i - 1 then r else x.e.f (i + 1)) else if k = i then c * x.e.f i - s * x.d.f i else
          if i > istart ∧ k = i - 1 then r else x.e.f k)
        (u' := c' * (c * x.e.f i - s * x.d.f i) + s' * (c * x.d.f (i + 1))) (w' := s' * eUp n x.e.f ((i : ℤ) + 1))
        (a' := c' * (c * x.d.f (i + 1)) - s' * (c * x.e.f i - s * x.d.f i))
        (b' := c' * eUp n x.e.f ((i : ℤ) + 1)) (cr := c) (sr := s) (cl := c') (sl := s') ok.unit ok'.unit uw ?_ ?_ ?_ ?_ rfl ?_ rfl ?_ ?_
      · refine (key.congr rfl rfl ?_ ?_ (fun _ _ => rfl) (fun _ _ _ => rfl)).congr rfl rfl rfl rfl (fun _ _ => rfl) (fun _ _ _ => rfl)
        · exact if_pos rfl
        · by_cases q : i + 1 < istop - 1
          · push_cast
            rw [show (i : ℤ) + 1 = ((i + 1 : ℕ) : ℤ) by push_cast; ring, eUp_cast _ (by omega), eUp_cast _ (by omega), if_pos ⟨q, rfl⟩,
              if_neg (by omega), if_neg (by omega)]
          · unfold eUp
            push_cast
            split_ifs with g <;> first | rfl | omega | skip
            · rw [show ((i : ℤ) + 1).toNat = istop - 1 by omega, xf _ (by omega), hr (by omega)]; ring
            · ring
      · rw [ei, dUp_succ]; exact ok'.bot
      · rw [ei, dUp_succ, dUp_cast, if_neg (by omega), if_pos rfl]; linear_combination -ok'.top
      · by_cases q : i = istart
        · obtain ⟨rfl, rfl⟩ := hi0 q
          rw [eUp_congr (g := x.e.f) (fun g1 g2 => by rw [if_neg (by omega), if_neg (by omega), if_neg (by omega)]), q, eUp_left (fun g => ?_)]
          · ring
          · rw [xf _ (by omega)]; exact hl g
        · obtain ⟨rfl, rfl⟩ := hi' q
          rw [if_pos (show i + 1 < istop by omega)]
          rw [show ((i : ℤ) - 1) = ((i - 1 : ℕ) : ℤ) by omega, eUp_cast _ (by omega), if_neg (by omega), if_neg (by omega), if_pos ⟨by omega, rfl⟩]
          exact ok.top.symm
      · rw [ei, dUp_succ]; ring
      · rw [ei, dUp_succ]; ring
      · intro j g1 g2
        exact dUp_congr fun g => by rw [if_neg (by omega), if_neg (by omega), if_neg (by omega)]
      · intro j g1 g2 g3
        exact eUp_congr fun g g' => by rw [if_neg (by omega), if_neg (by omega), if_neg (by omega)]
    · rw [if_neg (by omega), if_neg (by omega)]
    · rw [← Matrix.mul_assoc, Matrix.mul_assoc _ H]; exact hz3
  · rintro x ν' ⟨xd, xe, xf, G, H, u, w, hG, -, hi', hz⟩
    obtain ⟨rfl, rfl⟩ := hi' (by omega)
    refine wp_rset (by omega) ?_
    refine ⟨xd, xe, fun j hj => ?_, G, H, ⟨hG.orthP, hG.orthQ, hG.actP, hG.actQ, ?_⟩, hz⟩
    · show (if j = istop - 2 then x.f else x.e.f j) = _
      rw [if_neg (by omega)]; exact xf j hj
    · have e1 : ((istop - 1 : ℕ) : ℤ) - 1 = ((istop - 2 : ℕ) : ℤ) := by omega
      have key := hG.congr (d' := dUp x.d.f) (e' := eUp n fun k => if k = istop - 2 then x.f else x.e.f k)
        (u' := eUp n (fun k => if k = istop - 2 then x.f else x.e.f k) (((istop - 1 : ℕ) : ℤ) - 1))
        (w' := 0) (a' := dUp x.d.f ((istop - 1 : ℕ) : ℤ))
        (b' := eUp n (fun k => if k = istop - 2 then x.f else x.e.f k) ((istop - 1 : ℕ) : ℤ)) ?_ ?_ ?_ ?_ ?_ ?_
      · rw [key.eq, ← bid_up]
      · rw [e1, eUp_cast _ (by omega), if_pos rfl]
      · rw [if_neg (by omega)]
      · rw [dUp_cast]
      · exact eUp_congr fun g1 g2 => if_neg (by omega)
      · intro j hj; rfl
      · intro j g1 g2
        exact eUp_congr fun g g' => if_neg (by omega)


set_option maxHeartbeats 2000000 in
theorem wp_svSweepB (h1 : 0 < p.safmin) (h2 : 0 < p.safmax) (hR : SvReq n wu wv U V) (h : UV n wu wv U V μ P Q ν)
    (hd : d.n = n) (he : n ≤ e.n + 1) (hs : istart + 2 ≤ istop) (hn : istop ≤ n)
    (hl : 0 < istart → e.f (istart - 1) = 0) (hr : istop < n → e.f (istop - 1) = 0) (shift : ℝ) (hd0 : d.f (istop - 1) ≠ 0) {E} :
    wp (svSweepB p (fun x : ℝ => (x : 𝕜)) wu wv U V istart istop d e shift) ν (SvSwept n istop wu wv U V μ P Q istart d e) E := by
  unfold svSweepB
  simp only [wp_bind]
  refine wp_rget (by omega) (wp_liftO_some (a := shift / d.f (istop - 1)) (by simp [dv, hd0]) (wp_rget (by omega) ?_))
  refine wp_forDown (fun i x ν' => x.d.n = n ∧ x.e.n = e.n ∧ EFix istart (istop - 1) e.f x.e.f ∧ ∃ G H u w,
    SvInv n istop (fun i : Nat => -(i : ℤ)) (mat n n (bidR false d.f e.f))ᵀ (-((i - 1 : ℕ) : ℤ)) u w (x.d.f (i - 1))
      (eDn n x.e.f (-((i - 1 : ℕ) : ℤ))) (dDn x.d.f) (eDn n x.e.f) G H ∧
    (i = istop → u = 0 ∧ w = 0) ∧ (i ≠ istop → u = x.f ∧ w = if istart + 1 < i then x.g else 0) ∧
    UV n wu wv U V μ (P * Hᵀ) (Gᵀ * Q) ν') (by omega) ?_ ?_ ?_
  · refine ⟨hd, rfl, fun _ _ => rfl, 1, 1, 0, 0, (SvInv.start (eDn_right (by omega) hr) (bid_dn _)).congr rfl rfl ?_ rfl (fun _ _ => rfl)
      (fun _ _ _ => rfl), fun _ => ⟨rfl, rfl⟩, fun h => absurd rfl h, by simpa using h⟩
    simp only [dDn_cast]
  · rintro i x ν' hi1 hi2 ⟨xd, xe, xf, G, H, u, w, hG, hi0, hi', hz⟩
    rw [Nat.add_sub_cancel] at hG
    unfold svSweepBStep
    simp only [wp_bind]
    obtain ⟨c, s, r, er, ok⟩ := lartg_ok h1 h2 x.f x.g
    refine wp_liftO_some er (wp_setIf (fun _ => by omega) (wp_rget (by omega) (wp_rget (by simp only; omega) ?_)))
    have hei : (if i < istop - 1 ∧ i - 1 = i then r else x.e.f (i - 1)) = x.e.f (i - 1) := if_neg (by omega)
    simp only [hei]
    refine wp_rset (by simp only; omega) (wp_rget (by omega) (wp_rset (by omega) ?_))
    obtain ⟨c', s', r', er', ok'⟩ := lartg_ok h1 h2 (c * x.d.f i + s * x.e.f (i - 1)) (s * x.d.f (i - 1))
    refine wp_liftO_some er' (wp_rset (by simp only; omega) (wp_rset (by simp only; omega) ?_))
    refine wp_getIf (fun _ => by simp only; omega) ?_
    dsimp only
    refine wp_mono (wp_svU hR hz (show i - 1 < n by omega) (show i < n by omega) (by omega) c (-s)) ?_ (fun _ _ h => h)
    intro _ ν'' hz'
    refine wp_mono (wp_svV hR hz' (show i - 1 < n by omega) (show i < n by omega) (by omega) c' (-s')) ?_ (fun _ _ h => h)
    intro _ ν3 hz3
    rw [rotMat_swap (by omega), rotMat_swap (by omega)] at hz3
    have ec : -((i - 1 : ℕ) : ℤ) = -(i : ℤ) + 1 := by omega
    have uw : -s * u + c * w = 0 := by
      by_cases q : i + 1 = istop
      · obtain ⟨rfl, rfl⟩ := hi0 q; ring
      · obtain ⟨rfl, rfl⟩ := hi' q; rw [if_pos (by omega)]; exact ok.bot
    have hw1 : ∀ {e1 : ℝ}, (istart + 1 < i → e1 = x.e.f (i - 2)) → (if istart + 1 < i then (if i > istart + 1 then s' * e1 else s * x.d.f (i - 1)) else 0) =
        s' * eDn n x.e.f (-(i : ℤ) + 1) := by
      rintro e1 he1
      by_cases q : istart + 1 < i
      · rw [he1 q, if_pos q, if_pos (by omega), ← ec, eDn_cast _ (by omega) (by omega), show i - 1 - 1 = i - 2 by omega]
      · rw [if_neg q]
        unfold eDn
        split_ifs with g
        · rw [show (-(-(i : ℤ) + 1)).toNat - 1 = istart - 1 by omega, xf _ (by omega), hl (by omega), mul_zero]
        · ring
    refine ⟨xd, xe, fun j hj => ?_, G * (rotMat n i (i - 1) c' s')ᵀ, rotMat n i (i - 1) c s * H, _, s' * eDn n x.e.f (-(i : ℤ) + 1), ?_,
      fun h => absurd h (by omega), fun _ => ⟨rfl, (hw1 ?_).symm⟩, ?_⟩
    · dsimp only
      rw [if_neg (by omega), if_neg (by omega), if_neg (by omega)]; exact xf j hj
    · have ei : eDn n x.e.f (-(i : ℤ)) = x.e.f (i - 1) := eDn_cast _ (by omega) (by omega)
      have di : dDn x.d.f (-(i : ℤ) + 1) = x.d.f (i - 1) := by rw [← ec, dDn_cast]
      have key := SvInv.step injDn (show i < n by omega) (show i - 1 < n by omega) (show i < istop by omega) (show i - 1 < istop by omega)
        ec hG
        (d' := dDn fun k => if k = i - 1 then c' * (c * x.d.f (i - 1)) - s' * (c * x.e.f (i - 1) - s * x.d.f i) else if k = i then r' else
          if k = i - 1 then c * x.d.f (i - 1) else x.d.f k)
        (e' := eDn n fun k => if i > istart + 1 ∧ k = i - 2 then c' * (if i - 2 = i - 1 then c * x.e.f (i - 1) - s * x.d.f i else
            if i < istop - 1 ∧ i - 2 = i then r else x.e.f (i - 2)) else if k = i - 1 then c * x.e.f (i - 1) - s * x.d.f i else
          if i < istop - 1 ∧ k = i then r else x.e.f k)
        (u' := c' * (c * x.e.f (i - 1) - s * x.d.f i) + s' * (c * x.d.f (i - 1))) (w' := s' * eDn n x.e.f (-(i : ℤ) + 1))
        (a' := c' * (c * x.d.f (i - 1)) - s' * (c * x.e.f (i - 1) - s * x.d.f i))
        (b' := c' * eDn n x.e.f (-(i : ℤ) + 1)) (cr := c) (sr := s) (cl := c') (sl := s') ok.unit ok'.unit uw ?_ ?_ ?_ ?_ rfl ?_ rfl ?_ ?_
      · beta_reduce at key
        dsimp only
        rw [ec]
        refine key.congr rfl rfl ?_ ?_ (fun _ _ => rfl) (fun _ _ _ => rfl)
        · exact if_pos rfl
        · by_cases q : i > istart + 1
          · rw [← ec, eDn_cast _ (by omega) (by omega), eDn_cast _ (by omega) (by omega), if_pos ⟨q, by omega⟩,
              if_neg (by omega), if_neg (by omega), show i - 1 - 1 = i - 2 by omega]
          · unfold eDn
            split_ifs with g <;> first | rfl | omega | skip
            · have hz : x.e.f (istart - 1) = 0 := by rw [xf _ (by omega), hl (by omega)]
              rw [show (-(-(i : ℤ) + 1)).toNat - 1 = istart - 1 by omega, hz, mul_zero]
              dsimp only
              rw [if_neg (by omega), if_neg (by omega), if_neg (by omega), hz]
            · ring
      · beta_reduce; rw [ei, di]; exact ok'.bot
      · beta_reduce; rw [ei, di, dDn_cast, if_neg (by omega), if_pos rfl]; linear_combination -ok'.top
      · beta_reduce
        by_cases q : i + 1 = istop
        · obtain ⟨rfl, rfl⟩ := hi0 q
          rw [eDn_congr (g := x.e.f) (fun g1 g2 => by rw [if_neg (by omega), if_neg (by omega), if_neg (by omega)]), show i = istop - 1 by omega,
            eDn_right (by omega) (fun g => ?_)]
          · ring
          · rw [xf _ (by omega)]; exact hr g
        · obtain ⟨rfl, rfl⟩ := hi' q
          rw [if_pos (show istart + 1 < i + 1 by omega)]
          rw [show (-(i : ℤ) - 1) = -((i + 1 : ℕ) : ℤ) by omega, eDn_cast _ (by omega) (by omega), if_neg (by omega), if_neg (by omega),
            if_pos ⟨by omega, rfl⟩]
          exact ok.top.symm
      · beta_reduce; rw [ei, di]; ring
      · beta_reduce; rw [ei, di]; ring
      · intro j g1 g2
        exact dDn_congr fun g => by rw [if_neg (by omega), if_neg (by omega), if_neg (by omega)]
      · intro j g1 g2 g3
        exact eDn_congr fun g g' => by rw [if_neg (by omega), if_neg (by omega), if_neg (by omega)]
    · intro q
      rw [if_neg (by omega), if_neg (by omega)]
    · rw [transpose_mul, transpose_mul, transpose_transpose, ← Matrix.mul_assoc, Matrix.mul_assoc _ Gᵀ]; exact hz3
  · rintro x ν' ⟨xd, xe, xf, G, H, u, w, hG, -, hi', hz⟩
    rw [Nat.add_sub_cancel] at hG
    obtain ⟨rfl, rfl⟩ := hi' (by omega)
    refine wp_rset (by omega) ?_
    refine ⟨xd, xe, fun j hj => ?_, Hᵀ, Gᵀ, BSim.ofDn (k := -((istart : ℕ) : ℤ)) (hG.congr ?_ ?_ ?_ ?_ ?_ ?_), hz⟩
    · show (if j = istart then x.f else x.e.f j) = _
      rw [if_neg (by omega)]; exact xf j hj
    · rw [show -(istart : ℤ) - 1 = -((istart + 1 : ℕ) : ℤ) by omega, eDn_cast _ (by omega) (by omega)]
      simp only [Nat.add_sub_cancel, if_true]
    · rw [if_neg (by omega)]
    · simp only [dDn_cast]
    · exact eDn_congr fun g1 g2 => if_neg (by omega)
    · intro j hj; rfl
    · intro j g1 g2
      exact eDn_congr fun g g' => if_neg (by omega)

end
end TLA
