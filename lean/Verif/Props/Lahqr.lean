import Verif.Proofs.Lahqr
import Verif.Props.Rot
import Verif.Props.Examples
import Mathlib.LinearAlgebra.Matrix.Charpoly.Basic
import Mathlib.LinearAlgebra.Matrix.Charpoly.Coeff

/-!
# C80: lahqr for complex matrices
-/

set_option linter.unusedVariables false

namespace TLA
open Matrix
variable {L : Type} [DecidableEq L]

/-- The functions and constants of lahqr in double precision: `|re| + |im|`, the modulus, `2⁻⁵²`, `2⁻¹⁰²²/2⁻⁵²`. -/
noncomputable def hqrDouble : HqrPar ℂ := ⟨Kernel.abs1, fun z => ‖z‖, 2⁻¹ ^ 52, 2⁻¹ ^ 970⟩

theorem hqrDouble_laws : HqLaws hqrDouble := by
  refine ⟨fun z => ?_, fun z => ?_, fun _ => rfl, by simp [hqrDouble], by simp [hqrDouble]⟩
  · simp only [hqrDouble, Kernel.abs1]
    exact Complex.norm_le_abs_re_add_abs_im z
  · simp only [hqrDouble, Kernel.abs1]
    have h := Complex.sq_norm z
    rw [Complex.normSq_apply] at h
    have h1 : z.re * z.re = |z.re| ^ 2 := by rw [sq_abs]; ring
    have h2 : z.im * z.im = |z.im| ^ 2 := by rw [sq_abs]; ring
    rw [h1, h2] at h
    have := norm_nonneg z
    refine abs_le_of_sq_le_sq' ?_ (by positivity) |>.2
    nlinarith [sq_nonneg (|z.re| - |z.im|), sq_nonneg (|z.re|), sq_nonneg (|z.im|)]

/-- **C80** lahqr on a complex matrix that is block triangular at `ilo`, `ihi` and upper Hessenberg in between.  Unless
it reads out of range (only possible for `ihi = n`), it ends with a code `r` and there are a unitary `U` and a matrix
`H` with `‖A - U H Uᴴ‖_F ≤ 60 max(10, nh) max(small, 3 eps ‖A‖_F)` such that `Z' = Z U`, `H` (which is what is
stored in `A`, if `want_t`) is upper Hessenberg, its rows `i, i+1, …` are upper triangular up to column `ihi`, and
`w(i), …, w(ihi-1)` are its diagonal entries; here `i = ilo` if `r = 0` and `i = r` otherwise. -/
theorem C80_lahqr {o : RotOps ℂ} (ho : RotLaws o) {p : HqrPar ℂ} (hp : HqLaws p) {wantt wantz : Bool} {ilo ihi : Nat}
    {A Z : MatV L} {w : VecV L} (ok : HqrOK wantz ilo ihi A w Z) (μ : Store L ℂ)
    (z1 : ∀ r c, r < A.n → ilo ≤ r → c < ilo → entry μ A r c = 0)
    (z2 : ∀ r c, r < A.n → ihi ≤ r → c < ihi → entry μ A r c = 0)
    (z3 : ∀ r c, ilo ≤ c → r < ihi → c + 1 < r → entry μ A r c = 0) :
    (∃ ν, lahqrC o p wantt wantz ilo ihi A w Z μ = (.error .ub, ν) ∧ ihi = A.n) ∨
    ∃ r ν, lahqrC o p wantt wantz ilo ihi A w Z μ = (.ok r, ν) ∧
      (∃ i, ilo ≤ i ∧ i ≤ ihi ∧ (r = 0 → i = ilo) ∧ (r ≠ 0 → r = i) ∧
        ∃ U H : Matrix (Fin A.n) (Fin A.n) ℂ, Uᴴ * U = 1 ∧
          frobM (mat A.n A.n (entry μ A) - U * H * Uᴴ) ≤
            60 * max 10 ((ihi - ilo : ℕ) : ℝ) * max p.small (3 * p.eps * frobM (mat A.n A.n (entry μ A))) ∧
          (wantt = true → mat A.n A.n (entry ν A) = H) ∧
          (wantz = true → mat A.n A.n (entry ν Z) = mat A.n A.n (entry μ Z) * U) ∧
          (∀ a b : Fin A.n, i ≤ (a : Nat) → (b : Nat) < a → (b : Nat) < ihi → H a b = 0) ∧
          (∀ a b : Fin A.n, ilo ≤ (a : Nat) → (b : Nat) + 1 < a → (b : Nat) < ihi → H a b = 0) ∧
          ∀ a : Fin A.n, i ≤ (a : Nat) → (a : Nat) < ihi → ventry ν w a = H a a) ∧
      ∀ l, ¬ A.Owns l → ¬ w.Owns l → ¬ (wantz = true ∧ Z.Owns l) → ν l = μ l := by
  have k1 := ok.Am
  have k2 := ok.hi
  have key := wp_lahqrC (wantt := wantt) (ν := μ) (A0 := entry μ A) (Z0 := entry μ Z) ho hp ok (fun _ _ _ _ => rfl)
    (fun _ _ _ _ _ => rfl) z1 z2 z3
  unfold wp at key
  rcases hx : lahqrC o p wantt wantz ilo ihi A w Z μ with ⟨r, ν⟩
  rw [hx] at key
  cases r with
  | error e => exact .inl ⟨ν, by rw [key.1], key.2⟩
  | ok r =>
    right
    obtain ⟨i, K, FA, FZ, hI, g1, g2, g3⟩ := key
    obtain ⟨U, hU, he, hq⟩ := hI.err
    refine ⟨r, ν, rfl, ⟨i, g1, g2, by omega, by omega, U, mat A.n A.n FA, hU, ?_, fun wt => ?_, fun wz => ?_, ?_, ?_, ?_⟩,
      hI.mem.frame⟩
    · refine he.trans (le_of_eq ?_)
      unfold hqDel
      push_cast
      ring
    · exact mat_ext_iff.2 fun a b ha hb => hI.mem.a a b ha hb (.inl wt)
    · rw [← hq wz]
      exact mat_ext_iff.2 fun a b ha hb => hI.mem.z wz a b ha hb
    · intro a b h1 h2 h3
      exact hI.pat.cut (min a ihi) (hI.kdn _ (by omega) (by omega)) a b a.2 (by omega) (by omega)
    · intro a b h1 h2 h3
      simp only [mat, of_apply]
      by_cases ha : (a : Nat) < ihi
      · by_cases hb : ilo ≤ (b : Nat)
        · exact hI.pat.hess a b hb ha h2 (by omega)
        · exact hI.pat.cut ilo hI.klo a b a.2 h1 (by omega)
      · exact hI.pat.cut ihi (hI.kdn _ g2 le_rfl) a b a.2 (by omega) h3
    · intro a h1 h2
      exact hI.wdn a h1 h2

/-- **C80** the usual call, `ilo = 0`, `ihi = n`, with return code 0: the values in `w` are exactly the eigenvalues
(with multiplicities) of a matrix at distance at most `60 max(10, n) max(small, 3 eps ‖A‖_F)` from `A`. -/
theorem C80_lahqr_eigenvalues {o : RotOps ℂ} (ho : RotLaws o) {p : HqrPar ℂ} (hp : HqLaws p) {wantt wantz : Bool}
    {A Z : MatV L} {w : VecV L} (ok : HqrOK wantz 0 A.n A w Z) (μ : Store L ℂ)
    (z3 : ∀ r c, r < A.n → c + 1 < r → entry μ A r c = 0) {ν : Store L ℂ}
    (h : lahqrC o p wantt wantz 0 A.n A w Z μ = (.ok 0, ν)) :
    ∃ B : Matrix (Fin A.n) (Fin A.n) ℂ,
      frobM (mat A.n A.n (entry μ A) - B) ≤
        60 * max 10 (A.n : ℝ) * max p.small (3 * p.eps * frobM (mat A.n A.n (entry μ A))) ∧
      B.charpoly = ∏ a : Fin A.n, (Polynomial.X - Polynomial.C (ventry ν w a)) := by
  rcases C80_lahqr (wantt := wantt) ho hp ok μ (fun r c _ _ h => by omega) (fun r c h1 h2 _ => by omega)
    (fun r c _ h1 h2 => z3 r c h1 h2) with ⟨ν', e, -⟩ | ⟨r, ν', e, ⟨i, -, -, h0, -, U, H, hU, hd, -, -, ht, -, hw⟩, -⟩
  · rw [h] at e; simp at e
  · rw [h] at e
    simp only [Prod.mk.injEq, Except.ok.injEq] at e
    obtain ⟨rfl, rfl⟩ := e
    have hi : i = 0 := h0 rfl
    subst hi
    refine ⟨U * H * Uᴴ, by simpa using hd, ?_⟩
    have hU' := mul_eq_one_comm.1 hU
    have e1 : (U * H * Uᴴ).charpoly = H.charpoly := by
      have := Matrix.charpoly_mul_comm U (H * Uᴴ)
      rw [Matrix.mul_assoc, this, Matrix.mul_assoc, hU, Matrix.mul_one]
    rw [e1, Matrix.charpoly_of_upperTriangular H fun a b hab => ht a b (Nat.zero_le _) hab (by omega)]
    exact Finset.prod_congr rfl fun a _ => by rw [hw a (Nat.zero_le _) a.2]

/-- **C80** for `ihi < n` lahqr never fails. -/
theorem C80_lahqr_total {o : RotOps ℂ} (ho : RotLaws o) {p : HqrPar ℂ} (hp : HqLaws p) {wantt wantz : Bool}
    {ilo ihi : Nat} {A Z : MatV L} {w : VecV L} (ok : HqrOK wantz ilo ihi A w Z) (hn : ihi < A.n) (μ : Store L ℂ)
    (z1 : ∀ r c, r < A.n → ilo ≤ r → c < ilo → entry μ A r c = 0)
    (z2 : ∀ r c, r < A.n → ihi ≤ r → c < ihi → entry μ A r c = 0)
    (z3 : ∀ r c, ilo ≤ c → r < ihi → c + 1 < r → entry μ A r c = 0) :
    ∃ r ν, lahqrC o p wantt wantz ilo ihi A w Z μ = (.ok r, ν) := by
  rcases C80_lahqr (wantt := wantt) ho hp ok μ z1 z2 z3 with ⟨ν, e, h⟩ | ⟨r, ν, e, -⟩
  · omega
  · exact ⟨r, ν, e⟩

/-- The hypotheses are met by a 5×5 matrix with a Hessenberg block in rows and columns 1 to 3, by rotg and by the double
precision constants. -/
example : HqrOK true 1 4 (mkM 0 5 5) (mkV 1 5) (mkM 2 5 5) ∧
    (∀ r c, ((mkM 0 5 5).n > r ∧ 1 ≤ r ∧ c < 1) ∨ ((mkM 0 5 5).n > r ∧ 4 ≤ r ∧ c < 4) ∨ (1 ≤ c ∧ r < 4 ∧ c + 1 < r) →
      entry (fun l : Nat × Nat × Nat => if l.1 = 0 ∧ (l.2.1 ≤ l.2.2 ∨ l.2.1 = 2 ∧ l.2.2 = 1 ∨ l.2.1 = 3 ∧ l.2.2 = 2)
        then (1 : ℂ) else 0) (mkM 0 5 5) r c = 0) ∧
    HqLaws hqrDouble ∧ hqrDouble.small < 1 ∧ RotLaws (rotOpsC ⟨2⁻¹ ^ 1022, 2 ^ 1022, 2⁻¹ ^ 52⟩) := by
  refine ⟨⟨rfl, rfl, fun _ => rfl, fun _ => rfl, mkM_inj _ _ _, mkV_inj _ _, fun _ => mkM_inj _ _ _,
    fun _ => mkM_disj (by decide), mkV_disjM (by decide), fun _ => mkV_disjM (by decide), by decide, by decide⟩,
    fun r c h => ?_, hqrDouble_laws, ?_, rotLaws_complex ?_ ?_ ?_⟩
  · simp only [mkM] at h
    simp only [entry, mkM, true_and]
    rw [if_neg (by omega)]
  · simp only [hqrDouble]
    exact pow_lt_one₀ (by norm_num) (by norm_num) (by norm_num)
  all_goals dsimp only; positivity

/-- **C80, violated** `[0 1; 1 0]` with `ilo = 0`, `ihi = n = 2`: the deflation test reads `A(2,1)`, outside of `A`
(lahqr.hpp:508 tests `i < ihi`; LAPACK tests `i + 1 < ihi`). -/
theorem C80_lahqr_out_of_range_violated (o : RotOps ℂ) {p : HqrPar ℂ} (hp : HqLaws p) (hs : p.small < 1)
    (wantt wantz : Bool) {A Z : MatV L} {w : VecV L} (hA : A.n = 2) (ok : HqrOK wantz 0 2 A w Z) (μ : Store L ℂ)
    (h00 : entry μ A 0 0 = 0) (h10 : entry μ A 1 0 = 1) (h11 : entry μ A 1 1 = 0) :
    lahqrC o p wantt wantz 0 2 A w Z μ = (.error .ub, μ) := by
  have k1 := ok.Am
  have k2 := ok.wn
  have a0 : p.abs1 0 = 0 := le_antisymm (by simpa using hp.hi 0) (by simpa using hp.lo 0)
  have a1 : ¬ p.abs1 1 ≤ p.small := by
    have := hp.lo 1
    rw [norm_one] at this
    linarith
  have e0 : μ (A.cell 0 0) = 0 := h00
  have e1 : μ (A.cell 1 0) = 1 := h10
  have e2 : μ (A.cell 1 1) = 0 := h11
  have scan : wp (hqrScan p A 0 2 0 1) μ (fun _ _ => False) (fun e ν => e = .ub ∧ ν = μ) := by
    rw [hqrScan, wp_ite, if_pos (by omega), wp_bind]
    unfold hqrDefl
    rw [wp_bind]
    refine wp_getE ⟨by omega, by omega⟩ ?_
    simp only [Nat.zero_add, Nat.sub_self]
    rw [e1, wp_ite, if_neg a1, wp_bind]
    refine wp_getE ⟨by omega, by omega⟩ ?_
    rw [wp_bind]
    refine wp_getE ⟨by omega, by omega⟩ ?_
    rw [wp_bind, e0, e2, a0, add_zero, wp_ite, if_pos rfl, wp_bind, wp_ite, if_neg (by omega), wp_pure, wp_ite,
      if_pos (by omega), wp_bind]
    unfold wp MatV.get
    rw [if_neg (by omega)]
    exact ⟨rfl, rfl⟩
  have key : wp (lahqrC o p wantt wantz 0 2 A w Z) μ (fun _ _ => False) (fun e ν => e = .ub ∧ ν = μ) := by
    unfold lahqrC
    simp only [wp_bind]
    rw [wp_check, if_pos (by simp [k1]), wp_check, if_pos (by simp [k2])]
    have chk : wp (if wantz then check (!(decide (A.n ≠ Z.n) || decide (A.n ≠ Z.m))) else pure () : M L ℂ Unit) μ
        (fun _ ν' => ν' = μ) := by
      rw [wp_ite]
      split
      · next wz => simp [wp_check, ok.Zm wz, ok.Zn wz]
      · simp
    refine wp_conseq chk ?_
    rintro _ ν rfl
    rw [wp_ite, if_neg (by omega), wp_bind, wp_ite, if_neg (by omega), wp_pure, wp_bind]
    unfold forRet
    rw [show 30 * max 10 (2 - 0) + 1 - 0 = 300 + 1 from rfl]
    unfold forRetN
    rw [wp_bind]
    unfold hqrPass
    rw [wp_ite, if_neg (by omega), wp_ite, if_neg (by simp), wp_bind]
    refine wp_mono scan (fun _ _ h => h.elim) fun _ _ h => h
  unfold wp at key
  rcases hx : lahqrC o p wantt wantz 0 2 A w Z μ with ⟨r, ν⟩
  rw [hx] at key
  cases r with
  | ok a => exact key.elim
  | error e => rw [key.1, key.2]

end TLA
