import Verif.Proofs.SteqrSort
import Verif.Props.Examples
set_option linter.unusedTactic false
set_option linter.unusedVariables false
set_option linter.unusedSimpArgs false

/-! # C71: eigenvalues and eigenvectors of a symmetric tridiagonal matrix -/

namespace TLA
open Finset Matrix Kernel
variable {L 𝕜 : Type} [DecidableEq L] [RCLike 𝕜] [DecidableEq 𝕜] {p : RotPar}

/-- What steqr promises about its results `d'`, `e'` and the final store `ν`: there is an orthogonal `Q` such that the final `Z`
is the initial `Z` times `Q` (if wanted), nothing else is written, `d'` is ascending, and, if `e'` vanishes, `T + E = Q diag(d') Q^T` for
a perturbation `E` of norm at most `n - 1` times the tolerance of one deflation. -/
def SteqrSpec (p : RotPar) (n : Nat) (wantz : Bool) (Z : MatV L) (μ : Store L 𝕜) (d e d' e' : Nat → ℝ) (ν : Store L 𝕜) : Prop :=
  ∃ Q E : Matrix (Fin n) (Fin n) ℝ, Qᵀ * Q = 1 ∧
    (wantz = true → mat Z.m n (entry ν Z) = mat Z.m n (entry μ Z) * Q.map (fun x : ℝ => (x : 𝕜))) ∧
    (∀ l, ¬ (wantz = true ∧ Z.Owns l) → ν l = μ l) ∧
    (∀ i j, i < j → j < n → d' i ≤ d' j) ∧
    frobN E ≤ (n - 1 : ℕ) * stqTol p.ulp p.safmin (frobN (mat n n (triS d e))) ∧
    ((∀ j, j + 1 < n → e' j = 0) → mat n n (triS d e) + E = Q * diagonal (fun i : Fin n => d' i) * Qᵀ)

theorem triS_diag {n : Nat} {d e : Nat → ℝ} (h : ∀ j, j + 1 < n → e j = 0) : mat n n (triS d e) = diagonal (fun i : Fin n => d i) := by
  ext i j
  simp only [mat, of_apply, triS, diagonal_apply]
  by_cases q : i = j
  · rw [if_pos (by rw [q]), if_pos q]
  · rw [if_neg (fun h => q (Fin.ext h)), if_neg q]
    split_ifs with q1 q2
    · exact h _ (by omega)
    · exact h _ (by omega)
    · rfl

theorem wp_steqr (h1 : 0 < p.safmin) (h2 : 0 < p.safmax) (wantz : Bool) (d e : RArr) (Z : MatV L) (he : e.n + 1 = d.n)
    (hZ : wantz = true → Z.Inj ∧ Z.n = d.n) (μ : Store L 𝕜) :
    wp (steqr p (fun x : ℝ => (x : 𝕜)) wantz d e Z) μ (fun x ν => x.1 = 0 ∧ x.2.1.n = d.n ∧
      SteqrSpec p d.n wantz Z μ d.f e.f x.2.1.f x.2.2.f ν ∧ (d.n ≤ 2 → ∀ j, j + 1 < d.n → x.2.2.f j = 0)) (DZ3 d.n) := by
  unfold steqr
  by_cases hn : d.n = 0 ∨ d.n = 1
  · dsimp only
    rw [if_pos hn]
    refine ⟨rfl, rfl, ⟨1, 0, by simp, fun hw => ?_, fun _ _ => rfl, fun i j a b => absurd b (by omega), ?_, fun _ => ?_⟩, fun _ j hj => absurd hj (by omega)⟩
    · exact (ZSt.start μ).val hw
    · rw [show d.n - 1 = 0 by omega]; simp [frobN]
    · rw [triS_diag (fun j hj => absurd hj (by omega))]; simp
  · dsimp only
    rw [if_neg hn]
    simp only [wp_bind]
    refine wp_mono (wp_stqLoop h1 h2 hZ (30 * d.n) (d0 := d.f) (e0 := e.f) (μ := μ) ?_ (.inl ?_)) ?_ (fun _ _ h => h)
    · exact ⟨rfl, he, le_rfl, .inl rfl, fun h => absurd h (by simp), fun j a b => absurd a (by simp; omega), 1, QInv.start, ZSt.start μ⟩
    · simp; omega
    rintro x ν ⟨⟨dn, en, stop, -, -, right, Q, ⟨orth, nrm, E, k, r1, r2, r3⟩, hz⟩, hstop⟩
    have hE : frobN E ≤ (d.n - 1 : ℕ) * stqTol p.ulp p.safmin (frobN (mat d.n d.n (triS d.f e.f))) := by
      refine le_trans r2 (mul_le_mul_of_nonneg_right ?_ (Real.sqrt_nonneg _))
      exact_mod_cast (by omega : k ≤ d.n - 1)
    have hconv : d.n ≤ 2 → ∀ j, j + 1 < d.n → x.e.f j = 0 := fun h j hj => right j (by omega) hj
    have hdiag : ∀ (σ : Equiv.Perm (Fin d.n)) (d' : RArr), (∀ j : Fin d.n, d'.f j = x.d.f (σ j)) → (∀ j, j + 1 < d.n → x.e.f j = 0) →
        mat d.n d.n (triS d.f e.f) + E = Q.submatrix id σ * diagonal (fun i : Fin d.n => d'.f i) * (Q.submatrix id σ)ᵀ := by
      intro σ d' hd' hz'
      rw [r1, triS_diag hz', show (fun i : Fin d.n => d'.f i) = fun i => (fun j : Fin d.n => x.d.f j) (σ i) from funext hd']
      exact (perm_diag orth σ (fun j : Fin d.n => x.d.f j)).2.symm
    cases wantz with
    | true =>
      obtain ⟨hi, hzn⟩ := hZ rfl
      rw [if_pos rfl]
      refine wp_mono (wp_stqSort hi hzn x.d dn ν) ?_ (fun _ _ h => h.elim)
      rintro d' ν' ⟨⟨σ, hs⟩, hsort⟩
      refine ⟨rfl, hs.dn, ⟨Q.submatrix id σ, E, (perm_diag orth σ (fun _ => 0)).1, fun _ => ?_, fun l hl => ?_, hsort, hE, hdiag σ d' hs.dv⟩, hconv⟩
      · have e1 : mat Z.m d.n (entry ν' Z) = (mat Z.m d.n (entry ν Z)).submatrix id σ := by
          ext r j
          exact hs.zv r j r.2
        rw [e1, hz.val rfl]
        ext r j
        simp [mul_apply]
      · rw [hs.frame l (fun ho => hl ⟨rfl, ho⟩), hz.frame l hl]
    | false =>
      rw [if_neg (by simp)]
      refine wp_mono (wp_sortInc x.d ν) ?_ (fun _ _ h => h.elim)
      rintro d' ν' ⟨rfl, hdn, ⟨σ, hσ⟩, hsort⟩
      obtain ⟨σ', hσ'⟩ : ∃ σ' : Equiv.Perm (Fin d.n), ∀ j : Fin d.n, d'.f j = x.d.f (σ' j) := by
        have : ∀ q, x.d.n = q → ∃ σ' : Equiv.Perm (Fin q), ∀ j : Fin q, d'.f j = x.d.f (σ' j) := by
          rintro _ rfl; exact ⟨σ, hσ⟩
        exact this _ dn
      rw [dn] at hdn hsort
      refine ⟨rfl, hdn, ⟨Q.submatrix id σ', E, (perm_diag orth σ' (fun _ => 0)).1, fun h => by simp at h, hz.frame, hsort, hE, hdiag σ' d' hσ'⟩, hconv⟩

/-- **C71** steqr: whatever `d`, `e` and `Z` are, the only failure is a division by zero; otherwise the return code is 0 and
`SteqrSpec` holds: the eigenvalues of a matrix close to `T` ascending in `d`, the accumulated orthogonal `Q` in `Z`. -/
theorem C71_steqr (h1 : 0 < p.safmin) (h2 : 0 < p.safmax) (wantz : Bool) (d e : RArr) (Z : MatV L) (he : e.n + 1 = d.n)
    (hZ : wantz = true → Z.Inj ∧ Z.n = d.n) (μ : Store L 𝕜) :
    (∃ ν, steqr p (fun x : ℝ => (x : 𝕜)) wantz d e Z μ = (.error .divz, ν)) ∨
    ∃ d' e' ν, steqr p (fun x : ℝ => (x : 𝕜)) wantz d e Z μ = (.ok (0, d', e'), ν) ∧ d'.n = d.n ∧
      SteqrSpec p d.n wantz Z μ d.f e.f d'.f e'.f ν := by
  have h := wp_steqr h1 h2 wantz d e Z he hZ μ
  unfold wp at h
  rcases hx : steqr p (fun x : ℝ => (x : 𝕜)) wantz d e Z μ with ⟨er | ⟨c, d', e'⟩, ν⟩
  · rw [hx] at h
    exact .inl ⟨ν, by rw [h.1]⟩
  · rw [hx] at h
    obtain ⟨rfl, q2, q3, -⟩ := h
    exact .inr ⟨d', e', ν, rfl, q2, q3⟩

/-- **C71** For order at most 2 steqr always succeeds and converges. -/
theorem C71_steqr_two (h1 : 0 < p.safmin) (h2 : 0 < p.safmax) (wantz : Bool) (d e : RArr) (Z : MatV L) (he : e.n + 1 = d.n) (hn : d.n ≤ 2)
    (hZ : wantz = true → Z.Inj ∧ Z.n = d.n) (μ : Store L 𝕜) :
    ∃ d' e' ν, steqr p (fun x : ℝ => (x : 𝕜)) wantz d e Z μ = (.ok (0, d', e'), ν) ∧ d'.n = d.n ∧
      SteqrSpec p d.n wantz Z μ d.f e.f d'.f e'.f ν ∧ ∀ j, j + 1 < d.n → e'.f j = 0 := by
  have h := wp_steqr h1 h2 wantz d e Z he hZ μ
  unfold wp at h
  rcases hx : steqr p (fun x : ℝ => (x : 𝕜)) wantz d e Z μ with ⟨er | ⟨c, d', e'⟩, ν⟩
  · rw [hx] at h
    exact absurd h.2 (by omega)
  · rw [hx] at h
    obtain ⟨rfl, q2, q3, q4⟩ := h
    exact ⟨d', e', ν, rfl, q2, q3, q4 hn⟩

/-- **C71** (deviation from the documentation) The documented positive return code of a failure to converge never occurs. -/
theorem C71_code_never_positive (h1 : 0 < p.safmin) (h2 : 0 < p.safmax) (wantz : Bool) (d e : RArr) (Z : MatV L) (he : e.n + 1 = d.n)
    (hZ : wantz = true → Z.Inj ∧ Z.n = d.n) (μ ν : Store L 𝕜) (c : Nat) (d' e' : RArr)
    (h : steqr p (fun x : ℝ => (x : 𝕜)) wantz d e Z μ = (.ok (c, d', e'), ν)) : c = 0 := by
  rcases C71_steqr h1 h2 wantz d e Z he hZ μ with ⟨ν', q⟩ | ⟨d2, e2, ν', q, -⟩
  · rw [q] at h; simp at h
  · rw [q] at h; simp at h; exact h.1.1.symm

theorem stqScan_none {L T : Type} {d e : RArr} {n : Nat} (hd : d.n = n) (he : e.n + 1 = n) (i : Nat) (hi : i < n)
    (ht : ∀ j, j < i → ¬ e.f j * e.f j ≤ p.ulp * p.ulp * |d.f j| * |d.f (j + 1)| + p.safmin) (ν : Store L T) :
    (stqScan p 0 d i e : M L T (Nat × RArr)) ν = (.ok (0, e), ν) := by
  induction i with
  | zero => rfl
  | succ i ih =>
    have : wp (stqScan p 0 d (i + 1) e : M L T (Nat × RArr)) ν (fun x ν' => x = (0, e) ∧ ν' = ν) := by
      unfold stqScan
      rw [if_pos (by omega)]
      simp only [wp_bind]
      refine wp_rget (by omega) (wp_rget (by omega) (wp_rget (by omega) ?_))
      rw [if_neg (ht i (by omega))]
      exact wp_of_eq (ih (by omega) (fun j hj => ht j (by omega))) ⟨rfl, rfl⟩
    obtain ⟨a, ν', q, rfl, rfl⟩ := wp_iff.1 this
    exact q

/-- **C71** (violated) For a matrix with constant diagonal and non-negligible off-diagonal entries, such as the second-difference
matrix, of any order at least three, steqr divides by zero: `sgn(0)` is 0 where the shift needs a nonzero sign. -/
theorem C71_constant_diagonal_violated (wantz : Bool) (d e : RArr) (Z : MatV L) (he : e.n + 1 = d.n) (hn : 3 ≤ d.n) (a : ℝ)
    (hd : ∀ j, j < d.n → d.f j = a) (ht : ∀ j, j + 1 < d.n → p.ulp * p.ulp * |a| * |a| + p.safmin < e.f j * e.f j) (μ : Store L 𝕜) :
    steqr p (fun x : ℝ => (x : 𝕜)) wantz d e Z μ = (.error .divz, μ) := by
  have key : wp (steqr p (fun x : ℝ => (x : 𝕜)) wantz d e Z) μ (fun _ _ => False) (fun er ν => er = .divz ∧ ν = μ) := by
    unfold steqr
    dsimp only
    rw [if_neg (by omega), show 30 * d.n = (30 * d.n - 1) + 1 by omega]
    simp only [wp_bind]
    unfold stqLoop
    rw [if_neg (by simp; omega)]
    simp only [wp_bind]
    unfold stqIter
    simp only [wp_bind]
    refine wp_of_eq (stqScan_none (p := p) rfl he (d.n - 1) (by omega) (fun j hj => ?_) μ) ?_
    · rw [hd j (by omega), hd (j + 1) (by omega)]; exact not_le.2 (ht j (by omega))
    dsimp only
    rw [if_neg (by omega), if_neg (by omega)]
    simp only [wp_bind]
    refine wp_rget (by omega) (wp_rget (by omega) ?_)
    have hshift : ∀ (x dd : ℝ) {Q' : ℝ → Store L 𝕜 → Prop}, wp (stqShift a a x dd : M L 𝕜 ℝ) μ Q' (fun er ν => er = .divz ∧ ν = μ) := by
      intro x dd Q'
      unfold stqShift
      simp only [wp_bind]
      by_cases hx : 2 * x = 0
      · rw [show dv (a - a) (2 * x) = none from by simp [dv, hx]]
        exact ⟨rfl, rfl⟩
      · refine wp_liftO_some (show dv (a - a) (2 * x) = some 0 from by simp [dv, hx]) ?_
        rw [show dv x (0 + sgn 0 * lapy2R 0 1) = none from by simp [dv, sgn]]
        exact ⟨rfl, rfl⟩
    cases stqDir _ 0 _ _ with
    | true =>
      rw [if_pos rfl]
      unfold stqFwd
      simp only [wp_bind]
      refine wp_rget (by omega) (wp_rget (by omega) (wp_rget (by omega) (wp_rget (by omega) ?_)))
      rw [hd (d.n - 1) (by omega), hd (d.n - 2) (by omega)]
      exact hshift _ _
    | false =>
      rw [if_neg (by simp)]
      unfold stqBwd
      simp only [wp_bind]
      refine wp_rget (by omega) (wp_rget (by omega) (wp_rget (by omega) (wp_rget (by omega) ?_)))
      rw [hd 0 (by omega), hd (0 + 1) (by omega)]
      exact hshift _ _
  unfold wp at key
  rcases hx : steqr p (fun x : ℝ => (x : 𝕜)) wantz d e Z μ with ⟨er | r, ν⟩
  · rw [hx] at key
    obtain ⟨rfl, rfl⟩ := key
    rfl
  · rw [hx] at key
    exact key.elim

/-- The hypotheses of `C71_steqr` are met by a matrix of order 5 and a 7 by 5 `Z`. -/
example : ((4 : Nat) + 1 = 5) ∧ (mkM 0 7 5).Inj ∧ (mkM 0 7 5).n = 5 ∧ (0 : ℝ) < 1 / 1000 :=
  ⟨rfl, mkM_inj _ _ _, rfl, by norm_num⟩

/-- The hypotheses of the violation are met by the second-difference matrix of order 3 with `ulp = 1/1000`, `safmin = 1/1000`. -/
example : ∀ j, j + 1 < 3 → (1 / 1000 : ℝ) * (1 / 1000) * |2| * |2| + 1 / 1000 < (fun _ : Nat => (-1 : ℝ)) j * (fun _ : Nat => (-1 : ℝ)) j := by
  intro j _; norm_num

end TLA
