import Verif.Proofs.LahqzInf2
import Verif.Props.Rot

/-!
# C101: deflation of infinite eigenvalues in lahqz
-/

set_option linter.unusedVariables false
set_option linter.unusedSectionVars false

namespace TLA
open Matrix
variable {L T : Type} [DecidableEq L] [Field T] [StarRing T] [DecidableEq T]

/-- **C101** With `A` upper Hessenberg and `B` upper triangular of order `n` and an active block `[s, e)` (`A(s,s-1) = A(e,e-1) = 0`), the loop of
lahqz over the diagonal of `B` returns `s' ≥ s` and unitary `U`, `V` with `A = U A' Vᴴ`, `B = U B' Vᴴ + G`, `Q' = Q U`, `Z' = Z V`, where `G` is a sum of
`s' - s` rank-one matrices whose sizes were negligible entries; the shape is kept; the first `s' - s` rows of the block have `B'(t,t) = 0`, `A'(t+1,t) = 0`,
and `alpha(t) = A'(t,t)`, `beta(t) = 0`; the block `[s', e)` is decoupled; outside the rows and columns of the block nothing changes; if `s' = s`, no
diagonal entry was negligible and nothing at all was written. -/
theorem C101_lahqz_infinite {o : RotOps T} (ho : RotLaws o) (negl : T → Bool) {wantq wantz : Bool} {A B Q Z : MatV L}
    (ok : GghrdOK wantq wantz 0 A.n A B Q Z) (μ : Store L T) {s e : Nat} (hse : s ≤ e) (hen : e ≤ A.n)
    (hA : ∀ r c, r < A.n → c + 1 < r → entry μ A r c = 0) (hB : ∀ r c, r < A.n → c < r → entry μ B r c = 0)
    (hs : 0 < s → s < A.n → entry μ A s (s - 1) = 0) (he : 0 < e → e < A.n → entry μ A e (e - 1) = 0) (al be : Nat → T) :
    ∃ s' al' be' ν, lzInf o negl wantq wantz A B Q Z A.n s e al be μ = (.ok (s', al', be'), ν) ∧ s ≤ s' ∧ s' ≤ e ∧
      (∃ (U V G : Matrix (Fin A.n) (Fin A.n) T), Uᴴ * U = 1 ∧ Vᴴ * V = 1 ∧ NegSum negl (s' - s) G ∧
        mat A.n A.n (entry μ A) = U * mat A.n A.n (entry ν A) * Vᴴ ∧
        mat A.n A.n (entry μ B) = U * mat A.n A.n (entry ν B) * Vᴴ + G ∧
        (wantq = true → mat A.n A.n (entry ν Q) = mat A.n A.n (entry μ Q) * U) ∧
        (wantz = true → mat A.n A.n (entry ν Z) = mat A.n A.n (entry μ Z) * V)) ∧
      (∀ r c, r < A.n → c + 1 < r → entry ν A r c = 0) ∧ (∀ r c, r < A.n → c < r → entry ν B r c = 0) ∧
      (0 < s' → s' < A.n → entry ν A s' (s' - 1) = 0) ∧ (0 < e → e < A.n → entry ν A e (e - 1) = 0) ∧
      (∀ t, s ≤ t → t < s' → entry ν B t t = 0 ∧ (t + 1 < A.n → entry ν A (t + 1) t = 0) ∧ al' t = entry ν A t t ∧ be' t = 0) ∧
      (∀ t, t < s ∨ s' ≤ t → al' t = al t ∧ be' t = be t) ∧
      (∀ r c, r < A.n → c < A.n → r < s ∨ e ≤ r → c < s ∨ e ≤ c → entry ν A r c = entry μ A r c ∧ entry ν B r c = entry μ B r c) ∧
      (s' = s → ν = μ ∧ ∀ t, s ≤ t → t < e → negl (entry μ B t t) = false) ∧
      ∀ l, ¬ A.Owns l → ¬ B.Owns l → ¬ (wantq = true ∧ Q.Owns l) → ¬ (wantz = true ∧ Z.Owns l) → ν l = μ l := by
  have k1 := ok.Am
  have k2 := ok.Bm
  have k3 := ok.Bn
  have k4 := ok.Qm
  have k5 := ok.Qn
  have k6 := ok.Zm
  have k7 := ok.Zn
  have sh : LzShape A.n s e (entry μ A) (entry μ B) := by
    refine ⟨hB, hA, fun c h1 h2 => ?_, fun c h1 h2 => ?_⟩
    · by_cases e1 : c = s - 1
      · rw [e1]; exact hs (by omega) h1
      · exact hA _ c h1 (by omega)
    · by_cases e1 : c = e - 1
      · rw [e1]; exact he (by omega) h1
      · exact hA _ c h1 (by omega)
  obtain ⟨⟨s', al', be'⟩, ν, hr, FA, FB, FQ, FZ, B0, G, I⟩ := wp_iff.1 (wp_lzInf ho ok negl hse hen sh al be)
  dsimp only at I
  have ea : ∀ r k, r < A.n → k < A.n → entry ν A r k = FA r k := fun r k hr hk => I.mem.a r k (by omega) hk
  have eb : ∀ r k, r < A.n → k < A.n → entry ν B r k = FB r k := fun r k hr hk => I.mem.b r k (by omega) (by omega)
  obtain ⟨U, V, hU, hV, ha, hb, hq, hz⟩ := I.eqn
  have ih := I.hi
  refine ⟨s', al', be', ν, hr, I.lo, I.hi, ⟨U, V, G, hU, hV, I.neg, ?_, ?_, fun w => ?_, fun w => ?_⟩, ?_, ?_, ?_, ?_, ?_, I.out, ?_, I.idle, I.mem.frame⟩
  · rw [ha, mat_ext_iff.2 fun i j hi hj => (ea i j hi hj).symm]
  · rw [I.per, hb, mat_ext_iff.2 fun i j hi hj => (eb i j hi hj).symm]
  · rw [← hq w]
    exact mat_ext_iff.2 fun i j hi hj => I.mem.q w i j (by omega) (by omega)
  · rw [← hz w]
    exact mat_ext_iff.2 fun i j hi hj => I.mem.z w i j (by omega) (by omega)
  · intro r c h1 h2; rw [ea r c h1 (by omega)]; exact I.shape.hs r c h1 h2
  · intro r c h1 h2; rw [eb r c h1 (by omega)]; exact I.shape.bt r c h1 h2
  · intro h1 h2; rw [ea _ _ h2 (by omega)]; exact I.shape.top _ h2 (by omega)
  · intro h1 h2; rw [ea _ _ h2 (by omega)]; exact I.shape.bot _ h2 (by omega)
  · intro t h1 h2
    rw [eb t t (by omega) (by omega), ea t t (by omega) (by omega)]
    obtain ⟨f1, f2, f3, f4⟩ := I.fin t h1 h2
    exact ⟨f1, fun h => by rw [ea _ _ h (by omega)]; exact f2 h, f3, f4⟩
  · intro r c h1 h2 h3 h4
    rw [ea r c h1 h2, eb r c h1 h2]
    exact ⟨I.sA r c h3 h4, I.sB r c h3 h4⟩

/-- **C101** a negligible entry is always deflated: if some diagonal entry of `B` in the block is negligible, `s' > s`, so `alpha(s)`, `beta(s) = 0` is
returned as an infinite eigenvalue. -/
theorem C101_lahqz_infinite_found {o : RotOps T} (ho : RotLaws o) (negl : T → Bool) {wantq wantz : Bool} {A B Q Z : MatV L}
    (ok : GghrdOK wantq wantz 0 A.n A B Q Z) (μ : Store L T) {s e : Nat} (hen : e ≤ A.n)
    (hA : ∀ r c, r < A.n → c + 1 < r → entry μ A r c = 0) (hB : ∀ r c, r < A.n → c < r → entry μ B r c = 0)
    (hs : 0 < s → s < A.n → entry μ A s (s - 1) = 0) (he : 0 < e → e < A.n → entry μ A e (e - 1) = 0) (al be : Nat → T)
    {t : Nat} (h1 : s ≤ t) (h2 : t < e) (hn : negl (entry μ B t t) = true) :
    ∃ s' al' be' ν, lzInf o negl wantq wantz A B Q Z A.n s e al be μ = (.ok (s', al', be'), ν) ∧ s < s' ∧
      entry ν B s s = 0 ∧ (s + 1 < A.n → entry ν A (s + 1) s = 0) ∧ al' s = entry ν A s s ∧ be' s = 0 := by
  obtain ⟨s', al', be', ν, hr, lo, -, -, -, -, -, -, f, -, -, idle, -⟩ := C101_lahqz_infinite ho negl ok μ (by omega) hen hA hB hs he al be
  have hlt : s < s' := by
    rcases Nat.eq_or_lt_of_le lo with h | h
    · have := (idle h.symm).2 t h1 h2
      rw [hn] at this
      cases this
    · exact h
  exact ⟨s', al', be', ν, hr, hlt, f s le_rfl hlt⟩

/-- **C101** the perturbation is small: with `negl x` implying `|x| ≤ tol`, every entry of `G` is at most `k tol`. -/
theorem C101_perturbation {negl : ℂ → Bool} {tol : ℝ} (h : ∀ x, negl x = true → ‖x‖ ≤ tol) {n k : Nat} {G : Matrix (Fin n) (Fin n) ℂ}
    (hG : NegSum negl k G) (i j : Fin n) : ‖G i j‖ ≤ k * tol := by
  have unit : ∀ x : Fin n → ℂ, star x ⬝ᵥ x = 1 → ∀ i, ‖x i‖ ≤ 1 := by
    intro x hx i
    have e1 : ((∑ i, ‖x i‖ ^ 2 : ℝ) : ℂ) = 1 := by
      rw [← hx, dotProduct, Complex.ofReal_sum]
      refine Finset.sum_congr rfl fun i _ => ?_
      rw [Pi.star_apply, Complex.star_def, Complex.conj_mul']; push_cast; rfl
    have e2 : (∑ i, ‖x i‖ ^ 2 : ℝ) = 1 := by exact_mod_cast e1
    have e3 : ‖x i‖ ^ 2 ≤ 1 := by
      rw [← e2]
      exact Finset.single_le_sum (f := fun i => ‖x i‖ ^ 2) (fun _ _ => by positivity) (Finset.mem_univ i)
    nlinarith [norm_nonneg (x i)]
  induction hG with
  | zero => simp
  | @add k F δ x y hF hd hx hy ih =>
    rw [Matrix.add_apply, Matrix.smul_apply, Matrix.vecMulVec_apply, smul_eq_mul]
    have b1 : ‖δ * (x i * star y j)‖ ≤ tol := by
      rw [norm_mul, norm_mul, Pi.star_apply, norm_star]
      have := unit x hx i
      have := unit y hy j
      have p : ‖x i‖ * ‖y j‖ ≤ 1 := mul_le_one₀ (unit x hx i) (norm_nonneg _) (unit y hy j)
      calc ‖δ‖ * (‖x i‖ * ‖y j‖) ≤ ‖δ‖ * 1 := mul_le_mul_of_nonneg_left p (norm_nonneg _)
        _ ≤ tol := by rw [mul_one]; exact h δ hd
    calc _ ≤ ‖F i j‖ + ‖δ * (x i * star y j)‖ := norm_add_le _ _
      _ ≤ k * tol + tol := add_le_add ih b1
      _ = _ := by push_cast; ring

/-- The hypotheses are met: order 4, three zeros on the diagonal of `B`, the whole matrix active; an infinite eigenvalue is found. -/
example : ∃ s' al' be' ν, lzInf (rotOpsC ⟨2⁻¹ ^ 1022, 2 ^ 1022, 2⁻¹ ^ 52⟩) (fun x => decide (‖x‖ ≤ 2⁻¹ ^ 52)) true true (mkM 0 4 4) (mkM 1 4 4) (mkM 2 4 4) (mkM 3 4 4) 4 0 4
      (fun _ => 0) (fun _ => 1) (fun l : Nat × Nat × Nat => if l.1 = 1 then (if l.2.1 < l.2.2 ∨ l.2.1 = 2 ∧ l.2.2 = 2 then 1 else 0) else
        if l.2.1 ≤ l.2.2 + 1 then (l.2.1 + 2 * l.2.2 + 1 : ℂ) else 0) = (.ok (s', al', be'), ν) ∧ 0 < s' ∧ be' 0 = 0 := by
  obtain ⟨s', al', be', ν, hr, h, -, -, -, hb⟩ := C101_lahqz_infinite_found (o := rotOpsC ⟨2⁻¹ ^ 1022, 2 ^ 1022, 2⁻¹ ^ 52⟩)
    (rotLaws_complex (by dsimp only; positivity) (by dsimp only; positivity) (by dsimp only; positivity))
    (fun x => decide (‖x‖ ≤ 2⁻¹ ^ 52)) (wantq := true) (wantz := true) (A := mkM 0 4 4) (B := mkM 1 4 4) (Q := mkM 2 4 4) (Z := mkM 3 4 4)
    ⟨by decide, by decide, rfl, rfl, rfl, rfl, rfl, rfl, rfl, mkM_inj _ _ _, mkM_inj _ _ _, fun _ => mkM_inj _ _ _,
      fun _ => mkM_inj _ _ _, mkM_disj (by decide), fun _ => mkM_disj (by decide), fun _ => mkM_disj (by decide),
      fun _ => mkM_disj (by decide), fun _ => mkM_disj (by decide), fun _ _ => mkM_disj (by decide)⟩
    (fun l : Nat × Nat × Nat => if l.1 = 1 then (if l.2.1 < l.2.2 ∨ l.2.1 = 2 ∧ l.2.2 = 2 then 1 else 0) else
        if l.2.1 ≤ l.2.2 + 1 then (l.2.1 + 2 * l.2.2 + 1 : ℂ) else 0) (s := 0) (e := 4) (le_refl 4)
    (fun r c _ h => by simp [entry, mkM]; exact if_neg (by omega)) (fun r c _ h => by simp [entry, mkM]; exact if_neg (by omega)) (fun h => absurd h (by omega)) (fun _ h => absurd h (by simp [mkM]))
    (fun _ => 0) (fun _ => 1) (t := 1) (by omega) (by omega) (by simp [entry, mkM])
  exact ⟨s', al', be', ν, hr, h, hb⟩

end TLA
