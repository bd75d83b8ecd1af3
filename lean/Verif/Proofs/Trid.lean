import Verif.SpecReduce
import Verif.Proofs.TwoSide
import Verif.Proofs.Unghr
import Verif.Proofs.Bidiag
import Verif.Props.Level2
set_option linter.unusedTactic false
set_option linter.unusedVariables false
set_option linter.unreachableTactic false
set_option linter.unusedSectionVars false

/-! # hetd2 -/

namespace TLA
open Finset
variable {L 𝕜 : Type} [DecidableEq L] [RCLike 𝕜] [DecidableEq 𝕜] {p : HhPar}

/-! ### Algebra -/

/-- The rank-2 form of `H^H F H` for Hermitian `F`. -/
theorem her2_alg {n : Nat} {F : Nat → Nat → 𝕜} (hF : ∀ i j, star (F i j) = F j i) (t : 𝕜) (u x : Nat → 𝕜) (d : 𝕜)
    (hx : ∀ r, r < n → x r = t * ∑ s ∈ range n, F r s * u s)
    (hd : d = ∑ s ∈ range n, star (x s) * u s) {r c : Nat} (hr : r < n) (hc : c < n) :
    applyR n t u (applyL n (star t) u F) r c =
      F r c - u r * star (x c - (1 / 2) * t * d * u c) - (x r - (1 / 2) * t * d * u r) * star (u c) := by
  obtain ⟨y, hy⟩ : ∃ y : Nat → 𝕜, y = fun r => ∑ s ∈ range n, F r s * u s := ⟨_, rfl⟩
  obtain ⟨γ, hγ⟩ : ∃ γ : 𝕜, γ = ∑ s ∈ range n, star (u s) * y s := ⟨_, rfl⟩
  have hxy : ∀ r, r < n → x r = t * y r := fun r hr => by rw [hx r hr, hy]
  have hyc : ∀ c, ∑ s ∈ range n, star (u s) * F s c = star (y c) := by
    intro c
    rw [hy, star_sum]
    refine Finset.sum_congr rfl fun s _ => ?_
    rw [star_mul', hF, mul_comm]
  have hγr : star γ = γ := by
    rw [hγ, star_sum]
    have e1 : ∀ s, star (star (u s) * y s) = ∑ k ∈ range n, star (u k) * F k s * u s := by
      intro s
      rw [star_mul', star_star, ← hyc s, Finset.mul_sum]
      exact Finset.sum_congr rfl fun k _ => by ring
    have e2 : ∀ k, star (u k) * y k = ∑ s ∈ range n, star (u k) * F k s * u s := by
      intro k
      rw [hy]
      simp only []
      rw [Finset.mul_sum]
      exact Finset.sum_congr rfl fun s _ => by ring
    rw [Finset.sum_congr rfl (fun s _ => e1 s), Finset.sum_congr rfl (fun s _ => e2 s), Finset.sum_comm]
  have hdγ : d = star t * γ := by
    rw [hd]
    have : ∑ s ∈ range n, star (x s) * u s = star (t * γ) := by
      rw [hγ, Finset.mul_sum, star_sum]
      refine Finset.sum_congr rfl fun s hs => ?_
      rw [hxy s (mem_range.1 hs)]
      simp only [star_mul', star_star]
      ring
    rw [this, star_mul', hγr]
  have hhalf : star ((1 : 𝕜) / 2) = 1 / 2 := by
    simp
  unfold applyR applyL
  rw [hyc c]
  have e3 : ∑ s ∈ range n, (F r s - star t * u r * ∑ s_1 ∈ range n, star (u s_1) * F s_1 s) * u s =
      y r - star t * u r * γ := by
    simp only [sub_mul, Finset.sum_sub_distrib]
    congr 1
    · rw [hy]
    · simp only [hyc]
      rw [hγ]
      have : star γ = ∑ s ∈ range n, star (y s) * u s := by
        rw [hγ, star_sum]
        exact Finset.sum_congr rfl fun s _ => by rw [star_mul', star_star, mul_comm]
      rw [← hγ, ← hγr, this, Finset.mul_sum]
      exact Finset.sum_congr rfl fun s _ => by ring
  rw [e3, hxy r hr, hxy c hc, hdγ]
  simp only [star_sub, star_mul', star_star, hhalf, hγr]
  ring

/-- One two-sided step on a Hermitian matrix. -/
theorem hermStep {n r0 r1 j : Nat} {F0 F1 : Nat → Nat → 𝕜} {t : 𝕜} {u : Nat → 𝕜} (hj : j < n)
    (hjb : ¬ (r0 ≤ j ∧ j < r1)) (h1n : r1 ≤ n)
    (hu : ∀ r, ¬ (r0 ≤ r ∧ r < r1) → u r = 0)
    (hF0 : ∀ r c, star (F0 r c) = F0 c r) (hF1 : ∀ r c, star (F1 r c) = F1 c r)
    (blk : ∀ r c, r0 ≤ r → r < r1 → r0 ≤ c → c < r1 → F1 r c = applyR n t u (applyL n (star t) u F0) r c)
    (col : ∀ r, r0 ≤ r → r < r1 → F1 r j = applyL n (star t) u F0 r j)
    (zero : ∀ r c, r0 ≤ r → r < r1 → c < n → ¬ (r0 ≤ c ∧ c < r1) → c ≠ j → F0 r c = 0 ∧ F1 r c = 0)
    (out : ∀ r c, r < n → c < n → ¬ (r0 ≤ r ∧ r < r1) → ¬ (r0 ≤ c ∧ c < r1) → F1 r c = F0 r c) :
    mat n n F1 = (mat n n (reflF t u)).conjTranspose * mat n n F0 * mat n n (reflF t u) := by
  rw [refl_conjTranspose, ← mat_applyL, ← mat_applyR, mat_ext_iff]
  intro r c hr hc
  by_cases hrb : r0 ≤ r ∧ r < r1
  · by_cases hcb : r0 ≤ c ∧ c < r1
    · exact blk r c hrb.1 hrb.2 hcb.1 hcb.2
    · unfold applyR
      rw [hu c hcb, star_zero, mul_zero, sub_zero]
      by_cases hcj : c = j
      · subst hcj; exact col r hrb.1 hrb.2
      · rw [(zero r c hrb.1 hrb.2 hc hcb hcj).2]
        unfold applyL
        rw [(zero r c hrb.1 hrb.2 hc hcb hcj).1, Finset.sum_eq_zero, mul_zero, sub_zero]
        intro s hs
        by_cases hsb : r0 ≤ s ∧ s < r1
        · rw [(zero s c hsb.1 hsb.2 hc hcb hcj).1, mul_zero]
        · rw [hu s hsb, star_zero, zero_mul]
  · have hL : ∀ s, applyL n (star t) u F0 r s = F0 r s := by
      intro s; unfold applyL; rw [hu r hrb, mul_zero, zero_mul, sub_zero]
    unfold applyR
    simp only [hL]
    by_cases hcb : r0 ≤ c ∧ c < r1
    · by_cases hrj : r = j
      · subst hrj
        rw [← hF1, col c hcb.1 hcb.2]
        unfold applyL
        simp only [star_sub, star_mul', star_star, star_sum, hF0]
        congr 1
        rw [mul_assoc, mul_assoc, mul_comm (star (u c))]
        congr 2
        exact Finset.sum_congr rfl fun s _ => by ring
      · have z := zero c r hcb.1 hcb.2 hr hrb hrj
        have e1 : F1 r c = 0 := by rw [← hF1, z.2, star_zero]
        have e0 : ∀ s, r0 ≤ s → s < r1 → F0 r s = 0 := fun s h h' => by
          rw [← hF0, (zero s r h h' hr hrb hrj).1, star_zero]
        rw [e1, e0 c hcb.1 hcb.2, Finset.sum_eq_zero, mul_zero, zero_mul, sub_zero]
        intro s _
        by_cases hsb : r0 ≤ s ∧ s < r1
        · rw [e0 s hsb.1 hsb.2, zero_mul]
        · rw [hu s hsb, mul_zero]
    · rw [hu c hcb, star_zero, mul_zero, sub_zero]
      exact out r c hr hc hrb hcb

/-! ### The update -/

theorem hermF_shift {uplo : Uplo} (hu : uplo = .Upper ∨ uplo = .Lower) (r0 : Nat) (G : Nat → Nat → 𝕜) (a b : Nat) :
    hermF uplo (fun i j => G (r0 + i) (r0 + j)) a b = hermF uplo G (r0 + a) (r0 + b) := by
  unfold hermF
  beta_reduce
  by_cases e : a = b
  · subst e; rw [if_pos rfl, if_pos rfl]
  · rw [if_neg e, if_neg (show ¬ r0 + a = r0 + b by omega)]
    by_cases h : inTri uplo a b
    · rw [if_pos h, if_pos ((inTri_shift hu r0 a b).2 h)]
    · rw [if_neg h, if_neg (mt (inTri_shift hu r0 a b).1 h)]

set_option maxHeartbeats 1000000 in
theorem wp_hetd2Upd {uplo : Uplo} (hu : uplo = .Upper ∨ uplo = .Lower) {A : MatV L} {tau : VecV L} {n r0 r1 j P t0 : Nat}
    (hA : A.Inj) (htau : tau.Inj) (hd : A.DisjV tau) (hm : A.m = n) (hn : A.n = n)
    (h01 : r0 ≤ r1) (h1 : r1 ≤ n) (hj : j < n) (hjb : ¬ (r0 ≤ j ∧ j < r1)) (hP0 : r0 ≤ P) (hP1 : P < r1)
    (ht1 : t0 + (r1 - r0) ≤ tau.n) {t : 𝕜} {ν : Store L 𝕜} :
    wp (hetd2Upd (1 / 2) uplo A (A.colv r0 r1 j) (A.sub r0 r1 r0 r1) (tau.sub t0 (t0 + (r1 - r0))) P j t) ν
      (fun _ ν' =>
        (∀ r c, r0 ≤ r → r < r1 → r0 ≤ c → c < r1 → inTri uplo r c → entry ν' A r c =
          applyR n t (colU P r0 r1 j (entry ν A)) (applyL n (star t) (colU P r0 r1 j (entry ν A))
            (hermF uplo (entry ν A))) r c) ∧
        (∀ r c, r < n → c < n → ¬ ((r0 ≤ r ∧ r < r1) ∧ (r0 ≤ c ∧ c < r1) ∧ inTri uplo r c) →
          entry ν' A r c = entry ν A r c) ∧
        ∀ l, ¬ A.Owns l → ¬ (tau.sub t0 (t0 + (r1 - r0))).Owns l → ν' l = ν l) := by
  obtain ⟨q, hq⟩ : ∃ q, q = r1 - r0 := ⟨_, rfl⟩
  obtain ⟨u, hudef⟩ : ∃ u, u = colU P r0 r1 j (entry ν A) := ⟨_, rfl⟩
  obtain ⟨F, hFdef⟩ : ∃ F, F = hermF uplo (entry ν A) := ⟨_, rfl⟩
  rw [← hudef, ← hFdef]
  have hFs : ∀ i j, star (F i j) = F j i := by
    intro i j; rw [hFdef, hermF_starC hu]
  have hu0 : ∀ r, ¬ (r0 ≤ r ∧ r < r1) → u r = 0 := by
    intro r hr
    rw [hudef]; unfold colU; rw [if_neg (by rintro rfl; exact hr ⟨hP0, hP1⟩), if_neg hr]
  unfold hetd2Upd
  simp only [wp_bind]
  refine wp_getE ⟨by omega, by omega⟩ ?_
  refine wp_setE ⟨by omega, by omega⟩ ?_
  obtain ⟨ν1, hν1⟩ : ∃ ν1, ν1 = upd ν (A.cell P j) 1 := ⟨_, rfl⟩
  rw [← hν1]
  have e1in : entry ν1 A P j = 1 := by rw [hν1]; exact upd_in
  have e1out : ∀ r c, r < n → c < n → (r ≠ P ∨ c ≠ j) → entry ν1 A r c = entry ν A r c := by
    intro r c hr hc h; rw [hν1]; exact upd_out hA (by omega) (by omega) (by omega) (by omega) h
  have e1fr : ∀ l, ¬ A.Owns l → ν1 l = ν l := by
    intro l hl; rw [hν1]; unfold upd; rw [if_neg]
    rintro rfl; exact hl ⟨P, j, by omega, by omega, rfl⟩
  have ev : ∀ a, a < q → ventry ν1 (A.colv r0 r1 j) a = u (r0 + a) := by
    intro a ha
    show entry ν1 A (r0 + a) j = _
    rw [hudef]; unfold colU
    by_cases e : r0 + a = P
    · rw [e, e1in, if_pos rfl]
    · rw [if_neg e, if_pos (by omega), e1out _ _ (by omega) hj (Or.inl e)]
  have eC : ∀ a b, a < q → b < q → hermF uplo (entry ν1 (A.sub r0 r1 r0 r1)) a b = F (r0 + a) (r0 + b) := by
    intro a b ha hb
    have : hermF uplo (entry ν1 (A.sub r0 r1 r0 r1)) a b =
        hermF uplo (fun i j => entry ν1 A (r0 + i) (r0 + j)) a b := rfl
    rw [this, hermF_shift hu, hFdef]
    unfold hermF
    have hx : ∀ x y, x < q → y < q → entry ν1 A (r0 + x) (r0 + y) = entry ν A (r0 + x) (r0 + y) := by
      intro x y hx hy; exact e1out _ _ (by omega) (by omega) (Or.inr (by omega))
    rw [hx a a ha ha, hx a b ha hb, hx b a hb ha]
  have hCm : (A.sub r0 r1 r0 r1).m = q := by simp [MatV.sub, hq]
  have hCn : (A.sub r0 r1 r0 r1).n = q := by simp [MatV.sub, hq]
  have hvn : (A.colv r0 r1 j).n = q := by simp [MatV.colv, hq]
  have hwn : (tau.sub t0 (t0 + (r1 - r0))).n = q := by simp [VecV.sub, hq]
  have hwinj : (tau.sub t0 (t0 + (r1 - r0))).Inj := htau.sub (by omega)
  have hwA : ∀ r c, r < n → c < n → ¬ (tau.sub t0 (t0 + (r1 - r0))).Owns (A.cell r c) := by
    rintro r c hr hc ⟨a, ha, e⟩
    rw [hwn] at ha
    exact hd r c (by omega) (by omega) ⟨t0 + a, by omega, e⟩
  have hok : HemvOK uplo (A.sub r0 r1 r0 r1) (A.colv r0 r1 j) (tau.sub t0 (t0 + (r1 - r0))) q := by
    refine ⟨hu, hCm, hCn, hvn, hwn, hwinj, ?_, ?_⟩
    · intro a b ha hb
      rw [hCm] at ha; rw [hCn] at hb
      exact hwA (r0 + a) (r0 + b) (by omega) (by omega)
    · intro a ha
      rw [hvn] at ha
      exact hwA (r0 + a) j (by omega) hj
  refine wp_conseq (wp_hemv hok) ?_
  intro _ ν2 h2
  -- x
  obtain ⟨x, hxdef⟩ : ∃ x : Nat → 𝕜, x = fun r => t * ∑ s ∈ range n, F r s * u s := ⟨_, rfl⟩
  have hsumF : ∀ r, ∑ s ∈ range n, F r s * u s = ∑ s ∈ range q, F r (r0 + s) * u (r0 + s) := by
    intro r
    rw [hq]
    exact sum_embed h1 _ (fun s _ hs => by rw [hu0 s (by omega), mul_zero])
  have h2' : VState (tau.sub t0 (t0 + (r1 - r0))) ν1 (fun a => x (r0 + a)) ν2 := by
    refine h2.congr (fun a ha => ?_)
    rw [hwn] at ha
    rw [hemvVal_exact star re t _ _ _ hu ha]
    have : ((Coef.strongZero : Coef 𝕜).mulAssign (ventry ν1 (tau.sub t0 (t0 + (r1 - r0))) a)) = 0 := by
      simp [Coef.mulAssign]
    rw [this, add_zero, hxdef]
    simp only []
    rw [hsumF]
    congr 1
    refine Finset.sum_congr rfl fun s hs => ?_
    rw [ev s (mem_range.1 hs), ← eC a s ha (mem_range.1 hs)]
    rfl
  refine wp_conseq (wp_dot (by rw [hvn, hwn])) ?_
  rintro d ν2' ⟨hd2, rfl⟩
  have ev2 : ∀ a, a < q → ventry ν2' (A.colv r0 r1 j) a = u (r0 + a) := by
    intro a ha
    rw [← ev a ha]
    exact h2'.frame _ (hwA (r0 + a) j (by omega) hj)
  have hd3 : d = ∑ s ∈ range n, star (x s) * u s := by
    rw [hd2, foldUp_add (Nat.zero_le _), zero_add, ← Finset.range_eq_Ico, hwn,
      sum_embed (r0 := r0) h1 _ (fun s _ hs => by rw [hu0 s (by omega), mul_zero]), ← hq]
    refine Finset.sum_congr rfl fun s hs => ?_
    rw [ev2 s (mem_range.1 hs)]
    congr 2
    exact h2'.val s (by rw [hwn]; exact mem_range.1 hs)
  refine wp_conseq (wp_axpy hwinj (by rw [hvn, hwn]) ?_ h2') ?_
  · intro a ha
    rw [hvn] at ha
    exact hwA (r0 + a) j (by omega) hj
  intro _ ν3 h3
  have e3A : ∀ r c, r < n → c < n → entry ν3 A r c = entry ν1 A r c := by
    intro r c hr hc; exact h3.frame _ (hwA r c hr hc)
  obtain ⟨w, hwdef⟩ : ∃ w : Nat → 𝕜, w = fun r => x r - (1 / 2) * t * d * u r := ⟨_, rfl⟩
  have ew : ∀ a, a < q → ventry ν3 (tau.sub t0 (t0 + (r1 - r0))) a = w (r0 + a) := by
    intro a ha
    have := h3.val a (by rw [hwn]; exact ha)
    unfold ventry
    rw [this, if_pos (by rw [hvn]; exact ha), ev a ha, hwdef]
    simp only []
    ring
  have ev3 : ∀ a, a < q → ventry ν3 (A.colv r0 r1 j) a = u (r0 + a) := by
    intro a ha
    rw [← ev a ha]
    exact h3.frame _ (hwA (r0 + a) j (by omega) hj)
  refine wp_conseq (wp_her2 hu (hA.sub (by omega) (by omega)) (by rw [hCm, hCn]) (by rw [hvn, hCm]) (by rw [hwn, hCm]) ?_ ?_) ?_
  · rintro a ha ⟨i, k, hi, hk, e⟩
    rw [hvn] at ha; rw [hCm] at hi; rw [hCn] at hk
    have := hA (r0 + a) j (r0 + i) (r0 + k) (by omega) (by omega) (by omega) (by omega) e.symm
    omega
  · rintro a ha ⟨i, k, hi, hk, e⟩
    rw [hwn] at ha; rw [hCm] at hi; rw [hCn] at hk
    exact hwA (r0 + i) (r0 + k) (by omega) (by omega) ⟨a, by rw [hwn]; exact ha, e.symm⟩
  intro _ ν4 h4
  rw [wp_set]
  refine ⟨⟨by omega, by omega⟩, ?_⟩
  have hsubO : ∀ l, ¬ A.Owns l → ¬ (A.sub r0 r1 r0 r1).Owns l := by
    rintro l hl ⟨i, k, hi, hk, e⟩
    rw [hCm] at hi; rw [hCn] at hk
    exact hl ⟨r0 + i, r0 + k, by omega, by omega, e⟩
  have e4out : ∀ r c, r < n → c < n → ¬ ((r0 ≤ r ∧ r < r1) ∧ (r0 ≤ c ∧ c < r1)) → entry ν4 A r c = entry ν1 A r c := by
    intro r c hr hc hn'
    rw [← e3A r c hr hc]
    refine h4.frame _ ?_
    rintro ⟨i, k, hi, hk, e⟩
    rw [hCm] at hi; rw [hCn] at hk
    have := hA (r0 + i) (r0 + k) r c (by omega) (by omega) (by omega) (by omega) e
    omega
  have e4in : ∀ a b, a < q → b < q → entry ν4 A (r0 + a) (r0 + b) = _ := fun a b ha hb =>
    h4.val a b (by rw [hCm]; exact ha) (by rw [hCn]; exact hb)
  have eC3 : ∀ a b, a < q → b < q → entry ν3 (A.sub r0 r1 r0 r1) a b = entry ν A (r0 + a) (r0 + b) := by
    intro a b ha hb
    show entry ν3 A (r0 + a) (r0 + b) = _
    rw [e3A _ _ (by omega) (by omega)]
    exact e1out _ _ (by omega) (by omega) (Or.inr (by omega))
  have hjP : ∀ r c, r0 ≤ c → c < r1 → (r ≠ P ∨ c ≠ j) := by
    intro r c h h'; right; rintro rfl; exact hjb ⟨h, h'⟩
  have fin : ∀ r c, r < n → c < n → (r ≠ P ∨ c ≠ j) →
      entry (upd ν4 (A.cell P j) (ν (A.cell P j))) A r c = entry ν4 A r c := by
    intro r c hr hc h
    exact upd_out hA (by omega) (by omega) (by omega) (by omega) h
  refine ⟨?_, ?_, ?_⟩
  · intro r c hr0 hr1 hc0 hc1 ht
    rw [fin r c (by omega) (by omega) (hjP r c hc0 hc1)]
    rw [her2_alg hFs t u x d (fun r _ => by rw [hxdef]) hd3 (by omega) (by omega)]
    obtain ⟨a, rfl⟩ : ∃ a, r = r0 + a := ⟨r - r0, by omega⟩
    obtain ⟨b, rfl⟩ : ∃ b, c = r0 + b := ⟨c - r0, by omega⟩
    rw [e4in a b (by omega) (by omega)]
    have key : F (r0 + a) (r0 + b) - u (r0 + a) * star (x (r0 + b) - (1 / 2) * t * d * u (r0 + b)) -
        (x (r0 + a) - (1 / 2) * t * d * u (r0 + a)) * star (u (r0 + b)) =
        F (r0 + a) (r0 + b) - u (r0 + a) * star (w (r0 + b)) - w (r0 + a) * star (u (r0 + b)) := by
      rw [hwdef]
    rw [key]
    by_cases e : a = b
    · subst e
      rw [if_pos rfl, eC3 a a (by omega) (by omega), ev3 a (by omega), ew a (by omega)]
      have hFd : F (r0 + a) (r0 + a) = re (entry ν A (r0 + a) (r0 + a)) := by
        rw [hFdef]; unfold hermF; rw [if_pos rfl]
      rw [hFd]
      have hdiag : ∀ z xj yj : 𝕜, her2Diag (-1) z xj yj = re z + (-1) * (xj * star yj) + star (-1) * (yj * star xj) := by
        intro a xj yj
        have e1 := ExactScalar.re_mul xj (-1 * star yj)
        have e2 := ExactScalar.re_mul yj (star (-1 * xj))
        have e3 : yj * star (-1 * xj) = star (xj * (-1 * star yj)) := by simp; ring
        have e4 := ExactScalar.add_star (xj * (-1 * star yj))
        have e5 : re (yj * star (-1 * xj)) = re (xj * (-1 * star yj)) := by rw [e3, ExactScalar.re_star]
        unfold her2Diag
        have e6 : re a + re xj * re (-1 * star yj) - im xj * im (-1 * star yj) +
            re yj * re (star (-1 * xj)) - im yj * im (star (-1 * xj)) =
            re a + (re (xj * (-1 * star yj)) + re (yj * star (-1 * xj))) := by
          rw [e1, e2]; ring
        rw [e6, e5, ← e4]
        simp; ring
      rw [hdiag]
      simp only [star_neg, star_one]
      ring
    · rw [if_neg e, if_pos ((inTri_shift hu r0 a b).1 ht), eC3 a b (by omega) (by omega), ev3 a (by omega),
        ev3 b (by omega), ew a (by omega), ew b (by omega)]
      have hFo : F (r0 + a) (r0 + b) = entry ν A (r0 + a) (r0 + b) := by
        rw [hFdef]; unfold hermF; rw [if_neg (by omega), if_pos ht]
      rw [hFo]
      simp only [star_neg, star_one, star_mul']
      ring
  · intro r c hr hc hn'
    by_cases hPj : r = P ∧ c = j
    · rw [hPj.1, hPj.2]
      exact upd_in
    · rw [fin r c hr hc (by omega)]
      by_cases hb : (r0 ≤ r ∧ r < r1) ∧ (r0 ≤ c ∧ c < r1)
      · obtain ⟨a, rfl⟩ : ∃ a, r = r0 + a := ⟨r - r0, by omega⟩
        obtain ⟨b, rfl⟩ : ∃ b, c = r0 + b := ⟨c - r0, by omega⟩
        have ht : ¬ inTri uplo (r0 + a) (r0 + b) := fun h => hn' ⟨hb.1, hb.2, h⟩
        have hab : a ≠ b := by
          rintro rfl
          apply ht
          rcases hu with rfl | rfl <;> simp [inTri]
        rw [e4in a b (by omega) (by omega), if_neg hab, if_neg (mt (inTri_shift hu r0 a b).2 ht),
          eC3 a b (by omega) (by omega)]
      · rw [e4out r c hr hc hb, e1out r c hr hc (by omega)]
  · intro l hl hl'
    have : upd ν4 (A.cell P j) (ν (A.cell P j)) l = ν4 l := by
      unfold upd; rw [if_neg]
      rintro rfl; exact hl ⟨P, j, by omega, by omega, rfl⟩
    rw [this, h4.frame l (hsubO l hl), h3.frame l hl', e1fr l hl]

/-! ### The chain of steps -/

/-- The number of the reflector generated at step `k`. -/
def tix (uplo : Uplo) (n k : Nat) : Nat := if uplo = .Upper then n - 2 - k else k

/-- Entries known to be zero after `k` steps. -/
def tz (uplo : Uplo) (n k r c : Nat) : Prop :=
  if uplo = .Upper then n ≤ c + k ∧ r + 1 < c else c < k ∧ c + 1 < r

instance (uplo : Uplo) (n k r c : Nat) : Decidable (tz uplo n k r c) := by unfold tz; infer_instance

/-- The place of step `k`: block `r0..r1`, column `j`, pivot row `P`. -/
def TPlace (uplo : Uplo) (n k r0 r1 j P : Nat) : Prop :=
  (uplo = .Lower ∧ r0 = k + 1 ∧ r1 = n ∧ j = k ∧ P = k + 1) ∨
  (uplo = .Upper ∧ r0 = 0 ∧ r1 = n - 1 - k ∧ j = n - 1 - k ∧ P = n - 2 - k)

structure TriInv (uplo : Uplo) (n : Nat) (A0 : Nat → Nat → 𝕜) (k : Nat) (G : Nat → Nat → 𝕜) (g : Nat → 𝕜) : Prop where
  prod : mat n n (hermF uplo A0) =
    reflProd n 0 k (fun a => g (tix uplo n a)) (fun a => tridCol uplo n G (tix uplo n a)) *
      mat n n (hermF uplo (maskF (tz uplo n k) G)) *
      (reflProd n 0 k (fun a => g (tix uplo n a)) (fun a => tridCol uplo n G (tix uplo n a))).conjTranspose
  unit : ∀ a, a < k → (mat n n (reflF (g (tix uplo n a)) (tridCol uplo n G (tix uplo n a)))).conjTranspose *
    mat n n (reflF (g (tix uplo n a)) (tridCol uplo n G (tix uplo n a))) = 1
  reale : ∀ a r0 r1 j P, a < k → TPlace uplo n a r0 r1 j P → star (G P j) = G P j
  reald : ∀ a r0 r1 j P, a < k → TPlace uplo n a r0 r1 j P → star (G P P) = G P P
  real0 : star (G (if uplo = .Upper then n - 1 else 0) (if uplo = .Upper then n - 1 else 0)) =
    G (if uplo = .Upper then n - 1 else 0) (if uplo = .Upper then n - 1 else 0)
  other : ∀ r c, r < n → c < n → ¬ inTri uplo r c → G r c = A0 r c

theorem applyLR_congr {n r0 r1 : Nat} {t : 𝕜} {u : Nat → 𝕜} {F F' : Nat → Nat → 𝕜} (h1 : r1 ≤ n)
    (hu : ∀ r, ¬ (r0 ≤ r ∧ r < r1) → u r = 0)
    (h : ∀ r c, r0 ≤ r → r < r1 → r0 ≤ c → c < r1 → F r c = F' r c) {r c : Nat}
    (hr0 : r0 ≤ r) (hr1 : r < r1) (hc0 : r0 ≤ c) (hc1 : c < r1) :
    applyR n t u (applyL n (star t) u F) r c = applyR n t u (applyL n (star t) u F') r c := by
  have hL : ∀ c, r0 ≤ c → c < r1 → applyL n (star t) u F r c = applyL n (star t) u F' r c := by
    intro c h0 h1'
    unfold applyL
    rw [h r c hr0 hr1 h0 h1']
    congr 2
    refine Finset.sum_congr rfl fun s _ => ?_
    by_cases hs : r0 ≤ s ∧ s < r1
    · rw [h s c hs.1 hs.2 h0 h1']
    · rw [hu s hs, star_zero, zero_mul, zero_mul]
  show applyL n (star t) u F r c - _ = applyL n (star t) u F' r c - _
  rw [hL c hc0 hc1]
  congr 3
  refine Finset.sum_congr rfl fun s _ => ?_
  by_cases hs : r0 ≤ s ∧ s < r1
  · rw [hL s hs.1 hs.2]
  · rw [hu s hs, mul_zero, mul_zero]

theorem hermF_congr2 {uplo : Uplo} {G G' : Nat → Nat → 𝕜} {r c : Nat} (h : inTri uplo r c → G r c = G' r c)
    (h' : inTri uplo c r → G c r = G' c r) (hu : uplo = .Upper ∨ uplo = .Lower) :
    hermF uplo G r c = hermF uplo G' r c := by
  have ht : ∀ a, inTri uplo a a := by rcases hu with rfl | rfl <;> simp [inTri]
  have htot : ¬ inTri uplo r c → inTri uplo c r := by
    rcases hu with rfl | rfl <;> simp [inTri] <;> omega
  unfold hermF
  by_cases e : r = c
  · subst e; rw [if_pos rfl, if_pos rfl, h (ht r)]
  · rw [if_neg e, if_neg e]
    by_cases hc : inTri uplo r c
    · rw [if_pos hc, if_pos hc, h hc]
    · rw [if_neg hc, if_neg hc, h' (htot hc)]

theorem tridCol_colU {uplo : Uplo} {n k r0 r1 j P : Nat} (hp : TPlace uplo n k r0 r1 j P) (hk : k + 1 < n)
    (G : Nat → Nat → 𝕜) (r : Nat) (hr : r < n) :
    tridCol uplo n G (tix uplo n k) r = colU P r0 r1 j G r := by
  rcases hp with ⟨rfl, rfl, rfl, hj, rfl⟩ | ⟨rfl, rfl, rfl, rfl, rfl⟩
  · rw [hj]
    unfold tridCol tix
    simp only [reduceCtorEq, if_false]
    unfold reflCol colU
    by_cases e : r = k + 1
    · rw [if_pos e, if_pos e]
    · rw [if_neg e, if_neg e]
      by_cases e2 : k + 1 < r
      · rw [if_pos (by omega), if_pos (by omega)]
      · rw [if_neg (by omega), if_neg (by omega)]
  · unfold tridCol tix
    simp only [if_true]
    unfold colU
    by_cases e : r = n - 2 - k
    · rw [if_pos e, if_pos e]
    · rw [if_neg e, if_neg e]
      by_cases e2 : r < n - 2 - k
      · rw [if_pos e2, if_pos (by omega), show n - 2 - k + 1 = n - 1 - k by omega]
      · rw [if_neg e2, if_neg (by omega)]

set_option maxHeartbeats 1000000 in
theorem TriInv.step {uplo : Uplo} {n k r0 r1 j P : Nat} {A0 G0 G1 G3 : Nat → Nat → 𝕜} {g g' : Nat → 𝕜} {t : 𝕜}
    (hp : TPlace uplo n k r0 r1 j P) (hk : k + 1 < n) (h : TriInv uplo n A0 k G0 g)
    (cs : ColStep n n P r0 r1 j 0 0 t G0 G1)
    (blk : ∀ r c, r0 ≤ r → r < r1 → r0 ≤ c → c < r1 → hermF uplo G3 r c =
      applyR n t (colU P r0 r1 j G1) (applyL n (star t) (colU P r0 r1 j G1) (hermF uplo G1)) r c)
    (same : ∀ r c, r < n → c < n → ¬ ((r0 ≤ r ∧ r < r1) ∧ (r0 ≤ c ∧ c < r1) ∧ inTri uplo r c) → G3 r c = G1 r c)
    (hPP : star (G3 P P) = G3 P P)
    (hg : g' (tix uplo n k) = t) (hgo : ∀ a, a < k → g' (tix uplo n a) = g (tix uplo n a)) :
    TriInv uplo n A0 (k + 1) G3 g' := by
  have hu : uplo = .Upper ∨ uplo = .Lower := by rcases hp with h | h; exacts [Or.inr h.1, Or.inl h.1]
  have hj : j < n := by rcases hp with h | h <;> omega
  have hjb : ¬ (r0 ≤ j ∧ j < r1) := by rcases hp with h | h <;> omega
  have h1n : r1 ≤ n := by rcases hp with h | h <;> omega
  have hPb : r0 ≤ P ∧ P < r1 := by rcases hp with h | h <;> omega
  obtain ⟨u, hudef⟩ : ∃ u, u = colU P r0 r1 j G1 := ⟨_, rfl⟩
  rw [← hudef] at blk
  have hu0 : ∀ r, ¬ (r0 ≤ r ∧ r < r1) → u r = 0 := by
    intro r hr
    rw [hudef]; unfold colU; rw [if_neg (by rintro rfl; exact hr hPb), if_neg hr]
  -- old reflectors
  have hcol : ∀ a, a < k → ∀ r, r < n → tridCol uplo n G3 (tix uplo n a) r = tridCol uplo n G0 (tix uplo n a) r := by
    intro a ha r hr
    have key : ∀ r c, r < n → c < n → c ≠ j → ¬ (r0 ≤ c ∧ c < r1) → G3 r c = G0 r c := by
      intro r c hr hc h1 h2
      rw [same r c hr hc (fun h => h2 h.2.1), cs.same r c hr hc (by omega)]
    rcases hp with ⟨rfl, rfl, rfl, rfl, rfl⟩ | ⟨rfl, rfl, rfl, rfl, rfl⟩
    · unfold tridCol tix reflCol
      simp only [reduceCtorEq, if_false]
      rw [key r a hr (by omega) (by omega) (by omega)]
    · unfold tridCol tix
      simp only [if_true]
      by_cases e : r < n - 2 - a
      · rw [key r (n - 2 - a + 1) hr (by omega) (by omega) (by omega)]
      · rw [if_neg e, if_neg e]
  have hcolk : ∀ r, r < n → tridCol uplo n G3 (tix uplo n k) r = u r := by
    intro r hr
    rw [tridCol_colU hp hk _ _ hr, hudef]
    unfold colU
    rw [same r j hr hj (fun h => hjb h.2.1)]
  have hP : reflProd n 0 k (fun a => g' (tix uplo n a)) (fun a => tridCol uplo n G3 (tix uplo n a)) =
      reflProd n 0 k (fun a => g (tix uplo n a)) (fun a => tridCol uplo n G0 (tix uplo n a)) :=
    reflProd_congr (fun i _ hi => hgo i (by omega)) (fun i _ hi r hr => hcol i (by omega) r hr)
  have hHk : mat n n (reflF (g' (tix uplo n k)) (tridCol uplo n G3 (tix uplo n k))) = mat n n (reflF t u) :=
    refl_congr hg hcolk
  have hHu := cs.unit
  rw [← hudef] at hHu
  -- the step
  have hstep : mat n n (hermF uplo (maskF (tz uplo n (k + 1)) G3)) =
      (mat n n (reflF t u)).conjTranspose * mat n n (hermF uplo (maskF (tz uplo n k) G0)) * mat n n (reflF t u) := by
    refine hermStep hj hjb h1n hu0 (hermF_starC hu _) (hermF_starC hu _) ?_ ?_ ?_ ?_
    · intro r c hr0 hr1 hc0 hc1
      have e1 : hermF uplo (maskF (tz uplo n (k + 1)) G3) r c = hermF uplo G3 r c := by
        refine hermF_congr2 (fun _ => mask_out ?_) (fun _ => mask_out ?_) hu <;>
        · rcases hp with ⟨rfl, rfl, rfl, rfl, rfl⟩ | ⟨rfl, rfl, rfl, rfl, rfl⟩ <;> simp [tz] <;> omega
      rw [e1, blk r c hr0 hr1 hc0 hc1]
      refine applyLR_congr h1n hu0 ?_ hr0 hr1 hc0 hc1
      intro r c hr0 hr1 hc0 hc1
      have hz : ∀ r c, r0 ≤ r → r < r1 → r0 ≤ c → c < r1 → ¬ tz uplo n k r c := by
        intro r c hr0 hr1 hc0 hc1
        rcases hp with ⟨rfl, rfl, rfl, rfl, rfl⟩ | ⟨rfl, rfl, rfl, rfl, rfl⟩ <;> simp [tz] <;> omega
      refine hermF_congr2 (fun _ => ?_) (fun _ => ?_) hu
      · rw [mask_out (hz r c hr0 hr1 hc0 hc1)]
        exact cs.same r c (by omega) (by omega) (by rcases hp with h | h <;> omega)
      · rw [mask_out (hz c r hc0 hc1 hr0 hr1)]
        exact cs.same c r (by omega) (by omega) (by rcases hp with h | h <;> omega)
    · intro r hr0 hr1
      have htr : inTri uplo r j := by
        rcases hp with ⟨rfl, rfl, rfl, rfl, rfl⟩ | ⟨rfl, rfl, rfl, rfl, rfl⟩ <;> simp [inTri] <;> omega
      have hrj : r ≠ j := by rintro rfl; exact hjb ⟨hr0, hr1⟩
      have hF0 : ∀ s, r0 ≤ s → s < r1 → hermF uplo (maskF (tz uplo n k) G0) s j = G0 s j := by
        intro s hs0 hs1
        have hts : inTri uplo s j := by
          rcases hp with ⟨rfl, rfl, rfl, rfl, rfl⟩ | ⟨rfl, rfl, rfl, rfl, rfl⟩ <;> simp [inTri] <;> omega
        unfold hermF
        rw [if_neg (by rintro rfl; exact hjb ⟨hs0, hs1⟩), if_pos hts, mask_out]
        rcases hp with ⟨rfl, rfl, rfl, rfl, rfl⟩ | ⟨rfl, rfl, rfl, rfl, rfl⟩ <;> simp [tz] <;> omega
      have ha := cs.ann r (by omega)
      rw [← hudef] at ha
      have e1 : applyL n (star t) u (hermF uplo (maskF (tz uplo n k) G0)) r j =
          G0 r j - star t * u r * ∑ s ∈ range n, star (u s) * G0 s j := by
        unfold applyL
        rw [hF0 r hr0 hr1]
        congr 2
        refine Finset.sum_congr rfl fun s _ => ?_
        by_cases hs : r0 ≤ s ∧ s < r1
        · rw [hF0 s hs.1 hs.2]
        · rw [hu0 s hs, star_zero, zero_mul, zero_mul]
      rw [e1, ha]
      unfold hermF
      rw [if_neg hrj, if_pos htr]
      by_cases e : r = P
      · rw [if_pos e, e, mask_out]
        · exact same P j (by omega) hj (fun h => hjb h.2.1)
        · rcases hp with ⟨rfl, rfl, rfl, rfl, rfl⟩ | ⟨rfl, rfl, rfl, rfl, rfl⟩ <;> simp [tz] <;> omega
      · rw [if_neg e, if_pos ⟨hr0, hr1⟩, mask_in]
        rcases hp with ⟨rfl, rfl, rfl, rfl, rfl⟩ | ⟨rfl, rfl, rfl, rfl, rfl⟩ <;> simp [tz] <;> omega
    · intro r c hr0 hr1 hc hcb hcj
      have htr : inTri uplo r c := by
        rcases hp with ⟨rfl, rfl, rfl, rfl, rfl⟩ | ⟨rfl, rfl, rfl, rfl, rfl⟩ <;> simp [inTri] <;> omega
      have hrc : r ≠ c := by rintro rfl; exact hcb ⟨hr0, hr1⟩
      unfold hermF
      rw [if_neg hrc, if_pos htr, if_neg hrc, if_pos htr]
      constructor
      · rw [mask_in]
        rcases hp with ⟨rfl, rfl, rfl, rfl, rfl⟩ | ⟨rfl, rfl, rfl, rfl, rfl⟩ <;> simp [tz] <;> omega
      · rw [mask_in]
        rcases hp with ⟨rfl, rfl, rfl, rfl, rfl⟩ | ⟨rfl, rfl, rfl, rfl, rfl⟩ <;> simp [tz] <;> omega
    · intro r c hr hc hrb hcb
      have key : ∀ r c, r < n → c < n → ¬ (r0 ≤ r ∧ r < r1) → ¬ (r0 ≤ c ∧ c < r1) →
          maskF (tz uplo n (k + 1)) G3 r c = maskF (tz uplo n k) G0 r c := by
        intro r c hr hc hrb hcb
        have e : G3 r c = G0 r c := by
          rw [same r c hr hc (fun h => hrb h.1), cs.same r c hr hc (fun h => hrb h.1)]
        unfold maskF
        rw [e]
        have : tz uplo n (k + 1) r c ↔ tz uplo n k r c := by
          rcases hp with ⟨rfl, rfl, rfl, rfl, rfl⟩ | ⟨rfl, rfl, rfl, rfl, rfl⟩ <;> simp [tz] <;> omega
        by_cases hz : tz uplo n k r c
        · rw [if_pos hz, if_pos (this.2 hz)]
        · rw [if_neg hz, if_neg (mt this.1 hz)]
      exact hermF_congr2 (fun _ => key r c hr hc hrb hcb) (fun _ => key c r hc hr hcb hrb) hu
  refine ⟨?_, ?_, ?_, ?_, ?_, ?_⟩
  · rw [reflProd_succ, hP, Nat.zero_add, hHk, hstep, h.prod]
    rw [Matrix.conjTranspose_mul]
    have h1 := refl_unitary' hHu
    generalize mat n n (reflF t u) = H at h1 ⊢
    generalize reflProd n 0 k (fun a => g (tix uplo n a)) (fun a => tridCol uplo n G0 (tix uplo n a)) = Pm
    generalize mat n n (hermF uplo (maskF (tz uplo n k) G0)) = F
    calc Pm * F * Pm.conjTranspose = Pm * (1 * F * 1) * Pm.conjTranspose := by rw [Matrix.one_mul, Matrix.mul_one]
      _ = _ := by rw [← h1]; simp only [Matrix.mul_assoc]
  · intro a ha
    by_cases e : a = k
    · subst e; rw [hHk]; exact refl_unitary hHu
    · have hh := h.unit a (by omega)
      have : mat n n (reflF (g' (tix uplo n a)) (tridCol uplo n G3 (tix uplo n a))) =
          mat n n (reflF (g (tix uplo n a)) (tridCol uplo n G0 (tix uplo n a))) :=
        refl_congr (hgo a (by omega)) (hcol a (by omega))
      rw [this]; exact hh
  · intro a r0' r1' j' P' ha hp'
    by_cases e : a = k
    · subst e
      have : P' = P ∧ j' = j := by
        rcases hp with h | h <;> rcases hp' with h' | h' <;> first | omega | (rw [h.1] at h'; simp at h')
      rw [this.1, this.2, same P j (by omega) hj (fun h => hjb h.2.1)]
      exact cs.real
    · have e1 : G3 P' j' = G0 P' j' := by
        have hb : P' < n ∧ j' < n ∧ ¬ (r0 ≤ j' ∧ j' < r1) ∧ j' ≠ j := by
          rcases hp with h | h <;> rcases hp' with h' | h' <;> first | omega | (rw [h.1] at h'; simp at h')
        rw [same P' j' hb.1 hb.2.1 (fun h => hb.2.2.1 h.2.1), cs.same P' j' hb.1 hb.2.1 (by omega)]
      rw [e1]; exact h.reale a _ _ _ _ (by omega) hp'
  · intro a r0' r1' j' P' ha hp'
    by_cases e : a = k
    · subst e
      have : P' = P := by
        rcases hp with h | h <;> rcases hp' with h' | h' <;> first | omega | (rw [h.1] at h'; simp at h')
      rw [this]
      exact hPP
    · have e1 : G3 P' P' = G0 P' P' := by
        have hb : P' < n ∧ ¬ (r0 ≤ P' ∧ P' < r1) := by
          rcases hp with h | h <;> rcases hp' with h' | h' <;> first | omega | (rw [h.1] at h'; simp at h')
        rw [same P' P' hb.1 hb.1 (fun h => hb.2 h.1), cs.same P' P' hb.1 hb.1 (fun h => hb.2 h.1)]
      rw [e1]; exact h.reald a _ _ _ _ (by omega) hp'
  · obtain ⟨d, hd⟩ : ∃ d, d = if uplo = .Upper then n - 1 else 0 := ⟨_, rfl⟩
    have h0 := h.real0
    rw [← hd] at h0 ⊢
    have hb : d < n ∧ ¬ (r0 ≤ d ∧ d < r1) := by
      rw [hd]
      rcases hp with ⟨rfl, rfl, rfl, rfl, rfl⟩ | ⟨rfl, rfl, rfl, rfl, rfl⟩ <;> simp <;> omega
    rw [same d d hb.1 hb.1 (fun h => hb.2 h.1), cs.same d d hb.1 hb.1 (fun h => hb.2 h.1)]
    exact h0
  · intro r c hr hc hn
    rw [same r c hr hc (fun h => hn h.2.2), cs.same r c hr hc, h.other r c hr hc hn]
    rintro ⟨hrb, rfl | hc'⟩
    · apply hn
      rcases hp with ⟨rfl, rfl, rfl, rfl, rfl⟩ | ⟨rfl, rfl, rfl, rfl, rfl⟩ <;> simp [inTri] <;> omega
    · omega

/-! ### The routine -/

structure TriState (uplo : Uplo) (A : MatV L) (tau : VecV L) (n : Nat) (μ : Store L 𝕜) (k : Nat) (ν : Store L 𝕜) : Prop where
  inv : TriInv uplo n (entry μ A) k (entry ν A) (ventry ν tau)
  frame : ∀ l, ¬ A.Owns l → ¬ (tau.sub 0 (n - 1)).Owns l → ν l = μ l

theorem TriInv.bound {uplo : Uplo} {n k : Nat} {A0 G : Nat → Nat → 𝕜} {g : Nat → 𝕜} (h : TriInv uplo n A0 k G g)
    {b : ℝ} (hb0 : 0 ≤ b) (hb : frobSq n n (hermF uplo A0) ≤ b ^ 2) {r c : Nat} (hr : r < n) (hc : c < n) :
    ‖hermF uplo (maskF (tz uplo n k) G) r c‖ ≤ b := by
  have hun := reflProd_unitary (q := n) (lo := 0) (k := k) (t := fun a => g (tix uplo n a))
    (u := fun a => tridCol uplo n G (tix uplo n a)) (fun i _ hi => h.unit i (by omega))
  refine frobSq_bound hb0 (le_trans (le_of_eq ?_) hb) hr hc
  exact (frobSq_unitary hun (by rw [Matrix.conjTranspose_conjTranspose]; exact hun) h.prod).symm

set_option maxHeartbeats 1000000 in
theorem wp_hetd2Gen (hl : HhLaws 𝕜 p) {uplo : Uplo} {dir : Direction} {A : MatV L} {tau : VecV L} {n k r0 r1 j P t0 i : Nat}
    (hA : A.Inj) (htau : tau.Inj) (hd : A.DisjV tau) (hm : A.m = n) (hn : A.n = n) (hp : TPlace uplo n k r0 r1 j P)
    (hk : k + 1 < n) (htn : n - 1 ≤ tau.n) (hi : i = tix uplo n k)
    (hdir : P = r0 + pidx dir (r1 - r0)) (ht0 : t0 = if uplo = .Upper then 0 else k)
    {μ ν : Store L 𝕜} (hb : frobSq n n (hermF uplo (entry μ A)) ≤ p.tbig ^ 2)
    (h : TriState uplo A tau n μ k ν) :
    wp (do
      let taui ← larfgV (hhOps p) dir .Columnwise (A.colv r0 r1 j)
      (if taui ≠ 0 then
        hetd2Upd (1 / 2) uplo A (A.colv r0 r1 j) (A.sub r0 r1 r0 r1) (tau.sub t0 (t0 + (r1 - r0))) P j taui
      else A.modify P P re : M L 𝕜 Unit)
      tau.set i taui) ν (fun _ ν' => TriState uplo A tau n μ (k + 1) ν') := by
  have hu : uplo = .Upper ∨ uplo = .Lower := by rcases hp with h | h; exacts [Or.inr h.1, Or.inl h.1]
  have hj : j < n := by rcases hp with h | h <;> omega
  have hjb : ¬ (r0 ≤ j ∧ j < r1) := by rcases hp with h | h <;> omega
  have h1n : r1 ≤ n := by rcases hp with h | h <;> omega
  have hPb : r0 ≤ P ∧ P < r1 := by rcases hp with h | h <;> omega
  have htt : t0 + (r1 - r0) ≤ n - 1 ∧ (i < n - 1) ∧ ∀ a, a < k →
      tix uplo n a ≠ i ∧ tix uplo n a < n - 1 ∧ ¬ (t0 ≤ tix uplo n a ∧ tix uplo n a < t0 + (r1 - r0)) := by
    rw [hi, ht0]
    rcases hp with ⟨rfl, rfl, rfl, rfl, rfl⟩ | ⟨rfl, rfl, rfl, rfl, rfl⟩
    · simp only [tix, reduceCtorEq, if_false]
      exact ⟨by omega, by omega, fun a ha => by omega⟩
    · simp only [tix, if_true]
      exact ⟨by omega, by omega, fun a ha => by omega⟩
  have htb := hl.tbig_one
  simp only [wp_bind]
  refine wp_conseq (wp_genCol hl hA (P := P) (r0 := r0) (r1 := r1) (c := j) (by omega) (by omega) (by omega) hdir ?_) ?_
  · intro r hr0 hr1
    show ‖entry ν A r j‖ ≤ _
    have := h.inv.bound (b := p.tbig) (by linarith) hb (r := r) (c := j) (by omega) hj
    have htr : inTri uplo r j := by
      rcases hp with ⟨rfl, rfl, rfl, rfl, rfl⟩ | ⟨rfl, rfl, rfl, rfl, rfl⟩ <;> simp [inTri] <;> omega
    unfold hermF at this
    rw [if_neg (by rintro rfl; exact hjb ⟨hr0, hr1⟩), if_pos htr, mask_out] at this
    · exact this
    · rcases hp with ⟨rfl, rfl, rfl, rfl, rfl⟩ | ⟨rfl, rfl, rfl, rfl, rfl⟩ <;> simp [tz] <;> omega
  rintro t ν1 ⟨ho, cs⟩
  rw [hm, hn] at cs
  have lg : ∀ ν : Store L 𝕜, LG .Columnwise ν A = entry ν A := fun _ => rfl
  rw [lg, lg] at cs
  have hcolA : ∀ l, ¬ A.Owns l → ¬ (A.colv r0 r1 j).Owns l := by
    rintro l hl ⟨a, ha, e⟩
    simp only [MatV.colv] at ha e
    exact hl ⟨r0 + a, j, by omega, by omega, e⟩
  have hA1 : ∀ l, ¬ A.Owns l → ν1 l = ν l := fun l hl => ho l (hcolA l hl)
  have htA : ∀ a, a < tau.n → ¬ A.Owns (tau.cell a) := by
    rintro a ha ⟨r, c, hr, hc, e⟩
    exact hd r c hr hc ⟨a, ha, e.symm⟩
  -- after the update
  have fin : ∀ ν3 : Store L 𝕜,
      (∀ r c, r0 ≤ r → r < r1 → r0 ≤ c → c < r1 → hermF uplo (entry ν3 A) r c =
        applyR n t (colU P r0 r1 j (entry ν1 A)) (applyL n (star t) (colU P r0 r1 j (entry ν1 A))
          (hermF uplo (entry ν1 A))) r c) →
      (∀ r c, r < n → c < n → ¬ ((r0 ≤ r ∧ r < r1) ∧ (r0 ≤ c ∧ c < r1) ∧ inTri uplo r c) →
        entry ν3 A r c = entry ν1 A r c) →
      star (entry ν3 A P P) = entry ν3 A P P →
      (∀ l, ¬ A.Owns l → ¬ (tau.sub t0 (t0 + (r1 - r0))).Owns l → ν3 l = ν1 l) →
      wp (tau.set i t) ν3 (fun _ ν' => TriState uplo A tau n μ (k + 1) ν') := by
    intro ν3 hblk hsame hPP hfr
    rw [wp_vset]
    refine ⟨by omega, ?_⟩
    have eA : entry (upd ν3 (tau.cell i) t) A = fun r c => entry (upd ν3 (tau.cell i) t) A r c := rfl
    have eA' : ∀ r c, r < n → c < n → entry (upd ν3 (tau.cell i) t) A r c = entry ν3 A r c := by
      intro r c hr hc
      unfold entry upd
      rw [if_neg]
      intro e
      exact htA i (by omega) ⟨r, c, by omega, by omega, e⟩
    constructor
    · refine TriInv.step hp hk h.inv cs ?_ ?_ ?_ (t := t) ?_ ?_
      · intro r c hr0 hr1 hc0 hc1
        rw [← hblk r c hr0 hr1 hc0 hc1]
        exact hermF_congr2 (fun _ => eA' r c (by omega) (by omega)) (fun _ => eA' c r (by omega) (by omega)) hu
      · intro r c hr hc hnn
        rw [eA' r c hr hc, hsame r c hr hc hnn]
      · rw [eA' P P (by omega) (by omega)]; exact hPP
      · rw [← hi]; unfold ventry upd; simp
      · intro a ha
        have ha' := htt.2.2 a ha
        have e1 : ventry (upd ν3 (tau.cell i) t) tau (tix uplo n a) = ν3 (tau.cell (tix uplo n a)) := by
          unfold ventry upd
          rw [if_neg]
          intro e
          exact ha'.1 (htau _ _ (by omega) (by omega) e)
        rw [e1, hfr _ (htA _ (by omega)), hA1 _ (htA _ (by omega))]
        · rfl
        · rintro ⟨b, hb', e⟩
          simp only [VecV.sub] at hb' e
          have := htau _ _ (by omega) (by omega) e
          omega
    · intro l hlA hlt
      have e1 : upd ν3 (tau.cell i) t l = ν3 l := by
        unfold upd; rw [if_neg]
        rintro rfl
        exact hlt ⟨i, by simp only [VecV.sub]; omega, by simp [VecV.sub]⟩
      rw [e1, hfr l hlA, hA1 l hlA]
      · exact h.frame l hlA hlt
      · rintro ⟨b, hb', e⟩
        simp only [VecV.sub] at hb' e
        exact hlt ⟨t0 + b, by simp only [VecV.sub]; omega, by simp only [VecV.sub]; rw [← e]; congr 1; omega⟩
  by_cases ht : t = 0
  · rw [if_neg (by simpa using ht)]
    refine wp_modifyE ⟨by omega, by omega⟩ ?_
    refine fin _ ?_ ?_ ?_ ?_
    · intro r c hr0 hr1 hc0 hc1
      have e1 : applyR n t (colU P r0 r1 j (entry ν1 A)) (applyL n (star t) (colU P r0 r1 j (entry ν1 A))
          (hermF uplo (entry ν1 A))) r c = hermF uplo (entry ν1 A) r c := by
        unfold applyR applyL
        rw [ht]; simp
      rw [e1]
      by_cases e : r = P ∧ c = P
      · rw [e.1, e.2]
        unfold hermF
        rw [if_pos rfl, if_pos rfl, upd_in]
        exact ExactScalar.re_of_star _ (ExactScalar.star_re _)
      · refine hermF_congr2 (fun _ => ?_) (fun _ => ?_) hu <;>
        exact upd_out hA (by omega) (by omega) (by omega) (by omega) (by omega)
    · intro r c hr hc hnn
      refine upd_out hA (by omega) (by omega) (by omega) (by omega) ?_
      by_contra hcon
      have : r = P ∧ c = P := by omega
      apply hnn
      rw [this.1, this.2]
      refine ⟨hPb, hPb, ?_⟩
      rcases hu with rfl | rfl <;> simp [inTri]
    · rw [upd_in]; exact ExactScalar.star_re _
    · intro l hlA _
      unfold upd; rw [if_neg]
      rintro rfl; exact hlA ⟨P, P, by omega, by omega, rfl⟩
  · rw [if_pos ht]
    refine wp_conseq (wp_hetd2Upd hu hA htau hd hm hn (by omega) h1n hj hjb hPb.1 hPb.2 (by omega)) ?_
    rintro _ ν3 ⟨h1, h2, h3⟩
    obtain ⟨X, hX⟩ : ∃ X, X = applyR n t (colU P r0 r1 j (entry ν1 A)) (applyL n (star t)
      (colU P r0 r1 j (entry ν1 A)) (hermF uplo (entry ν1 A))) := ⟨_, rfl⟩
    have hXs : ∀ r c, r < n → c < n → star (X r c) = X c r := by
      intro r c hr hc
      have hF : ∀ i j, star (hermF uplo (entry ν1 A) i j) = hermF uplo (entry ν1 A) j i := hermF_starC hu _
      have e : (mat n n X).conjTranspose = mat n n X := by
        rw [hX, mat_applyR, mat_applyL, ← refl_conjTranspose]
        simp only [Matrix.conjTranspose_mul, Matrix.conjTranspose_conjTranspose]
        have : (mat n n (hermF uplo (entry ν1 A))).conjTranspose = mat n n (hermF uplo (entry ν1 A)) := by
          rw [mat_conjTranspose, mat_ext_iff]
          intro i j _ _
          exact hF j i
        rw [this]
        simp only [Matrix.mul_assoc]
      rw [mat_conjTranspose, mat_ext_iff] at e
      exact e c r hc hr
    rw [← hX] at h1
    refine fin ν3 ?_ h2 ?_ h3
    · intro r c hr0 hr1 hc0 hc1
      rw [← hX]
      unfold hermF
      by_cases e : r = c
      · subst e
        rw [if_pos rfl, h1 r r hr0 hr1 hr0 hr1 (by rcases hu with rfl | rfl <;> simp [inTri])]
        exact ExactScalar.re_of_star _ (hXs r r (by omega) (by omega))
      · rw [if_neg e]
        by_cases ht : inTri uplo r c
        · rw [if_pos ht, h1 r c hr0 hr1 hc0 hc1 ht]
        · have ht' : inTri uplo c r := by
            rcases hu with rfl | rfl <;> simp [inTri] at ht ⊢ <;> omega
          rw [if_neg ht, h1 c r hc0 hc1 hr0 hr1 ht', hXs c r (by omega) (by omega)]
    · rw [h1 P P hPb.1 hPb.2 hPb.1 hPb.2 (by rcases hu with rfl | rfl <;> simp [inTri])]
      exact hXs P P (by omega) (by omega)

theorem TriInv.start {uplo : Uplo} (hu : uplo = .Upper ∨ uplo = .Lower) {n d : Nat} {A0 G : Nat → Nat → 𝕜} {g : Nat → 𝕜}
    (hn : 0 < n) (hd : d = if uplo = .Upper then n - 1 else 0) (hG : ∀ r c, r < n → c < n → G r c = if r = d ∧ c = d then re (A0 d d) else A0 r c) :
    TriInv uplo n A0 0 G g := by
  have hz : ∀ r c, r < n → c < n → ¬ tz uplo n 0 r c := by
    intro r c hr hc
    unfold tz; split <;> omega
  have hdn : d < n := by rw [hd]; split <;> omega
  refine ⟨?_, fun a ha => by omega, fun a _ _ _ _ ha => by omega, fun a _ _ _ _ ha => by omega, ?_, ?_⟩
  · simp only [reflProd, List.range_zero, List.map_nil, List.prod_nil, Matrix.conjTranspose_one, Matrix.one_mul, Matrix.mul_one]
    rw [mat_ext_iff]
    intro r c hr hc
    have key : ∀ r c, r < n → c < n → maskF (tz uplo n 0) G r c = if r = d ∧ c = d then re (A0 d d) else A0 r c := by
      intro r c hr hc
      rw [mask_out (hz r c hr hc), hG r c hr hc]
    by_cases e : r = d ∧ c = d
    · unfold hermF
      rw [e.1, e.2, if_pos rfl, if_pos rfl, key d d hdn hdn, if_pos ⟨rfl, rfl⟩]
      exact (ExactScalar.re_of_star _ (ExactScalar.star_re _)).symm
    · refine (hermF_congr2 (fun _ => ?_) (fun _ => ?_) hu).symm
      · rw [key r c hr hc, if_neg e]
      · rw [key c r hc hr, if_neg (by omega)]
  · rw [← hd, hG d d hdn hdn, if_pos ⟨rfl, rfl⟩]
    exact ExactScalar.star_re _
  · intro r c hr hc hnt
    rw [hG r c hr hc, if_neg]
    rintro ⟨rfl, rfl⟩
    apply hnt
    rcases hu with rfl | rfl <;> simp [inTri]

set_option maxHeartbeats 1000000 in
theorem wp_hetd2 (hl : HhLaws 𝕜 p) {uplo : Uplo} (hu : uplo = .Upper ∨ uplo = .Lower) {A : MatV L} {tau : VecV L} {n : Nat}
    (hA : A.Inj) (htau : tau.Inj) (hd : A.DisjV tau) (hm : A.m = n) (hn : A.n = n) (hn0 : 0 < n) (htn : n - 1 ≤ tau.n)
    {μ : Store L 𝕜} (hb : frobSq n n (hermF uplo (entry μ A)) ≤ p.tbig ^ 2) :
    wp (hetd2 (hhOps p) (1 / 2) uplo A tau) μ (fun r ν => r = 0 ∧ TriState uplo A tau n μ (n - 1) ν) := by
  have hst : ∀ d, (d = if uplo = .Upper then n - 1 else 0) →
      TriState uplo A tau n μ 0 (upd μ (A.cell d d) (re (μ (A.cell d d)))) := by
    intro d hdd
    have hdn : d < n := by rw [hdd]; split <;> omega
    refine ⟨TriInv.start hu hn0 hdd ?_, ?_⟩
    · intro r c hr hc
      by_cases e : r = d ∧ c = d
      · rw [if_pos e, e.1, e.2, upd_in]; rfl
      · rw [if_neg e]
        exact upd_out hA (by omega) (by omega) (by omega) (by omega) (by omega)
    · intro l hlA _
      unfold upd; rw [if_neg]
      rintro rfl; exact hlA ⟨d, d, by omega, by omega, rfl⟩
  unfold hetd2
  simp only [wp_bind, wp_check]
  rw [if_pos (by rcases hu with rfl | rfl <;> rfl), if_pos (by simp [hm, hn]), if_pos (by simp [hn]; omega)]
  rcases hu with rfl | rfl
  · rw [if_pos rfl]
    simp only [wp_bind]
    rw [hn]
    refine wp_modifyE ⟨by omega, by omega⟩ ?_
    refine wp_forDown_ (fun s ν => TriState .Upper A tau n μ (n - 1 - s) ν) (by omega) ?_ ?_ ?_
    · rw [Nat.sub_self]; exact hst (n - 1) (by simp)
    · intro i ν h0 hi hν
      unfold hetd2StepU
      simp only [wp_bind]
      refine wp_sliceCol (by omega) (by omega) (by omega) ?_
      have hp : TPlace .Upper n (n - 2 - i) 0 (i + 1) (i + 1) i := Or.inr ⟨rfl, rfl, by omega, by omega, by omega⟩
      have := wp_hetd2Gen hl (dir := .Backward) hA htau hd hm hn hp (by omega) htn (i := i) (by simp [tix]; omega)
        (by simp [pidx]) (by simp; rfl) hb (by rw [show n - 2 - i = n - 1 - (i + 1) by omega]; exact hν)
      rw [show n - 2 - i + 1 = n - 1 - i by omega] at this
      simp only [wp_bind] at this
      refine wp_conseq this ?_
      intro t ν1 h1
      by_cases ht : t = 0
      · rw [if_neg (by simpa using ht)] at h1 ⊢
        exact h1
      · rw [if_pos ht] at h1 ⊢
        simp only [wp_bind]
        refine wp_slice (by omega) (by omega) (by omega) (by omega) ?_
        refine wp_vslice (by omega) (by omega) ?_
        simpa using h1
    · intro ν hν
      rw [wp_pure]
      exact ⟨rfl, hν⟩
  · rw [if_neg (by simp)]
    simp only [wp_bind]
    refine wp_modifyE ⟨by omega, by omega⟩ ?_
    refine wp_forUp_ (fun s ν => TriState .Lower A tau n μ s ν) (by omega) ?_ ?_ ?_
    · exact hst 0 (by simp)
    · intro i ν h0 hi hν
      unfold hetd2StepL
      simp only [wp_bind]
      rw [hn] at hi ⊢
      refine wp_sliceCol (by omega) (by omega) (by omega) ?_
      have hp : TPlace .Lower n i (i + 1) n i (i + 1) := Or.inl ⟨rfl, rfl, rfl, rfl, rfl⟩
      have := wp_hetd2Gen hl (dir := .Forward) hA htau hd hm hn hp (by omega) htn (i := i) (by simp [tix])
        (by simp [pidx]) (by simp; rfl) hb hν
      simp only [wp_bind] at this
      rw [show i + (n - (i + 1)) = n - 1 by omega] at this
      refine wp_conseq this ?_
      intro t ν1 h1
      by_cases ht : t = 0
      · rw [if_neg (by simpa using ht)] at h1 ⊢
        exact h1
      · rw [if_pos ht] at h1 ⊢
        simp only [wp_bind]
        refine wp_slice (by omega) (by omega) (by omega) (by omega) ?_
        refine wp_vslice (by omega) (by omega) ?_
        exact h1
    · intro ν hν
      rw [wp_pure]
      rw [hn] at hν
      exact ⟨rfl, hν⟩

end TLA
