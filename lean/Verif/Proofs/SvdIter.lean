import Verif.Proofs.SvdLoop
set_option linter.unusedTactic false
set_option linter.unusedVariables false
set_option linter.unusedSimpArgs false
set_option linter.unreachableTactic false
set_option linter.unusedSectionVars false

/-! # svd_qr: one iteration and the main loop -/

namespace TLA
open Finset Matrix Kernel
variable {L 𝕜 : Type} [DecidableEq L] [RCLike 𝕜] [DecidableEq 𝕜]

/-- Scale factors left behind by 2 by 2 blocks that were finished. -/
structure DOk {n : Nat} (eps : ℝ) (m : Nat) (δ : Fin n → ℝ) : Prop where
  one : ∀ i : Fin n, (i : Nat) < m → δ i = 1
  pos : ∀ i, 0 < δ i
  near : ∀ i, |δ i ^ 2 - 1| ≤ 2 * eps ^ 2

variable {n : Nat} {eps : ℝ}

theorem DOk.start (m : Nat) : DOk eps m (fun _ : Fin n => (1 : ℝ)) :=
  ⟨fun _ _ => rfl, fun _ => one_pos, fun _ => by simp; positivity⟩

theorem DOk.less {m m' : Nat} {δ : Fin n → ℝ} (h : DOk eps m δ) (hm : m' ≤ m) : DOk eps m' δ :=
  ⟨fun i hi => h.one i (by omega), h.pos, h.near⟩

theorem DOk.two {k : Nat} {δ : Fin n → ℝ} (h : DOk eps (k + 2) δ) {ρ : ℝ} (h0 : 0 < ρ) (h1 : |ρ * ρ - 1| ≤ 2 * eps ^ 2) :
    DOk eps k (fun i => δ i * if (i : Nat) = k ∨ (i : Nat) = k + 1 then ρ else 1) := by
  refine ⟨fun i hi => ?_, fun i => ?_, fun i => ?_⟩
  · rw [h.one i (by omega), if_neg (by omega), mul_one]
  · have := h.pos i
    split_ifs <;> positivity
  · by_cases q : (i : Nat) = k ∨ (i : Nat) = k + 1
    · rw [if_pos q, h.one i (by omega), one_mul, pow_two]; exact h1
    · rw [if_neg q, mul_one]; exact h.near i

/-- Bound for one neglected entry. -/
noncomputable def svTau (n : Nat) (p : RotPar) (B0 : Matrix (Fin n) (Fin n) ℝ) : ℝ := max (n * p.safmin) (svTol p.ulp * frobN B0)

structure LSv (n : Nat) (p : RotPar) (wu wv : Bool) (U V : MatV L) (μ : Store L 𝕜) (B0 : Matrix (Fin n) (Fin n) ℝ) (x : StqSt)
    (ν : Store L 𝕜) : Prop where
  dn : x.d.n = n
  en : n ≤ x.e.n + 1
  stop : x.istop ≤ n
  start : x.istart = 0 ∨ x.istart + 1 ≤ x.istop
  left : 0 < x.istart → x.e.f (x.istart - 1) = 0
  right : ∀ j, x.istop ≤ j + 1 → j + 1 < n → x.e.f j = 0
  q : ∃ P Q δ1 δ2, QSv n (svTau n p B0) B0 x.d.f x.e.f P Q ∧ DOk p.ulp x.istop δ1 ∧ DOk p.ulp x.istop δ2 ∧
    UV n wu wv U V μ (P * diagonal δ1) (diagonal δ2 * Q) ν

theorem svTol_ge {eps : ℝ} (h : 0 < eps) : 10 * eps ≤ svTol eps := by
  unfold svTol
  exact mul_le_mul_of_nonneg_right (le_max_left _ _) h.le

theorem svTol_pos {eps : ℝ} (h : 0 < eps) : 0 < svTol eps := lt_of_lt_of_le (by linarith) (svTol_ge h)

variable {wu wv : Bool} {U V : MatV L} {μ ν : Store L 𝕜} {P Q B0 : Matrix (Fin n) (Fin n) ℝ} {p : RotPar} {istart istop : Nat} {d e : RArr}

set_option maxHeartbeats 1000000 in
theorem wp_svTwo (h3 : 0 < p.ulp) (h4 : p.ulp ≤ 1 / 2) (hR : SvReq n wu wv U V) {δ1 δ2 : Fin n → ℝ}
    (h : UV n wu wv U V μ (P * diagonal δ1) (diagonal δ2 * Q) ν) (hQ : QSv n (svTau n p B0) B0 d.f e.f P Q)
    (k1 : DOk p.ulp (istart + 2) δ1) (k2 : DOk p.ulp (istart + 2) δ2)
    (hd : d.n = n) (he : n ≤ e.n + 1) (hn : istart + 2 ≤ n)
    (hl : 0 < istart → e.f (istart - 1) = 0) (hr : istart + 2 < n → e.f (istart + 1) = 0) (hz : e.f istart ≠ 0) {E} :
    wp (svTwo p (fun x : ℝ => (x : 𝕜)) wu wv U V istart d e) ν (fun x ν' => x.1.n = n ∧ x.2.n = e.n ∧
      x.2.f = (fun j => if j = istart then 0 else e.f j) ∧
      ∃ P Q δ1 δ2, QSv n (svTau n p B0) B0 x.1.f x.2.f P Q ∧ DOk p.ulp istart δ1 ∧ DOk p.ulp istart δ2 ∧
        UV n wu wv U V μ (P * diagonal δ1) (diagonal δ2 * Q) ν') E := by
  unfold svTwo
  simp only [wp_bind]
  obtain ⟨o, ho, rl, rr, cl, sl, cr, sr, N⟩ := svd22_norm h3 h4 (d.f istart) (e.f istart) (d.f (istart + 1))
  refine wp_rget (by omega) (wp_rget (by omega) (wp_rget (by omega) (wp_liftO_some ho ?_)))
  refine wp_rset (by omega) (wp_rset (by simp only; omega) (wp_rset (by omega) ?_))
  refine wp_mono (wp_svU hR h (show istart < n by omega) (show istart + 1 < n by omega) (by omega) _ _) ?_ (fun _ _ h => h)
  intro _ ν1 hν1
  refine wp_mono (wp_svV hR hν1 (show istart < n by omega) (show istart + 1 < n by omega) (by omega) _ _) ?_ (fun _ _ h => h)
  intro _ ν2 hν2
  refine ⟨hd, rfl, rfl, _, _, _, _, hQ.two (k := istart) (by omega) hl hr hz N ?_ ?_ ?_ ?_, k1.two N.rl0 N.rl1, k2.two N.rr0 N.rr1, ?_⟩
  · have a1 := hQ.ele (i := istart) (by omega)
    have a2 := mul_le_mul (svTol_ge h3) a1 (abs_nonneg _) (svTol_pos h3).le
    calc 2 * (5 * p.ulp * |e.f istart|) = 10 * p.ulp * |e.f istart| := by ring
      _ ≤ _ := a2.trans (le_max_right _ _)
  · intro j g1 g2
    simp only
    rw [if_neg g2, if_neg g1]
  · simp
  · simp
  · have c1 := (ActsBelow.rot (n := n) (m := istart + 2) (x := istart) (y := istart + 1) (by omega) (by omega) cl sl).tr δ1 k1.one
    have c2 := (ActsBelow.rot (n := n) (m := istart + 2) (x := istart) (y := istart + 1) (by omega) (by omega) cr sr) δ2 k2.one
    rw [N.ecl, N.esl, N.ecr, N.esr, rotMat_scale (by omega), rotMat_scale (by omega), transpose_mul, diagonal_transpose] at hν2
    convert hν2 using 1
    · rw [← diagonal_mul_diagonal, ← Matrix.mul_assoc (P * diagonal δ1), Matrix.mul_assoc P (diagonal δ1), ← c1]
      simp only [Matrix.mul_assoc]
    · rw [show (fun i : Fin n => δ2 i * if (i : Nat) = istart ∨ (i : Nat) = istart + 1 then rr else 1) =
        fun i : Fin n => (if (i : Nat) = istart ∨ (i : Nat) = istart + 1 then rr else 1) * δ2 i from funext fun i => mul_comm _ _, ← diagonal_mul_diagonal]
      rw [← Matrix.mul_assoc _ (diagonal δ2) Q, Matrix.mul_assoc _ (rotMat n istart (istart + 1) cr sr), c2]
      simp only [Matrix.mul_assoc]

theorem UV.swept (hU : UV n wu wv U V μ (P * diagonal δ1 * G) (H * (diagonal δ2 * Q)) ν) (k1 : DOk eps istop δ1) (k2 : DOk eps istop δ2)
    (hG : ActsBelow istop G) (hH : ActsBelow istop H) : UV n wu wv U V μ (P * G * diagonal δ1) (diagonal δ2 * (H * Q)) ν := by
  convert hU using 1
  · rw [Matrix.mul_assoc, Matrix.mul_assoc, hG δ1 k1.one]
  · rw [← Matrix.mul_assoc, ← Matrix.mul_assoc, hH δ2 k2.one]

set_option maxHeartbeats 1000000 in
theorem wp_svRest (h1 : 0 < p.safmin) (h2 : 0 < p.safmax) (h3 : 0 < p.ulp) (hR : SvReq n wu wv U V) {x : StqSt} {smax : ℝ}
    (h : LSv n p wu wv U V μ B0 x ν) (hx : x.istart + 3 ≤ x.istop) (hz : ∀ j, x.istart ≤ j → j + 1 < x.istop → x.e.f j ≠ 0)
    (hm : 0 < smax) {E} :
    wp (svRest p (fun x : ℝ => (x : 𝕜)) wu wv U V smax x) ν (fun y ν' => LSv n p wu wv U V μ B0 y ν' ∧ y.istop ≤ x.istop) E := by
  have h' := h
  obtain ⟨dn, en, stop, start, left, right, P, Q, δ1, δ2, hQ, k1, k2, hU⟩ := h'
  have small : ∀ i j, i < n → |x.e.f j| ≤ svTol p.ulp * |x.d.f i| → |x.e.f j| ≤ svTau n p B0 := fun i j hi hh =>
    hh.trans ((mul_le_mul_of_nonneg_left (hQ.dle hi) (svTol_pos h3).le).trans (le_max_right _ _))
  unfold svRest
  simp only [wp_bind]
  have rest : ∀ k, x.istart ≤ k → k + 1 < x.istop → |x.e.f k| ≤ svTau n p B0 →
      QSv n (svTau n p B0) B0 x.d.f (fun j => if j = k then 0 else x.e.f j) P Q := fun k g1 g2 g3 => hQ.deflate (by omega) g3
  have main : wp (do
      let r ← (if x.fwd then svConvF (svTol p.ulp) x.istart x.istop x.d x.e else svConvB (svTol p.ulp) x.istart x.istop x.d x.e : M L 𝕜 (ℝ ⊕ Nat))
      match r with
      | .inr i => do
        let e ← x.e.set i 0
        pure { x with e := e }
      | .inl sminl => do
        let shift ← svShift p.ulp (svTol p.ulp) x.fwd x.istart x.istop x.d x.e sminl smax
        let (d, e) ← svSweep p (fun x : ℝ => (x : 𝕜)) wu wv U V x.fwd x.istart x.istop x.d x.e shift
        pure { x with d := d, e := e }) ν (fun y ν' => LSv n p wu wv U V μ B0 y ν' ∧ y.istop ≤ x.istop) E := by
    simp only [wp_bind]
    have conv : wp (if x.fwd then svConvF (svTol p.ulp) x.istart x.istop x.d x.e else svConvB (svTol p.ulp) x.istart x.istop x.d x.e :
        M L 𝕜 (ℝ ⊕ Nat)) ν (fun r ν' => ν' = ν ∧ match r with
      | .inl s => s ≤ |x.d.f (if x.fwd then x.istart else x.istop - 1)|
      | .inr i => x.istart ≤ i ∧ i + 1 < x.istop ∧ |x.e.f i| ≤ svTau n p B0) E := by
      cases hf : x.fwd with
      | true =>
        rw [if_pos rfl]
        refine wp_mono (wp_svConvF dn en (by omega) stop fun j g1 g2 => abs_pos.2 (hz j g1 g2)) ?_ (fun _ _ h => h)
        rintro r ν' ⟨rfl, hr⟩
        refine ⟨rfl, ?_⟩
        cases r with
        | inl s => simpa using hr
        | inr i =>
          obtain ⟨g1, g2, mu, m0, m1, m2⟩ := hr
          exact ⟨g1, g2, small i i (by omega) (m2.le.trans (mul_le_mul_of_nonneg_left m1 (svTol_pos h3).le))⟩
      | false =>
        rw [if_neg (by simp)]
        refine wp_mono (wp_svConvB dn en (by omega) stop fun j g1 g2 => abs_pos.2 (hz j g1 g2)) ?_ (fun _ _ h => h)
        rintro r ν' ⟨rfl, hr⟩
        refine ⟨rfl, ?_⟩
        cases r with
        | inl s => simpa using hr
        | inr i =>
          obtain ⟨g1, g2, mu, m0, m1, m2⟩ := hr
          exact ⟨g1, g2, small (i + 1) i (by omega) (m2.le.trans (mul_le_mul_of_nonneg_left m1 (svTol_pos h3).le))⟩
    refine wp_mono conv ?_ (fun _ _ h => h)
    rintro r ν' ⟨rfl, hr⟩
    cases r with
    | inr i =>
      obtain ⟨g1, g2, g3⟩ := hr
      simp only [wp_bind]
      refine wp_rset (by omega) ?_
      refine ⟨⟨dn, en, stop, start, fun g => ?_, fun j q1 q2 => ?_, P, Q, δ1, δ2, rest i g1 g2 g3, k1, k2, hU⟩, le_rfl⟩
      · simp only at g ⊢
        rw [if_neg (by omega)]; exact left g
      · simp only at q1 ⊢
        rw [if_neg (by omega)]; exact right j q1 q2
    | inl s =>
      simp only [wp_bind]
      refine wp_mono (wp_svShift h3 (svTol_pos h3).le dn en (by omega) stop hm) ?_ (fun _ _ h => h)
      rintro shift ν1 ⟨rfl, hsh⟩
      have sw : wp (svSweep p (fun x : ℝ => (x : 𝕜)) wu wv U V x.fwd x.istart x.istop x.d x.e shift) ν1
          (SvSwept n x.istop wu wv U V μ (P * diagonal δ1) (diagonal δ2 * Q) x.istart x.d x.e) E := by
        unfold svSweep
        have right' : x.istop < n → x.e.f (x.istop - 1) = 0 := fun g => right _ (by omega) (by omega)
        by_cases q : shift = 0
        · rw [if_pos q]
          cases x.fwd with
          | true => rw [if_pos rfl]; exact wp_svZeroF h1 h2 hR hU dn en (by omega) stop left right'
          | false => rw [if_neg (by simp)]; exact wp_svZeroB h1 h2 hR hU dn en (by omega) stop left right'
        · rw [if_neg q]
          have pos := hsh q
          cases hf : x.fwd with
          | true =>
            rw [if_pos rfl]
            rw [hf] at hr
            refine wp_svSweepF h1 h2 hR hU dn en (by omega) stop left right' shift (abs_pos.1 ?_)
            have : s ≤ |x.d.f x.istart| := by simpa using hr
            linarith
          | false =>
            rw [if_neg (by simp)]
            rw [hf] at hr
            refine wp_svSweepB h1 h2 hR hU dn en (by omega) stop left right' shift (abs_pos.1 ?_)
            have : s ≤ |x.d.f (x.istop - 1)| := by simpa using hr
            linarith
      refine wp_mono sw ?_ (fun _ _ h => h)
      rintro ⟨d', e'⟩ ν2 ⟨b1, b2, b3, G, H, hG, hU'⟩
      refine ⟨⟨b1, by simp only at b2 ⊢; omega, stop, start, fun g => ?_, fun j q1 q2 => ?_, P * G, H * Q, δ1, δ2,
        hQ.sim hG (nzE_fix b3 fun j g1 g2 => hz j g1 (by omega)), k1, k2, hU'.swept k1 k2 hG.actG hG.actH⟩, le_rfl⟩
      · simp only at g ⊢
        rw [b3 _ (by omega)]; exact left g
      · simp only at q1 ⊢
        rw [b3 _ (by omega)]; exact right j q1 q2
  cases hf : x.fwd with
  | true =>
    rw [if_pos rfl]
    simp only [wp_bind]
    refine wp_rget (by omega) (wp_rget (by omega) ?_)
    change wp (if decide (|x.e.f (x.istop - 2)| ≤ svTol p.ulp * |x.d.f (x.istop - 1)|) = true then _ else _) _ _ _
    by_cases q : |x.e.f (x.istop - 2)| ≤ svTol p.ulp * |x.d.f (x.istop - 1)|
    · rw [if_pos (by simpa using q), if_pos trivial]
      simp only [wp_bind]
      refine wp_rset (by omega) ?_
      refine ⟨⟨dn, en, by simp only; omega, .inr (by simp only; omega), fun g => ?_, fun j q1 q2 => ?_, P, Q, δ1, δ2,
        rest (x.istop - 2) (by omega) (by omega) (small _ _ (by omega) q), k1.less (by simp only; omega), k2.less (by simp only; omega), hU⟩, by simp only; omega⟩
      · simp only at g ⊢
        rw [if_neg (by omega)]; exact left g
      · simp only at q1 ⊢
        by_cases g : j = x.istop - 2
        · rw [if_pos g]
        · rw [if_neg g]; exact right j (by omega) q2
    · rw [if_neg (by simpa using q)]
      rw [hf] at main
      exact main
  | false =>
    rw [if_neg (by simp)]
    simp only [wp_bind]
    refine wp_rget (by omega) (wp_rget (by omega) ?_)
    change wp (if decide (|x.e.f x.istart| ≤ svTol p.ulp * |x.d.f x.istart|) = true then _ else _) _ _ _
    by_cases q : |x.e.f x.istart| ≤ svTol p.ulp * |x.d.f x.istart|
    · rw [if_pos (by simpa using q), if_neg (by simp)]
      simp only [wp_bind]
      refine wp_rset (by omega) ?_
      refine ⟨⟨dn, en, stop, .inr (by simp only; omega), fun g => ?_, fun j q1 q2 => ?_, P, Q, δ1, δ2,
        rest x.istart (by omega) (by omega) (small _ _ (by omega) q), k1, k2, hU⟩, le_rfl⟩
      · simp
      · simp only at q1 ⊢
        rw [if_neg (by omega)]; exact right j (by omega) q2
    · rw [if_neg (by simpa using q)]
      rw [hf] at main
      exact main

set_option maxHeartbeats 1000000 in
theorem wp_svIter (h1 : 0 < p.safmin) (h2 : 0 < p.safmax) (h3 : 0 < p.ulp) (h4 : p.ulp ≤ 1 / 2) (hR : SvReq n wu wv U V) {x : StqSt}
    {thresh : ℝ} (ht0 : 0 ≤ thresh) (ht : thresh ≤ svTau n p B0)
    (h : LSv n p wu wv U V μ B0 x ν) (hx : 1 < x.istop) {E} :
    wp (svIter p (fun x : ℝ => (x : 𝕜)) wu wv U V thresh x) ν
      (fun y ν' => LSv n p wu wv U V μ B0 y ν' ∧ (y.istop < x.istop ∨ 3 ≤ n)) E := by
  obtain ⟨dn, en, stop, start, left, right, P, Q, δ1, δ2, hQ, k1, k2, hU⟩ := h
  unfold svIter
  simp only [wp_bind]
  refine wp_rget (by omega) ?_
  refine wp_mono (wp_svScan dn en (x.istop - 1) (by omega) _) ?_ (fun _ _ h => h)
  rintro y ν' ⟨rfl, hsm, hy⟩
  obtain ⟨istart, e, smax, rfl, hen, hst, hleft, hright, hnz, hQ'⟩ : ∃ istart e smax, y = (istart, e, smax) ∧ n ≤ e.n + 1 ∧ istart ≤ x.istop - 1 ∧
      (0 < istart → e.f (istart - 1) = 0) ∧ (∀ j, x.istop ≤ j + 1 → j + 1 < n → e.f j = 0) ∧
      (∀ j, istart ≤ j → j < x.istop - 1 → 0 < |e.f j| ∧ |e.f j| ≤ smax) ∧ QSv n (svTau n p B0) B0 x.d.f e.f P Q := by
    obtain ⟨y1, y2, y3⟩ := y
    rcases hy with ⟨rfl, rfl, hx'⟩ | ⟨k, a1, a2, rfl, rfl, a3, a4⟩
    · exact ⟨_, _, _, rfl, en, by omega, left, right, fun j g1 g2 => ⟨lt_of_le_of_lt ht0 (hx' j g1 g2).1, (hx' j g1 g2).2⟩, hQ⟩
    · refine ⟨_, _, _, rfl, en, by omega, fun _ => if_pos (by omega), fun j g1 g2 => ?_, fun j g1 g2 => ?_, hQ.deflate (by omega) (a3.trans ht)⟩
      · show (if j = k then 0 else x.e.f j) = 0
        rw [if_neg (by omega)]; exact right j g1 g2
      · show 0 < |if j = k then 0 else x.e.f j| ∧ |if j = k then 0 else x.e.f j| ≤ y3
        rw [if_neg (by omega)]
        exact ⟨lt_of_le_of_lt ht0 (a4 j (by omega) g2).1, (a4 j (by omega) g2).2⟩
  dsimp only
  by_cases c1 : istart = x.istop - 1
  · rw [if_pos c1]
    refine ⟨⟨dn, hen, by simp; omega, .inl rfl, fun h => absurd h (by simp), fun j g1 g2 => ?_, P, Q, δ1, δ2, hQ', k1.less (by simp),
      k2.less (by simp), hU⟩, .inl (by simp; omega)⟩
    simp only at g1 ⊢
    by_cases q : x.istop ≤ j + 1
    · exact hright j q g2
    · rw [show j = istart - 1 by omega]; exact hleft (by omega)
  · rw [if_neg c1]
    by_cases c2 : istart + 1 = x.istop - 1
    · rw [if_pos c2]
      simp only [wp_bind]
      have e2 : x.istop = istart + 2 := by omega
      refine wp_mono (wp_svTwo h3 h4 hR hU hQ' (e2 ▸ k1) (e2 ▸ k2) dn hen (by omega) hleft (fun g => hright _ (by omega) (by omega))
        (abs_pos.1 (hnz istart le_rfl (by omega)).1)) ?_ (fun _ _ h => h)
      rintro ⟨d', e'⟩ ν2 ⟨b1, b2, b3, P', Q', δ1', δ2', hQ2, k1', k2', hU2⟩
      have e3 : x.istop - 2 = istart := by omega
      refine ⟨⟨b1, by simp only at b2 ⊢; omega, by simp only; omega, .inl rfl, fun h => absurd h (by simp), fun j g1 g2 => ?_, P', Q', δ1', δ2', hQ2,
        by rw [e3]; exact k1', by rw [e3]; exact k2', hU2⟩, .inl (by simp only; omega)⟩
      simp only at g1 b3 ⊢
      rw [b3]
      by_cases q : j = istart
      · simp [q]
      · simp only [if_neg q]
        by_cases q2 : x.istop ≤ j + 1
        · exact hright j q2 g2
        · rw [show j = istart - 1 by omega]; exact hleft (by omega)
    · rw [if_neg c2]
      simp only [wp_bind]
      refine wp_rget (by omega) (wp_rget (by omega) ?_)
      have hm := hnz istart le_rfl (by omega)
      refine wp_mono (wp_svRest h1 h2 h3 hR (x := ⟨istart, x.istop, some (istart, x.istop), stqDir x istart (x.d.f istart) (x.d.f (x.istop - 1)),
        x.d, e⟩) ⟨dn, hen, stop, .inr (by simp only; omega), hleft, hright, P, Q, δ1, δ2, hQ', k1, k2, hU⟩ (by simp only; omega)
        (fun j g1 g2 => abs_pos.1 (hnz j g1 (by simp only at g2; omega)).1) (lt_of_lt_of_le hm.1 hm.2)) ?_ (fun _ _ h => h)
      rintro y ν2 ⟨hy, -⟩
      exact ⟨hy, .inr (by omega)⟩

/-- The main loop. -/
theorem wp_svLoop (h1 : 0 < p.safmin) (h2 : 0 < p.safmax) (h3 : 0 < p.ulp) (h4 : p.ulp ≤ 1 / 2) (hR : SvReq n wu wv U V)
    {thresh : ℝ} (ht0 : 0 ≤ thresh) (ht : thresh ≤ svTau n p B0) {E} (k : Nat) : ∀ {x : StqSt} {ν : Store L 𝕜},
    LSv n p wu wv U V μ B0 x ν → (x.istop ≤ k ∧ 0 < k ∨ 3 ≤ n) →
    wp (svLoop p (fun x : ℝ => (x : 𝕜)) wu wv U V thresh k x) ν
      (fun y ν' => LSv n p wu wv U V μ B0 y.2 ν' ∧ (y.1 = false → y.2.istop ≤ 1) ∧ (y.1 = true → 3 ≤ n)) E := by
  induction k with
  | zero => intro x ν h hk; exact ⟨h, fun h => absurd h (by simp), fun _ => by omega⟩
  | succ k ih =>
    intro x ν h hk
    unfold svLoop
    by_cases hx : x.istop ≤ 1
    · rw [if_pos hx]; exact ⟨h, fun _ => hx, fun h => absurd h (by simp)⟩
    · rw [if_neg hx]
      simp only [wp_bind]
      refine wp_mono (wp_svIter h1 h2 h3 h4 hR ht0 ht h (by omega)) ?_ (fun _ _ h => h)
      rintro y ν' ⟨hy, hm⟩
      exact ih hy (by omega)

end TLA
