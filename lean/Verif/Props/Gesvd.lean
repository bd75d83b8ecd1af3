import Verif.Proofs.Gesvd
import Verif.Props.Examples
set_option linter.unusedTactic false
set_option linter.unusedVariables false
set_option linter.unusedSimpArgs false

/-! # C82: singular value decomposition of a general matrix -/

namespace TLA
open Finset Matrix Kernel
variable {L 𝕜 : Type} [DecidableEq L] [RCLike 𝕜] [DecidableEq 𝕜] {p : RotPar} {hp : HhPar}

theorem ofReal_of_im {z : 𝕜} (h : RCLike.im z = 0) : ((RCLike.re z : ℝ) : 𝕜) = z := by
  conv_rhs => rw [← RCLike.re_add_im z, h]
  simp

theorem bidR_congr {lower : Bool} {d d' e e' : Nat → ℝ} {k i j : Nat} (hd : ∀ i, i < k → d i = d' i) (he : ∀ i, i + 1 < k → e i = e' i)
    (hi : i < k) (hj : j < k) : bidR lower d e i j = bidR lower d' e' i j := by
  unfold bidR
  split_ifs with c1 c2 c3
  · exact hd i hi
  · exact he i (by omega)
  · exact he j (by omega)
  · rfl

/-- gebrd in both shapes. -/
theorem gebrd_both (hl : HhLaws 𝕜 hp) {nb : Nat} {A : MatV L} {s : RArr} {U V : MatV L} {w : GesvdMem L} {wu wv : Bool}
    (ok : GesvdAdm nb wu wv A s U V w) (μ : Store L 𝕜) (hb : frobSq A.m A.n (entry μ A) ≤ hp.tbig ^ 2) :
    ∃ ν, gebrd (hhOps hp) nb A w.tauv w.tauw w.wb μ = (.ok 0, ν) ∧
      mat A.m A.n (entry μ A) = gQ ν A w.tauv * mat A.m A.n (fun i j => if i < min A.m A.n ∧ j < min A.m A.n then
        ((bidR (decide (¬ A.n ≤ A.m)) (fun i => RCLike.re (entry ν A i i))
          (fun i => RCLike.re (if A.n ≤ A.m then entry ν A i (i + 1) else entry ν A (i + 1) i)) i j : ℝ) : 𝕜) else 0) * (gP ν A w.tauw)ᴴ ∧
      (gQ ν A w.tauv)ᴴ * gQ ν A w.tauv = 1 ∧ (gP ν A w.tauw)ᴴ * gP ν A w.tauw = 1 ∧
      (∀ l, ¬ A.Owns l → ¬ w.tauv.Owns l → ¬ w.tauw.Owns l → ¬ w.wb.Owns l → ν l = μ l) := by
  have sown : ∀ (x : VecV L) k l, k ≤ x.n → (x.sub 0 k).Owns l → x.Owns l := by
    rintro x k l hk ⟨i, hi, e⟩
    exact ⟨0 + i, by simp only [VecV.sub] at hi; omega, e⟩
  by_cases q : A.n ≤ A.m
  · have hv := ok.htv; have hw := ok.htw
    obtain ⟨ν, e, ⟨h1, h2, h3⟩, h4, h5, f⟩ := C76_gebrd_upper hl nb ok.hnb A w.tauv w.tauw w.wb ok.brd q (by omega) (by omega) ok.hwb μ hb
    refine ⟨ν, e, ?_, ?_, ?_, fun l a b c d => f l a (fun h => b (sown _ _ _ (by omega) h)) (fun h => c (sown _ _ _ (by omega) h)) d⟩
    · unfold gQ gP
      rw [if_pos q, if_pos q, h1]
      congr 2
      refine mat_ext_iff.2 fun i j hi hj => ?_
      simp only [if_pos q, bidUF, bidR, decide_eq_true_eq, decide_eq_false_iff_not, not_not]
      by_cases c1 : i = j
      · subst c1
        rw [if_pos (.inl rfl), if_pos (by omega), if_pos rfl, ofReal_of_im (h4 i hj)]
      · by_cases c2 : i + 1 = j
        · subst c2
          rw [if_pos (.inr rfl), if_pos (by omega), if_neg c1, if_pos ⟨q, rfl⟩, ofReal_of_im (h5 i hj)]
        · rw [if_neg (by omega)]
          split_ifs <;> first | omega | simp
    · unfold gQ; rw [if_pos q]; exact h2
    · unfold gP; rw [if_pos q]; exact h3
  · have hv := ok.htv; have hw := ok.htw
    obtain ⟨ν, e, ⟨h1, h2, h3⟩, h4, h5, f⟩ := C76_gebrd_lower hl nb ok.hnb A w.tauv w.tauw w.wb ok.brd (by omega) (by omega) (by omega) ok.hwb μ hb
    refine ⟨ν, e, ?_, ?_, ?_, fun l a b c d => f l a (fun h => b (sown _ _ _ (by omega) h)) (fun h => c (sown _ _ _ (by omega) h)) d⟩
    · unfold gQ gP
      rw [if_neg q, if_neg q, h1]
      congr 2
      refine mat_ext_iff.2 fun i j hi hj => ?_
      simp only [if_neg q, bidLF, bidR, decide_eq_true_eq, decide_eq_false_iff_not, not_not]
      by_cases c1 : i = j
      · subst c1
        rw [if_pos (.inl rfl), if_pos (by omega), if_pos rfl, ofReal_of_im (h4 i hi)]
      · by_cases c2 : j + 1 = i
        · subst c2
          rw [if_pos (.inr rfl), if_pos (by omega), if_neg c1, if_neg (fun h => q h.1), if_pos ⟨q, rfl⟩, ofReal_of_im (h5 j hi)]
        · rw [if_neg (by omega)]
          split_ifs <;> first | omega | simp
    · unfold gQ; rw [if_neg q]; exact h2
    · unfold gP; rw [if_neg q]; exact h3

set_option maxHeartbeats 1000000 in
theorem wp_gesvd (h1 : 0 < p.safmin) (h2 : 0 < p.safmax) (h3 : 0 < p.ulp) (h4 : p.ulp ≤ 1 / 2) (hl : HhLaws 𝕜 hp)
    {isReal : Bool} (hreal : isReal = true → ∀ z : 𝕜, star z = z) {nb : Nat} {wu wv : Bool} {A : MatV L} {s : RArr} {U V : MatV L} {w : GesvdMem L}
    (ok : GesvdAdm nb wu wv A s U V w) (μ : Store L 𝕜) (hb : frobSq A.m A.n (entry μ A) ≤ hp.tbig ^ 2) :
    wp (gesvd (hhOps hp) isReal p (fun x : ℝ => (x : 𝕜)) RCLike.re nb wu wv A s U V w) μ (fun x ν =>
      GesvdOK A.m A.n p.ulp p.safmin wu wv U V (mat A.m A.n (entry μ A)) x.2.1.f x.2.2.f ν ∧
      (x.1 = 0 ∧ (∀ j, j + 1 < min A.m A.n → x.2.2.f j = 0) ∧ (∀ i j, i < j → j < min A.m A.n → x.2.1.f j ≤ x.2.1.f i) ∧
          (∀ i, i < min A.m A.n → 0 ≤ x.2.1.f i) ∨
       3 ≤ min A.m A.n ∧ x.1 ≤ min A.m A.n ∧ ∀ j, x.1 ≤ j + 1 → j + 1 < min A.m A.n → x.2.2.f j = 0) ∧
      ∀ l, ¬ w.Foot wu wv A U V l → ν l = μ l) := by
  obtain ⟨ν1, x1, eA, uQ, uP, f1⟩ := gebrd_both hl ok μ hb
  unfold gesvd
  dsimp only
  simp only [wp_bind]
  refine wp_of_eq x1 ?_
  refine wp_mono (wp_gesvdCopy ok.hs ν1) ?_ (fun _ _ h => h)
  rintro ⟨s', e'⟩ ν1' ⟨rfl, sn, en, sv, ev⟩
  dsimp only at sn en sv ev ⊢
  -- the left factor
  have stepU : wp (if wu = true then do
      let Ui ← U.slice 0 A.m 0 (min A.m A.n)
      let Ai ← A.slice 0 A.m 0 (min A.m A.n)
      lacpy .Lower Ai Ui
      let _ ← ungbrQ isReal nb A.n U w.tauv w.wq
      pure ()
    else pure () : M L 𝕜 Unit) ν1' (fun _ ν => (wu = true → ∀ i j : Fin A.m, (j : Nat) < U.n → entry ν U i j = gQ ν1' A w.tauv i j) ∧
      ∀ l, (wu = true → ¬ U.Owns l ∧ ¬ w.wq.Owns l) → ν l = ν1' l) := by
    by_cases hwu : wu = true
    · rw [if_pos hwu]
      obtain ⟨a1, a2, a3⟩ := ok.um hwu
      obtain ⟨b1, b2, -⟩ := ok.uq hwu
      refine wp_mono (wp_gesvdU hreal ok.hnb ok.hm ok.hn ok.htv b1 a1 a2 a3 b2 (ok.uw hwu) ν1') ?_ (fun _ _ h => h)
      rintro _ ν ⟨c1, c2⟩
      exact ⟨fun _ => c1, fun l hl => c2 l (hl hwu).1 (hl hwu).2⟩
    · rw [if_neg hwu]
      exact ⟨fun h => absurd h hwu, fun _ _ => rfl⟩
  simp only [← wp_bind]
  rw [wp_bind]
  refine wp_mono stepU ?_ (fun _ _ h => h)
  rintro _ ν2 ⟨vU, f2⟩
  have stepV : wp (if wv = true then do
      let Vi ← V.slice 0 (min A.m A.n) 0 A.n
      let Ai ← A.slice 0 (min A.m A.n) 0 A.n
      lacpy .Upper Ai Vi
      let _ ← ungbrP isReal nb A.m V w.tauw w.wp
      pure ()
    else pure () : M L 𝕜 Unit) ν2 (fun _ ν => (wv = true → ∀ i j : Fin A.n, (i : Nat) < V.m → entry ν V i j = (gP ν1' A w.tauw)ᴴ i j) ∧
      ∀ l, (wv = true → ¬ V.Owns l ∧ ¬ w.wp.Owns l) → ν l = ν2 l) := by
    by_cases hwv : wv = true
    · rw [if_pos hwv]
      obtain ⟨a1, a2, a3⟩ := ok.vn hwv
      obtain ⟨b1, b2⟩ := ok.vq hwv
      refine wp_mono (wp_gesvdV hreal ok.hnb ok.hm ok.hn ok.htw b1 a1 a2 a3 b2 (ok.vw hwv) ν2) ?_ (fun _ _ h => h)
      rintro _ ν ⟨c1, c2⟩
      have e : gP ν2 A w.tauw = gP ν1' A w.tauw := by
        refine gP_congr ok.htw (fun i hi => f2 _ fun hu => ?_) fun i j hi hj => f2 _ fun hu => ?_
        · obtain ⟨-, -, -, d1, d2⟩ := ok.uq hu
          exact ⟨fun ⟨a, b, ha, hb, ee⟩ => d1 a b ha hb ⟨i, hi, ee.symm⟩, d2 i hi⟩
        · obtain ⟨-, d1, d2, -, -⟩ := ok.uq hu
          exact ⟨d1 i j hi hj, d2 i j hi hj⟩
      rw [e] at c1
      exact ⟨fun _ => c1, fun l hl => c2 l (hl hwv).1 (hl hwv).2⟩
    · rw [if_neg hwv]
      exact ⟨fun h => absurd h hwv, fun _ _ => rfl⟩
  rw [wp_bind]
  refine wp_mono stepV ?_ (fun _ _ h => h)
  rintro _ ν3 ⟨vV, f3⟩
  have hU : wu = true → U.Inj ∧ s'.n ≤ U.n := fun h => ⟨(ok.uq h).1.inj, by rw [sn]; exact (ok.um h).2.1⟩
  have hV : wv = true → V.Inj ∧ s'.n ≤ V.m := fun h => ⟨(ok.vq h).1.inj, by rw [sn]; exact (ok.vn h).2.1⟩
  refine wp_mono (wp_svdQr h1 h2 h3 h4 (decide (¬ A.m ≥ A.n)) wu wv s' e' U V (by omega) ⟨hU, hV, fun a b => (ok.uv a b).1⟩ ν3) ?_ (fun _ _ h => h)
  rintro ⟨code, d', e''⟩ ν4 ⟨dn, hB, hc⟩
  dsimp only at dn hc ⊢
  have fr4 := hB
  obtain ⟨_, _, _, _, _, -, -, -, -, -, -, -, -, f4⟩ := fr4
  rw [sn] at hc
  refine ⟨?_, hc, fun l hl => ?_⟩
  · obtain ⟨sN, sf⟩ := s'
    dsimp only at sn sv hB
    subst sn
    refine gesvd_combine uQ (by rw [conjTranspose_conjTranspose]; exact mul_eq_one_comm.1 uP) rfl
      (d := sf) (e := e'.f) (lower := decide (¬ A.m ≥ A.n)) (μ := ν3) ?_ hB ?_ ?_ fun a b => (ok.uv a b).1
    · rw [eA]
      congr 2
      refine mat_ext_iff.2 fun i j hi hj => ?_
      by_cases q : i < min A.m A.n ∧ j < min A.m A.n
      · rw [if_pos q, if_pos q]
        exact congrArg _ (bidR_congr (fun i hi => (sv i hi).symm) (fun i hi => (ev i hi).symm) q.1 q.2)
      · rw [if_neg q, if_neg q]
    · intro hu
      refine ⟨(hU hu).1, (ok.um hu).1, (ok.um hu).2.1, fun i j hj => ?_⟩
      rw [← vU hu i j hj]
      refine f3 _ fun hv => ?_
      exact ⟨(ok.uv hu hv).1 i j (by rw [(ok.um hu).1]; exact i.2) hj, (ok.uv hu hv).2 i j (by rw [(ok.um hu).1]; exact i.2) hj⟩
    · intro hv
      exact ⟨(hV hv).1, (ok.vn hv).1, (ok.vn hv).2.1, vV hv⟩
  · unfold GesvdMem.Foot at hl
    push Not at hl
    obtain ⟨l1, l2, l3, l4, l5, l6⟩ := hl
    rw [f4 l (fun ⟨a, b⟩ => (l5 a).1 (MatV.firstCols_own (hU a).2 b)) (fun ⟨a, b⟩ => (l6 a).1 (MatV.firstRows_own (hV a).2 b)),
      f3 l l6, f2 l l5, f1 l l1 l2 l3 l4]

/-- **C82** gesvd, for every nonempty matrix of either shape whose norm does not overflow, with every choice of wanted factors: no failure of any
kind occurs, and whatever the outcome `A` plus a small perturbation is `W S X` with unitary `W`, `X` whose leading columns and rows are in `U` and
`Vt`.  Either `S` is diagonal with the singular values sorted from largest to smallest and the return code is 0, or the iteration limit
was hit and `S` is diagonal from the returned index on. -/
theorem C82_gesvd (h1 : 0 < p.safmin) (h2 : 0 < p.safmax) (h3 : 0 < p.ulp) (h4 : p.ulp ≤ 1 / 2) (hl : HhLaws 𝕜 hp)
    (isReal : Bool) (hreal : isReal = true → ∀ z : 𝕜, star z = z) (nb : Nat) (wu wv : Bool) (A : MatV L) (s : RArr) (U V : MatV L) (w : GesvdMem L)
    (ok : GesvdAdm nb wu wv A s U V w) (μ : Store L 𝕜) (hb : frobSq A.m A.n (entry μ A) ≤ hp.tbig ^ 2) :
    ∃ code s' e' ν, gesvd (hhOps hp) isReal p (fun x : ℝ => (x : 𝕜)) RCLike.re nb wu wv A s U V w μ = (.ok (code, s', e'), ν) ∧
      GesvdOK A.m A.n p.ulp p.safmin wu wv U V (mat A.m A.n (entry μ A)) s'.f e'.f ν ∧
      (code = 0 ∧ (∀ j, j + 1 < min A.m A.n → e'.f j = 0) ∧ (∀ i j, i < j → j < min A.m A.n → s'.f j ≤ s'.f i) ∧
          (∀ i, i < min A.m A.n → 0 ≤ s'.f i) ∨
       3 ≤ min A.m A.n ∧ code ≤ min A.m A.n ∧ ∀ j, code ≤ j + 1 → j + 1 < min A.m A.n → e'.f j = 0) ∧
      ∀ l, ¬ w.Foot wu wv A U V l → ν l = μ l := by
  obtain ⟨⟨code, s', e'⟩, ν, eq, h⟩ := wp_iff.1 (wp_gesvd h1 h2 h3 h4 hl hreal ok μ hb)
  exact ⟨code, s', e', ν, eq, h⟩

/-- **C82** With one or two rows or columns gesvd always ends with a singular value decomposition: `A + E = W diag(s) X`. -/
theorem C82_thin (h1 : 0 < p.safmin) (h2 : 0 < p.safmax) (h3 : 0 < p.ulp) (h4 : p.ulp ≤ 1 / 2) (hl : HhLaws 𝕜 hp)
    (isReal : Bool) (hreal : isReal = true → ∀ z : 𝕜, star z = z) (nb : Nat) (wu wv : Bool) (A : MatV L) (s : RArr) (U V : MatV L) (w : GesvdMem L)
    (ok : GesvdAdm nb wu wv A s U V w) (hk : min A.m A.n ≤ 2) (μ : Store L 𝕜) (hb : frobSq A.m A.n (entry μ A) ≤ hp.tbig ^ 2) :
    ∃ s' e' ν, gesvd (hhOps hp) isReal p (fun x : ℝ => (x : 𝕜)) RCLike.re nb wu wv A s U V w μ = (.ok (0, s', e'), ν) ∧
      (∀ i j, i < j → j < min A.m A.n → s'.f j ≤ s'.f i) ∧ (∀ i, i < min A.m A.n → 0 ≤ s'.f i) ∧
      ∃ (W : Matrix (Fin A.m) (Fin A.m) 𝕜) (X : Matrix (Fin A.n) (Fin A.n) 𝕜) (E : Matrix (Fin A.m) (Fin A.n) 𝕜), Wᴴ * W = 1 ∧ Xᴴ * X = 1 ∧
        mat A.m A.n (entry μ A) + E = W * mat A.m A.n (fun i j => if i = j then ((s'.f i : ℝ) : 𝕜) else 0) * X ∧
        frobM E ≤ (min A.m A.n - 1 : ℕ) * svdTol (min A.m A.n) p.ulp p.safmin (frobM (mat A.m A.n (entry μ A))) := by
  obtain ⟨code, s', e', ν, eq, ⟨W, X, E, _, _, uW, uX, eA, hE, -⟩, h | h, -⟩ := C82_gesvd h1 h2 h3 h4 hl isReal hreal nb wu wv A s U V w ok μ hb
  · obtain ⟨rfl, hz, hs, h0⟩ := h
    refine ⟨s', e', ν, eq, hs, h0, W, X, E, uW, uX, ?_, hE⟩
    rw [eA]
    congr 2
    refine mat_ext_iff.2 fun i j hi hj => ?_
    by_cases c : i = j
    · subst c; rw [if_pos (by omega), if_pos rfl, bidR, if_pos rfl]
    · rw [if_neg c]
      split_ifs with q
      · unfold bidR
        rw [if_neg c]
        by_cases c2 : i + 1 = j
        · rw [if_pos ⟨rfl, c2⟩, hz i (by omega)]; simp
        · rw [if_neg (fun h => c2 h.2), if_neg (by simp)]; simp
      · rfl
  · omega

/-- **C82** (deviation) An empty matrix is a valid input of the other factorizations, but not of gesvd when a factor is wanted: with `n = 0` and Vt wanted, and
with `m = 0 < n` and U wanted, the routine accesses an element outside of the factor. -/
theorem C82_empty_violated (hl : HhLaws 𝕜 hp) (isReal : Bool) (nb : Nat) (hnb : 0 < nb) (A : MatV L) (s : RArr) (U V : MatV L) (w : GesvdMem L)
    (brd : BrdOK A w.tauv w.tauw w.wb) (hwb : (gebrdWorksize nb A).size ≤ w.wb.n) (μ : Store L 𝕜) (hb : frobSq A.m A.n (entry μ A) ≤ hp.tbig ^ 2) :
    (A.n = 0 → V.n = 0 → ∃ ν, gesvd (hhOps hp) isReal p (fun x : ℝ => (x : 𝕜)) RCLike.re nb false true A s U V w μ = (.error .ub, ν)) ∧
    (A.m = 0 → 0 < A.n → U.m = 0 → ∃ ν, gesvd (hhOps hp) isReal p (fun x : ℝ => (x : 𝕜)) RCLike.re nb true false A s U V w μ = (.error .ub, ν)) := by
  constructor
  · intro hn hV
    obtain ⟨ν, x1, -⟩ := C76_gebrd_upper hl nb hnb A w.tauv w.tauw w.wb brd (by omega) (by omega) (by omega) hwb μ hb
    have key : wp (gesvd (hhOps hp) isReal p (fun x : ℝ => (x : 𝕜)) RCLike.re nb false true A s U V w) μ (fun _ _ => False) (fun e _ => e = .ub) := by
      unfold gesvd
      simp only [wp_bind]
      refine wp_of_eq x1 ?_
      have h0 : min A.m A.n = 0 := by omega
      rw [h0]
      unfold gesvdCopy
      refine wp_forUp (fun _ _ ν' => ν' = ν) le_rfl rfl (fun i _ _ _ h => absurd h (by omega)) ?_
      rintro ⟨s', e'⟩ ν' rfl
      dsimp only
      simp only [Bool.false_eq_true, if_false, if_true, wp_pure, wp_bind]
      refine wp_slice le_rfl (by omega) (by omega) (by omega) ?_
      refine wp_slice le_rfl (by omega) (by omega) (by omega) ?_
      obtain ⟨ν1, x2, -⟩ := C24_lacpy (T := 𝕜) .Upper (.inl rfl) (A.sub 0 0 0 A.n) (V.sub 0 0 0 A.n) le_rfl le_rfl
        (fun i j i' j' hi => absurd hi (by simp [MatV.sub])) (fun i j hi => absurd hi (by simp [MatV.sub])) ν'
      refine wp_of_eq x2 ?_
      unfold wp
      rw [(C72_ungbr_empty_violated isReal nb A.m V w.tauw w.wp ν1).2 hV]
    unfold wp at key
    rcases hx : gesvd (hhOps hp) isReal p (fun x : ℝ => (x : 𝕜)) RCLike.re nb false true A s U V w μ with ⟨r, ν⟩
    rw [hx] at key
    cases r with
    | ok _ => exact key.elim
    | error e => exact ⟨ν, by rw [show e = .ub from key]⟩
  · intro hm hn hU
    obtain ⟨ν, x1, -⟩ := C76_gebrd_lower hl nb hnb A w.tauv w.tauw w.wb brd (by omega) (by omega) (by omega) hwb μ hb
    have key : wp (gesvd (hhOps hp) isReal p (fun x : ℝ => (x : 𝕜)) RCLike.re nb true false A s U V w) μ (fun _ _ => False) (fun e _ => e = .ub) := by
      unfold gesvd
      simp only [wp_bind]
      refine wp_of_eq x1 ?_
      have h0 : min A.m A.n = 0 := by omega
      rw [h0]
      unfold gesvdCopy
      refine wp_forUp (fun _ _ ν' => ν' = ν) le_rfl rfl (fun i _ _ _ h => absurd h (by omega)) ?_
      rintro ⟨s', e'⟩ ν' rfl
      dsimp only
      simp only [if_true, wp_bind]
      refine wp_slice (by omega) (by omega) le_rfl (by omega) ?_
      refine wp_slice (by omega) (by omega) le_rfl (by omega) ?_
      obtain ⟨ν1, x2, -⟩ := C24_lacpy (T := 𝕜) .Lower (.inr (.inl rfl)) (A.sub 0 A.m 0 0) (U.sub 0 A.m 0 0) le_rfl le_rfl
        (fun i j i' j' _ hj => absurd hj (by simp [MatV.sub])) (fun i j _ hj => absurd hj (by simp [MatV.sub])) ν'
      refine wp_of_eq x2 ?_
      unfold wp
      rw [(C72_ungbr_empty_violated isReal nb A.n U w.tauv w.wq ν1).1 hU hn]
    unfold wp at key
    rcases hx : gesvd (hhOps hp) isReal p (fun x : ℝ => (x : 𝕜)) RCLike.re nb true false A s U V w μ with ⟨r, ν⟩
    rw [hx] at key
    cases r with
    | ok _ => exact key.elim
    | error e => exact ⟨ν, by rw [show e = .ub from key]⟩

/-- The hypotheses of `C82_gesvd` are met by a 5×3 and by a 3×5 matrix with both factors wanted. -/
example : GesvdAdm 2 true true (mkM 0 5 3) ⟨3, fun _ => 0⟩ (mkM 1 5 4) (mkM 2 3 3) ⟨mkV 3 3, mkV 4 3, mkV 5 300, mkV 6 300, mkV 7 300⟩ ∧
    GesvdAdm 2 true true (mkM 0 3 5) ⟨3, fun _ => 0⟩ (mkM 1 3 3) (mkM 2 4 5) ⟨mkV 3 3, mkV 4 3, mkV 5 300, mkV 6 300, mkV 7 300⟩ := by
  have qr : ∀ a m n b k c l, a ≠ b → a ≠ c → b ≠ c → QrOK (mkM a m n) (mkV b k) (mkV c l) := fun a m n b k c l h1 h2 h3 =>
    ⟨mkM_inj _ _ _, mkV_inj _ _, mkV_inj _ _, mkM_disjV h1, mkM_disjV h2, mkV_disj h3⟩
  constructor
  · exact ⟨by decide, by decide, by decide, rfl, rfl, rfl, ⟨qr _ _ _ _ _ _ _ (by decide) (by decide) (by decide), qr _ _ _ _ _ _ _ (by decide) (by decide) (by decide),
      mkV_disj (by decide)⟩, by decide, fun _ => by decide, fun _ => ⟨qr _ _ _ _ _ _ _ (by decide) (by decide) (by decide), mkM_disj (by decide),
      mkM_disjV (by decide), mkM_disjV (by decide), mkV_disj (by decide)⟩, fun _ => by decide, fun _ => by decide,
      fun _ => ⟨qr _ _ _ _ _ _ _ (by decide) (by decide) (by decide), mkM_disj (by decide)⟩, fun _ => by decide,
      fun _ _ => ⟨mkM_disj (by decide), mkM_disjV (by decide)⟩⟩
  · exact ⟨by decide, by decide, by decide, rfl, rfl, rfl, ⟨qr _ _ _ _ _ _ _ (by decide) (by decide) (by decide), qr _ _ _ _ _ _ _ (by decide) (by decide) (by decide),
      mkV_disj (by decide)⟩, by decide, fun _ => by decide, fun _ => ⟨qr _ _ _ _ _ _ _ (by decide) (by decide) (by decide), mkM_disj (by decide),
      mkM_disjV (by decide), mkM_disjV (by decide), mkV_disj (by decide)⟩, fun _ => by decide, fun _ => by decide,
      fun _ => ⟨qr _ _ _ _ _ _ _ (by decide) (by decide) (by decide), mkM_disj (by decide)⟩, fun _ => by decide,
      fun _ _ => ⟨mkM_disj (by decide), mkM_disjV (by decide)⟩⟩

end TLA
