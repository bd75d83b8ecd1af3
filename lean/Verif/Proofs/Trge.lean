import Verif.Model.Trge
import Verif.Proofs.QrRoutines
import Verif.Proofs.HouseFinal
import Verif.Proofs.HouseGenLoops

/-! trge_qr2: the loop. -/

set_option linter.unusedSectionVars false
set_option linter.unusedVariables false
set_option linter.unusedTactic false
set_option linter.unreachableTactic false

namespace TLA
open Finset
variable {L 𝕜 : Type} [DecidableEq L] [RCLike 𝕜] [DecidableEq 𝕜] {p : HhPar}

/-- A triangle (the first `n` rows) on top of a rectangle: the strictly lower part of the triangle is not read. -/
def trgeF {𝕜 : Type} [Zero 𝕜] (n : Nat) (G : Nat → Nat → 𝕜) : Nat → Nat → 𝕜 := fun r c =>
  if r < n ∧ c < r then 0 else G r c

theorem trgeF_of {n r c : Nat} {G : Nat → Nat → 𝕜} (h : r < n ∧ c < r) : trgeF n G r c = 0 := if_pos h
theorem trgeF_not {n r c : Nat} {G : Nat → Nat → 𝕜} (h : ¬ (r < n ∧ c < r)) : trgeF n G r c = G r c := if_neg h

/-- A sum over `i, …, N-1` of a function vanishing on `i+1, …, n-1`. -/
theorem trge_sum {β : Type} [AddCommMonoid β] {N n i : Nat} (hi : i < n) (hn : n ≤ N) (f : Nat → β)
    (h : ∀ r, i < r → r < n → f r = 0) :
    ∑ s ∈ range (N - i), f (i + s) = f i + ∑ s ∈ range (N - n), f (n + s) := by
  rw [show N - i = 1 + ((n - i - 1) + (N - n)) by omega, Finset.sum_range_add, Finset.sum_range_add, Finset.sum_range_one,
    Finset.sum_eq_zero (s := range (n - i - 1)) (fun s hs => h _ (by omega) (by have := mem_range.1 hs; omega)), zero_add]
  refine congrArg _ (Finset.sum_congr rfl fun s hs => ?_)
  rw [show i + (1 + (n - i - 1 + s)) = n + s by omega]

/-- The same over all the rows, for the vector of reflector `i`. -/
theorem trge_colU {N n i : Nat} (hi : i < n) (hn : n ≤ N) {G : Nat → Nat → 𝕜} (hG : ∀ r, i < r → r < n → G r i = 0)
    (f : Nat → 𝕜 → 𝕜) (hf : ∀ r, f r 0 = 0) :
    ∑ r ∈ range N, f r (colU i i N i G r) = f i 1 + ∑ s ∈ range (N - n), f (n + s) (G (n + s) i) := by
  have h0 : ∀ r, r < i → colU i i N i G r = 0 := fun r hr => by
    unfold colU; rw [if_neg (by omega), if_neg (by omega)]
  have h1 : colU i i N i G i = 1 := by unfold colU; rw [if_pos rfl]
  have h2 : ∀ r, i < r → r < N → colU i i N i G r = G r i := fun r h3 h4 => by
    unfold colU; rw [if_neg (by omega), if_pos (by omega)]
  rw [sum_embed (r0 := i) (r1 := N) (le_refl _) _ (fun s _ hs => by rw [h0 s (by omega), hf]),
    trge_sum hi hn (fun r => f r (colU i i N i G r)) (fun r h3 h4 => by
      beta_reduce; rw [h2 r h3 (by omega), hG r h3 h4, hf])]
  beta_reduce
  rw [h1]
  refine congrArg _ (Finset.sum_congr rfl fun s hs => ?_)
  rw [h2 (n + s) (by omega) (by have := mem_range.1 hs; omega)]

/-- State after the reflector has been generated and its factor stored. -/
structure TrMid (A : MatV L) (tau : VecV L) (i : Nat) (t : 𝕜) (ν ν2 : Store L 𝕜) : Prop where
  cs : ColStep A.m A.n i i A.m i 0 0 t (trgeF A.n (entry ν A)) (trgeF A.n (entry ν2 A))
  ti : ventry ν2 tau i = t
  tn : ∀ j, j < tau.n → j ≠ i → ventry ν2 tau j = ventry ν tau j
  same : ∀ r c, r < A.m → c < A.n → ¬ (c = i ∧ (r = i ∨ A.n ≤ r)) → entry ν2 A r c = entry ν A r c
  frame : ∀ l, ¬ A.Owns l → l ≠ tau.cell i → ν2 l = ν l

theorem wp_trgeGen (hl : HhLaws 𝕜 p) {A : MatV L} {tau work : VecV L} (ok : QrOK A tau work) (hN : A.n ≤ A.m)
    {i : Nat} (hi : i < A.n) (ht : i < tau.n) {ν : Store L 𝕜}
    (hb : ∀ r, i ≤ r → r < A.m → ‖trgeF A.n (entry ν A) r i‖ ≤ p.tbig)
    {Q : Store L 𝕜 → Prop} (hQ : ∀ t ν2, TrMid A tau i t ν ν2 → Q ν2) :
    wp (trgeGen (hhOps p) A tau i) ν (fun _ ν2 => Q ν2) := by
  unfold trgeGen
  simp only [wp_bind]
  refine wp_sliceCol hN (le_refl _) hi ?_
  refine wp_getE ⟨by omega, hi⟩ ?_
  have hvn : (A.colv A.n A.m i).n = A.m - A.n := rfl
  refine wp_conseq (wp_larfg hl (ok.inj.colv (le_refl _) hi) (Or.inl fun s hs => ?_)) ?_
  · rw [hvn] at hs
    have := hb (A.n + s) (by omega) (by omega)
    rwa [trgeF_not (by omega)] at this
  rintro ⟨b0, t⟩ ν1 ⟨ho, hr⟩
  rw [hvn] at hr
  refine wp_setE ⟨by omega, hi⟩ ?_
  rw [wp_vset]
  refine ⟨ht, hQ t _ ?_⟩
  dsimp only
  generalize hν2 : upd (upd ν1 (A.cell i i) b0) (tau.cell i) t = ν2
  have hself : entry ν2 A i i = b0 := by
    unfold entry; rw [← hν2]; unfold upd
    rw [if_neg (fun e => ok.At i i (by omega) hi ⟨i, ht, e.symm⟩), if_pos rfl]
  have hoth : ∀ r c, r < A.m → c < A.n → ¬ (r = i ∧ c = i) → entry ν2 A r c = entry ν1 A r c := by
    intro r c h1 h2 h3
    unfold entry; rw [← hν2]; unfold upd
    rw [if_neg (fun e => ok.At r c h1 h2 ⟨i, ht, e.symm⟩), if_neg (fun e => h3 (ok.inj _ _ _ _ h1 h2 (by omega) hi e))]
  have hcol : ∀ s, s < A.m - A.n → entry ν2 A (A.n + s) i = ventry ν1 (A.colv A.n A.m i) s := fun s hs =>
    hoth _ _ (by omega) hi (by omega)
  have same : ∀ r c, r < A.m → c < A.n → ¬ (c = i ∧ (r = i ∨ A.n ≤ r)) → entry ν2 A r c = entry ν A r c := by
    intro r c h1 h2 h3
    rw [hoth r c h1 h2 (by omega)]
    refine ho _ ?_
    rintro ⟨s, hs, e⟩
    rw [hvn] at hs
    simp only [MatV.colv] at e
    have := ok.inj _ _ _ _ h1 h2 (by omega) hi e.symm
    omega
  have htB : ∀ j, j < tau.n → ¬ A.Owns (tau.cell j) := by
    rintro j hj ⟨r, c', hr', hc', e⟩
    exact ok.At r c' hr' hc' ⟨j, hj, e.symm⟩
  have frame : ∀ l, ¬ A.Owns l → l ≠ tau.cell i → ν2 l = ν l := by
    intro l h1 h2
    rw [← hν2]; unfold upd
    rw [if_neg h2, if_neg (fun e => h1 ⟨i, i, by omega, hi, e.symm⟩)]
    exact ho _ (fun h => h1 (h.colv (le_refl _) hi))
  refine ⟨?_, by rw [← hν2]; simp [ventry, upd], fun j hj hne => frame _ (htB j hj) (fun e => hne (ok.tinj _ _ hj ht e)), same, frame⟩
  -- the algebra
  generalize hG : trgeF A.n (entry ν A) = G
  generalize hG2 : trgeF A.n (entry ν2 A) = G2
  have gsame : ∀ r c, r < A.m → c < A.n → ¬ (c = i ∧ (r = i ∨ A.n ≤ r)) → G2 r c = G r c := by
    intro r c h1 h2 h3
    rw [← hG, ← hG2]
    unfold trgeF
    rw [same r c h1 h2 h3]
  have gz : ∀ r, i < r → r < A.n → G2 r i = 0 := fun r h1 h2 => by rw [← hG2]; exact trgeF_of ⟨h2, h1⟩
  have gii : G i i = entry ν A i i := by rw [← hG]; exact trgeF_not (by omega)
  have g2ii : G2 i i = b0 := by rw [← hG2, trgeF_not (by omega), hself]
  have glo : ∀ s, G (A.n + s) i = entry ν A (A.n + s) i := fun s => by rw [← hG]; exact trgeF_not (by omega)
  have g2lo : ∀ s, s < A.m - A.n → G2 (A.n + s) i = ventry ν1 (A.colv A.n A.m i) s := fun s hs => by
    rw [← hG2, trgeF_not (by omega), hcol s hs]
  have hR := reflRes_of (dir := .Forward) (store := .Columnwise) (n := A.m - A.n + 1) (tau := t)
    (a := fun j => if j = 0 then entry ν A i i else entry ν A (A.n + (j - 1)) i)
    (b := fun j => if j = 0 then b0 else ventry ν1 (A.colv A.n A.m i) (j - 1)) (by omega)
    (by
      have e : (fun j => entry ν A (A.n + j) i) = ventry ν (A.colv A.n A.m i) := rfl
      simp only [pidx, skip, if_true, Nat.add_sub_cancel, Nat.add_eq_zero_iff, one_ne_zero, false_and, if_false, Nat.add_sub_cancel_left]
      exact hr)
  have hv0 : hvec .Forward .Columnwise (A.m - A.n + 1) (fun j => if j = 0 then b0 else ventry ν1 (A.colv A.n A.m i) (j - 1)) 0 = (1 : 𝕜) := by
    simp [hvec, pidx]
  have hv1 : ∀ s, s < A.m - A.n → hvec .Forward .Columnwise (A.m - A.n + 1) (fun j => if j = 0 then b0 else ventry ν1 (A.colv A.n A.m i) (j - 1)) (s + 1) = G2 (A.n + s) i := by
    intro s hs
    rw [g2lo s hs]
    simp [hvec, pidx]
  have inner : ∑ s ∈ range A.m, star (colU i i A.m i G2 s) * G s i = ∑ j ∈ range (A.m - A.n + 1),
      star (hvec .Forward .Columnwise (A.m - A.n + 1) (fun j => if j = 0 then b0 else ventry ν1 (A.colv A.n A.m i) (j - 1)) j) *
        (if j = 0 then entry ν A i i else entry ν A (A.n + (j - 1)) i) := by
    rw [trge_colU hi hN gz (fun s u => star u * G s i) (fun r => by beta_reduce; rw [star_zero, zero_mul]), Finset.sum_range_succ', add_comm, hv0, if_pos rfl]
    beta_reduce
    rw [gii]
    refine congrArg (· + _) (Finset.sum_congr rfl fun s hs => ?_)
    rw [hv1 s (mem_range.1 hs), glo, if_neg (by omega), Nat.add_sub_cancel]
  refine ⟨fun r c' h1 h2 h3 => gsame r c' h1 h2 (by omega), ?_, fun r hr' => ?_, ?_, fun r c' _ h2 h3 => by omega⟩
  · rw [← hR.unit]
    congr 1
    rw [trge_colU hi hN gz (fun s u => u * star u) (fun r => by beta_reduce; rw [zero_mul]), Finset.sum_range_succ', add_comm, hv0]
    refine congrArg (· + _) (Finset.sum_congr rfl fun s hs => ?_)
    beta_reduce
    rw [hv1 s (mem_range.1 hs)]
  · rw [inner]
    have ann := hR.ann
    simp only [adjTau, if_true, pidx] at ann
    by_cases e : r = i
    · subst e
      have h1 := ann 0 (by omega)
      rw [hv0] at h1
      simp only [if_true] at h1
      rw [if_pos rfl, g2ii, show colU r r A.m r G2 r = 1 by unfold colU; rw [if_pos rfl], gii]
      exact h1
    · rw [if_neg e]
      by_cases h2 : i < r
      · rw [if_pos ⟨by omega, hr'⟩, show colU i i A.m i G2 r = G2 r i by unfold colU; rw [if_neg e, if_pos ⟨by omega, hr'⟩]]
        by_cases h3 : r < A.n
        · rw [gz r h2 h3, mul_zero, zero_mul, sub_zero, ← hG]
          exact trgeF_of ⟨h3, h2⟩
        · obtain ⟨s, rfl⟩ : ∃ s, r = A.n + s := ⟨r - A.n, by omega⟩
          have h1 := ann (s + 1) (by omega)
          rw [hv1 s (by omega)] at h1
          simp only [Nat.add_eq_zero_iff, one_ne_zero, and_false, if_false, Nat.add_sub_cancel] at h1
          rw [glo]
          exact h1
      · rw [if_neg (by omega), show colU i i A.m i G2 r = 0 by unfold colU; rw [if_neg e, if_neg (by omega)], mul_zero, zero_mul, sub_zero]
  · rw [g2ii]
    have h1 := hR.real
    simpa [pidx] using h1

/-- The row `i`, columns `i+1, …` of `A` and its bottom rows are separate, and separate from the workspace. -/
theorem trgeSep {A : MatV L} {tau work : VecV L} (ok : QrOK A tau work) (hN : A.n ≤ A.m) {n i : Nat} (hn : n ≤ A.m) (hin : i < n)
    (hi : i < A.n) : LarfSep (A.colv n A.m i) (A.rowv i (i + 1) A.n) work (A.sub n A.m (i + 1) A.n) := by
  have aw : ∀ j, j < work.n → ¬ A.Owns (work.cell j) := by
    rintro j hj ⟨r, c, h1, h2, e⟩
    exact ok.Aw r c h1 h2 ⟨j, hj, e.symm⟩
  refine ⟨ok.inj.rowv (by omega) (le_refl _), ok.inj.sub (le_refl _) (le_refl _), ok.winj, ?_, ?_, ?_, ?_, ?_, ?_⟩
  · rintro a ha ⟨b, hb, e⟩
    simp only [MatV.colv, MatV.rowv] at ha hb e
    have := ok.inj _ _ _ _ (by omega) (by omega) (by omega) hi e
    omega
  · exact colv_disj_sub ok.inj (le_refl _) hi (le_refl _) (by omega)
  · rintro a ha
    simp only [MatV.colv] at ha
    exact ok.Aw _ _ (by omega) hi
  · intro j hj h
    exact aw j hj (h.rowv (by omega) (le_refl _))
  · intro j hj h
    exact aw j hj (h.sub (le_refl _) (le_refl _))
  · rintro a ha ⟨b, c, hb, hc, e⟩
    simp only [MatV.sub, MatV.rowv] at ha hb hc e
    have := ok.inj _ _ _ _ (by omega) (by omega) (by omega) (by omega) e
    omega

/-- The loop invariant of trge_qr2. -/
structure TrState (A : MatV L) (tau work : VecV L) (μ : Store L 𝕜) (s : Nat) (ν : Store L 𝕜) : Prop where
  inv : QRInv .Forward A.m A.n A.n (trgeF A.n (entry μ A)) s (trgeF A.n (entry ν A)) (ventry ν tau)
  low : ∀ r c, r < A.n → c < r → entry ν A r c = entry μ A r c
  frame : ∀ l, ¬ A.Owns l → ¬ (tau.sub 0 A.n).Owns l → ¬ work.Owns l → ν l = μ l

theorem TrState.next {A : MatV L} {tau work : VecV L} {s : Nat} {μ ν ν2 ν3 : Store L 𝕜} {t : 𝕜} (h : TrState A tau work μ s ν)
    (ok : QrOK A tau work) (hN : A.n ≤ A.m) (hs : s < A.n) (ht : A.n ≤ tau.n) (mid : TrMid A tau s t ν ν2)
    (cs : ColStep A.m A.n s s A.m s (s + 1) A.n t (trgeF A.n (entry ν A)) (trgeF A.n (entry ν3 A)))
    (lo : ∀ r c, r < A.n → c < r → entry ν3 A r c = entry ν2 A r c)
    (fr : ∀ l, ¬ A.Owns l → ¬ work.Owns l → ν3 l = ν2 l) : TrState A tau work μ (s + 1) ν3 := by
  have htB : ∀ j, j < tau.n → ¬ A.Owns (tau.cell j) := by
    rintro j hj ⟨r, c', hr, hc', e⟩
    exact ok.At r c' hr hc' ⟨j, hj, e.symm⟩
  have ht3 : ∀ j, j < tau.n → ventry ν3 tau j = ventry ν2 tau j := fun j hj => fr _ (htB j hj) (ok.tw j hj)
  refine ⟨?_, fun r c h1 h2 => ?_, fun l h1 h2 h3 => ?_⟩
  · refine (h.inv.step hs hN (le_refl _) cs).congr (by omega) hN (le_refl _) (fun _ _ _ _ => rfl) (fun i hi => ?_)
    rw [ht3 i (by omega), show qidx .Forward A.n s = s from rfl]
    by_cases e : i = s
    · subst e; rw [mid.ti, Function.update_self]
    · rw [mid.tn i (by omega) e, Function.update_of_ne e]
  · rw [lo r c h1 h2, mid.same r c (by omega) (by omega) (by omega), h.low r c h1 h2]
  · rw [fr l h1 h3, mid.frame l h1 (fun e => h2 ⟨s, by simp only [VecV.sub]; omega, by simp [VecV.sub, e]⟩), h.frame l h1 h2 h3]

set_option maxHeartbeats 1000000 in
theorem wp_trgeQr2 (hl : HhLaws 𝕜 p) {A : MatV L} {tau work : VecV L} (ok : QrOK A tau work) (hN : A.n ≤ A.m)
    (h0 : 0 < A.n) (ht : A.n ≤ tau.n) (hw : A.n - 1 ≤ work.n) {μ : Store L 𝕜}
    (hb : ∀ c, c < A.n → ∑ r ∈ range A.m, ‖trgeF A.n (entry μ A) r c‖ ^ 2 ≤ p.tbig ^ 2) :
    wp (trgeQr2 (hhOps p) A tau work) μ (fun _ ν => TrState A tau work μ A.n ν) := by
  have tb : ∀ (s : Nat) (ν : Store L 𝕜), s < A.n → TrState A tau work μ s ν →
      ∀ r, s ≤ r → r < A.m → ‖trgeF A.n (entry ν A) r s‖ ≤ p.tbig := by
    intro s ν hs hν r h1 h2
    have := hl.tbig_one
    refine hν.inv.bound hs (by linarith) (hb _ hs) h2 ?_
    rw [qz_fwd]; omega
  unfold trgeQr2
  rw [if_neg (by omega)]
  simp only [wp_bind]
  refine wp_forUp_ (fun s ν => TrState A tau work μ s ν) (Nat.zero_le _)
    ⟨QRInv.start _ _ _ _ _ _, fun _ _ _ _ => rfl, fun _ _ _ _ => rfl⟩ ?_ ?_
  · intro s ν _ hs hν
    simp only [wp_bind]
    refine wp_trgeGen hl ok hN (by omega) (by omega) (tb s ν (by omega) hν) ?_
    intro t ν2 mid
    refine wp_sliceCol hN (le_refl _) (by omega) ?_
    refine wp_sliceRow (by omega) (by omega) (le_refl _) ?_
    refine wp_slice hN (le_refl _) (by omega) (le_refl _) ?_
    refine wp_vgetE (by omega) ?_
    rw [show ν2 (tau.cell s) = t from mid.ti]
    refine wp_conseq (wp_larfCL (trgeSep ok hN hN (by omega) (by omega)) (by simp [MatV.rowv, MatV.sub])
      (by simp [MatV.colv, MatV.sub]) (by simp only [MatV.sub]; omega) (fun _ => by simp only [MatV.sub]; omega)) ?_
    rintro _ ν3 h3
    have hsame : ∀ r c, r < A.m → c < A.n → ¬ (s < c ∧ (r = s ∨ A.n ≤ r)) → entry ν3 A r c = entry ν2 A r c := by
      intro r c h1 h2 h4
      refine h3.frame _ ?_ ?_ (ok.Aw r c h1 h2)
      · rintro ⟨j, hj, e⟩
        simp only [MatV.rowv] at hj e
        have := ok.inj _ _ _ _ h1 h2 (by omega) (by omega) e.symm
        omega
      · rintro ⟨a, b, ha, hb', e⟩
        simp only [MatV.sub] at ha hb' e
        have := ok.inj _ _ _ _ h1 h2 (by omega) (by omega) e.symm
        omega
    refine hν.next ok hN (by omega) ht mid (mid.cs.extend (le_refl _) (by omega) (le_refl _) (by omega) (by omega) ?_ ?_)
      (fun r c h1 h2 => hsame r c (by omega) (by omega) (by omega))
      (fun l h1 h2 => h3.frame l (fun h => h1 (h.rowv (by omega) (le_refl _))) (fun h => h1 (h.sub (le_refl _) (le_refl _))) h2)
    · intro r c h1 h2 h4
      unfold trgeF
      rw [hsame r c h1 h2 (by omega)]
    · intro i j hi hj
      have hz : ∀ r, s < r → r < A.n → trgeF A.n (entry ν2 A) r s = 0 := fun r a b => trgeF_of ⟨b, a⟩
      have hsum : ∑ q ∈ range (A.m - s), star (colU s s A.m s (trgeF A.n (entry ν2 A)) (s + q)) *
          trgeF A.n (entry ν2 A) (s + q) (s + 1 + j) = ventry ν2 (A.rowv s (s + 1) A.n) j +
            ∑ q ∈ range (A.m - A.n), star (ventry ν2 (A.colv A.n A.m s) q) * entry ν2 (A.sub A.n A.m (s + 1) A.n) q j := by
        rw [trge_sum (N := A.m) (n := A.n) (i := s) (by omega) hN
          (fun r => star (colU s s A.m s (trgeF A.n (entry ν2 A)) r) * trgeF A.n (entry ν2 A) r (s + 1 + j))
          (fun r a b => by
            beta_reduce
            rw [show colU s s A.m s (trgeF A.n (entry ν2 A)) r = trgeF A.n (entry ν2 A) r s by
              unfold colU; rw [if_neg (by omega), if_pos ⟨by omega, by omega⟩], hz r a b, star_zero, zero_mul])]
        beta_reduce
        rw [show colU s s A.m s (trgeF A.n (entry ν2 A)) s = 1 by unfold colU; rw [if_pos rfl], star_one, one_mul,
          trgeF_not (by omega)]
        refine congrArg _ (Finset.sum_congr rfl fun q hq => ?_)
        have := mem_range.1 hq
        rw [show colU s s A.m s (trgeF A.n (entry ν2 A)) (A.n + q) = entry ν2 A (A.n + q) s by
          unfold colU; rw [if_neg (by omega), if_pos ⟨by omega, by omega⟩, trgeF_not (by omega)], trgeF_not (by omega)]
        rfl
      rw [hsum]
      by_cases e0 : i = 0
      · subst e0
        have v0 := h3.v0 j (by simp only [MatV.rowv]; omega)
        rw [Nat.add_zero, trgeF_not (by omega), trgeF_not (by omega),
          show colU s s A.m s (trgeF A.n (entry ν2 A)) s = 1 by unfold colU; rw [if_pos rfl], mul_one]
        exact v0
      · by_cases e1 : s + i < A.n
        · rw [show colU s s A.m s (trgeF A.n (entry ν2 A)) (s + i) = trgeF A.n (entry ν2 A) (s + i) s by
            unfold colU; rw [if_neg (by omega), if_pos ⟨by omega, by omega⟩], hz _ (by omega) e1, mul_zero, zero_mul, sub_zero]
          unfold trgeF
          rw [hsame _ _ (by omega) (by omega) (by omega)]
        · obtain ⟨q, hq⟩ : ∃ q, s + i = A.n + q := ⟨s + i - A.n, by omega⟩
          rw [hq]
          have v1 := h3.v1 q j (by simp only [MatV.sub]; omega) (by simp only [MatV.sub]; omega)
          rw [show colU s s A.m s (trgeF A.n (entry ν2 A)) (A.n + q) = entry ν2 A (A.n + q) s by
            unfold colU; rw [if_neg (by omega), if_pos ⟨by omega, by omega⟩, trgeF_not (by omega)], trgeF_not (by omega), trgeF_not (by omega)]
          exact v1
  · intro ν hν
    refine wp_conseq (Q := fun _ ν2 => TrState A tau work μ (A.n - 1 + 1) ν2) (wp_trgeGen hl ok hN (by omega) (by omega) (tb _ ν (by omega) hν) ?_) ?_
    · intro t ν2 mid
      exact hν.next ok hN (by omega) ht mid
        (mid.cs.extend (le_refl _) (by omega) (le_refl _) (by omega) (by omega) (fun _ _ _ _ _ => rfl) (fun i j hi hj => by omega))
        (fun _ _ _ _ => rfl) (fun _ _ _ => rfl)
    · rintro _ ν2 h
      rwa [show A.n - 1 + 1 = A.n by omega] at h

/-! ### trge_ung2r -/

/-- The end of a step: zeros above, the reflector scaled, the pivot. -/
theorem wp_trgeTail {W : MatV L} (hW : W.Inj) {n i : Nat} (hn : n ≤ W.m) (hin : i < n) (hi : i < W.n) {t : 𝕜} {ν : Store L 𝕜} :
    wp (do
      forUp_ 0 i fun j => W.set j i 0
      scal (-t) (W.colv n W.m i)
      W.set i i (1 - t)) ν (fun _ ν' => MState W ν (fun r c => if c = i then
        (if r = i then 1 - t else if r < i then 0 else if n ≤ r then entry ν W r c * (-t) else entry ν W r c)
        else entry ν W r c) ν') := by
  simp only [wp_bind]
  refine wp_conseq (wp_colLoop (j := i) (fun _ => (0 : 𝕜)) (MState.start W ν) hW hi (by omega) (Nat.zero_le _) ?_) ?_
  · intro j ν' h2 h3 _
    rw [wp_set]
    exact ⟨⟨by omega, hi⟩, rfl⟩
  intro _ ν1 s1
  refine wp_conseq (wp_scal (hW.colv (le_refl _) hi) (VState.start _ ν1)) ?_
  intro _ ν2 hν2
  have s2 := s1.liftCol hW (le_refl _) hi hν2
  rw [wp_set]
  refine ⟨⟨by omega, hi⟩, ?_⟩
  refine s2.upd hW (by omega) hi (fun r c hr hc => ?_)
  by_cases e : c = i
  · subst e
    rw [if_pos rfl]
    by_cases e1 : r = c
    · rw [if_pos e1, if_pos ⟨e1, rfl⟩]
    · rw [if_neg e1, if_neg (show ¬ (r = c ∧ c = c) by omega)]
      by_cases e2 : r < c
      · rw [if_pos e2, if_neg (show ¬ (c = c ∧ n ≤ r ∧ r < W.m) by omega), if_pos ⟨rfl, by omega, e2⟩]
      · rw [if_neg e2]
        by_cases e3 : n ≤ r
        · rw [if_pos e3, if_pos ⟨rfl, e3, hr⟩]
          have : ventry ν1 (W.colv n W.m c) (r - n) = entry ν W r c := by
            have h1 := s1.val r c hr hc
            rw [if_neg (by omega)] at h1
            unfold ventry MatV.colv
            dsimp only
            rw [show n + (r - n) = r by omega]
            exact h1
          rw [this]
        · rw [if_neg e3, if_neg (show ¬ (c = c ∧ n ≤ r ∧ r < W.m) by omega), if_neg (by omega)]
  · rw [if_neg e, if_neg (by omega), if_neg (by omega), if_neg (by omega)]

/-- The loop invariant of trge_ung2r. -/
structure TuState (W : MatV L) (tau work : VecV L) (μ : Store L 𝕜) (j : Nat) (ν : Store L 𝕜) : Prop where
  inv : UInv .Forward W.m W.n tau.n
    (fun i => mat W.m W.m (reflF (ventry μ tau i) (houseVec .Forward .Columnwise W.m tau.n
      (fun r i => trgeF tau.n (entry μ W) r (qcol .Forward W.n tau.n i)) i)))
    (trgeF tau.n (entry μ W)) j (trgeF tau.n (entry ν W))
  low : ∀ r c, r < tau.n → c < r → entry ν W r c = entry μ W r c
  frame : ∀ l, ¬ W.Owns l → ¬ work.Owns l → ν l = μ l

/-- The values after the application of the reflector. -/
theorem trge_larf_vals {W : MatV L} {tau work : VecV L} (ok : QrOK W tau work) {n i : Nat} (hn : n ≤ W.m) (hin : i < n) (hi : i < W.n)
    {t : 𝕜} {ν ν1 : Store L 𝕜}
    (h : LarfL (uOf .Columnwise (ventry ν (W.colv n W.m i))) t (W.rowv i (i + 1) W.n) work (W.sub n W.m (i + 1) W.n) ν ν1) :
    (∀ r c, r < W.m → c < W.n → ¬ (i < c ∧ (r = i ∨ n ≤ r)) → entry ν1 W r c = entry ν W r c) ∧
    (∀ r c, r < W.m → i < c → c < W.n → trgeF n (entry ν1 W) r c = applyL W.m t (colU i i W.m i (trgeF n (entry ν W))) (trgeF n (entry ν W)) r c) := by
  have hsame : ∀ r c, r < W.m → c < W.n → ¬ (i < c ∧ (r = i ∨ n ≤ r)) → entry ν1 W r c = entry ν W r c := by
    intro r c h1 h2 h4
    refine h.frame _ ?_ ?_ (ok.Aw r c h1 h2)
    · rintro ⟨j, hj, e⟩
      simp only [MatV.rowv] at hj e
      have := ok.inj _ _ _ _ h1 h2 (by omega) (by omega) e.symm
      omega
    · rintro ⟨a, b, ha, hb', e⟩
      simp only [MatV.sub] at ha hb' e
      have := ok.inj _ _ _ _ h1 h2 (by omega) (by omega) e.symm
      omega
  refine ⟨hsame, fun r c hr h1 h2 => ?_⟩
  obtain ⟨j, rfl⟩ : ∃ j, c = i + 1 + j := ⟨c - (i + 1), by omega⟩
  have hz : ∀ r, i < r → r < n → trgeF n (entry ν W) r i = 0 := fun r a b => trgeF_of ⟨b, a⟩
  have hup : trgeF n (entry ν W) i (i + 1 + j) = ventry ν (W.rowv i (i + 1) W.n) j := trgeF_not (by omega)
  have hsum : ∑ q ∈ range W.m, star (colU i i W.m i (trgeF n (entry ν W)) q) * trgeF n (entry ν W) q (i + 1 + j) =
      ventry ν (W.rowv i (i + 1) W.n) j + ∑ q ∈ range (W.sub n W.m (i + 1) W.n).m,
        star (uOf .Columnwise (ventry ν (W.colv n W.m i)) q) * entry ν (W.sub n W.m (i + 1) W.n) q j := by
    rw [trge_colU hin hn hz (fun q u => star u * trgeF n (entry ν W) q (i + 1 + j))
      (fun q => by beta_reduce; rw [star_zero, zero_mul])]
    beta_reduce
    rw [star_one, one_mul, hup]
    refine congrArg _ (Finset.sum_congr rfl fun q hq => ?_)
    rw [trgeF_not (by omega), trgeF_not (by omega)]
    rfl
  unfold applyL
  rw [hsum]
  by_cases e0 : r = i
  · subst e0
    have v0 := h.v0 j (by simp only [MatV.rowv]; omega)
    rw [hup, trgeF_not (by omega), show colU r r W.m r (trgeF n (entry ν W)) r = 1 by unfold colU; rw [if_pos rfl], mul_one]
    exact v0
  · by_cases e1 : r < i
    · rw [show colU i i W.m i (trgeF n (entry ν W)) r = 0 by unfold colU; rw [if_neg e0, if_neg (by omega)], mul_zero, zero_mul, sub_zero]
      unfold trgeF
      rw [hsame _ _ hr h2 (by omega)]
    · rw [show colU i i W.m i (trgeF n (entry ν W)) r = trgeF n (entry ν W) r i by unfold colU; rw [if_neg e0, if_pos ⟨by omega, hr⟩]]
      by_cases e2 : r < n
      · rw [hz r (by omega) e2, mul_zero, zero_mul, sub_zero]
        unfold trgeF
        rw [hsame _ _ hr h2 (by omega)]
      · obtain ⟨q, rfl⟩ : ∃ q, r = n + q := ⟨r - n, by omega⟩
        have v1 := h.v1 q j (by simp only [MatV.sub]; omega) (by simp only [MatV.sub]; omega)
        rw [trgeF_not (by omega), trgeF_not (by omega), trgeF_not (by omega)]
        exact v1

theorem TuState.next {W : MatV L} {tau work : VecV L} (ok : QrOK W tau work) (hN : W.n ≤ W.m) (hk : tau.n ≤ W.n) {i : Nat} (hi : i < tau.n)
    {μ ν ν1 ν' : Store L 𝕜} (h : TuState W tau work μ (i + 1) ν)
    (same : ∀ r c, r < W.m → c < W.n → ¬ (i < c ∧ (r = i ∨ tau.n ≤ r)) → entry ν1 W r c = entry ν W r c)
    (val : ∀ r c, r < W.m → i < c → c < W.n → trgeF tau.n (entry ν1 W) r c =
      applyL W.m (ventry μ tau i) (colU i i W.m i (trgeF tau.n (entry ν W))) (trgeF tau.n (entry ν W)) r c)
    (fr : ∀ l, ¬ W.Owns l → ¬ work.Owns l → ν1 l = ν l)
    (tl : MState W ν1 (fun r c => if c = i then
        (if r = i then 1 - ventry μ tau i else if r < i then 0 else if tau.n ≤ r then entry ν1 W r c * (-ventry μ tau i) else entry ν1 W r c)
        else entry ν1 W r c) ν') : TuState W tau work μ i ν' := by
  refine ⟨UInv.step (j := i) (P := i) (r0 := i) (r1 := W.m) (c := i) (c0 := i + 1) (c1 := W.n) hN hk hi rfl rfl ⟨rfl, rfl, rfl, rfl, rfl, rfl⟩ rfl h.inv ?_,
    fun r c hr hc => ?_, fun l h1 h2 => ?_⟩
  · refine ⟨fun r hr => ?_, fun r c hr h0 h1 => ?_, fun r c hr hc hne hn => ?_⟩
    · by_cases e : r = i
      · subst e
        rw [trgeF_not (by omega), show entry ν' W r r = _ from tl.val r r hr (by omega), if_pos rfl, if_pos rfl, if_pos rfl,
          show colU r r W.m r (trgeF tau.n (entry ν W)) r = 1 by unfold colU; rw [if_pos rfl], mul_one]
      · rw [if_neg e, zero_sub]
        by_cases e1 : r < i
        · rw [trgeF_not (by omega), show entry ν' W r i = _ from tl.val r i hr (by omega), if_pos rfl, if_neg e, if_pos e1,
            show colU i i W.m i (trgeF tau.n (entry ν W)) r = 0 by unfold colU; rw [if_neg e, if_neg (by omega)], mul_zero, neg_zero]
        · rw [show colU i i W.m i (trgeF tau.n (entry ν W)) r = trgeF tau.n (entry ν W) r i by unfold colU; rw [if_neg e, if_pos ⟨by omega, hr⟩]]
          by_cases e2 : r < tau.n
          · rw [trgeF_of (by omega), trgeF_of (by omega), mul_zero, neg_zero]
          · rw [trgeF_not (by omega), trgeF_not (by omega), show entry ν' W r i = _ from tl.val r i hr (by omega), if_pos rfl, if_neg e, if_neg e1,
              if_pos (by omega), same r i hr (by omega) (by omega)]
            ring
    · rw [← val r c hr (by omega) h1]
      unfold trgeF
      rw [show entry ν' W r c = _ from tl.val r c hr h1, if_neg (show ¬ c = i by omega)]
    · unfold trgeF
      rw [show entry ν' W r c = _ from tl.val r c hr hc, if_neg hne, same r c hr hc (by omega)]
  · rw [show entry ν' W r c = _ from tl.val r c (by omega) (by omega)]
    have e1 : entry ν1 W r c = entry μ W r c := by rw [same r c (by omega) (by omega) (by omega), h.low r c hr hc]
    by_cases e : c = i
    · rw [if_pos e, if_neg (by omega), if_neg (by omega), if_neg (by omega), e1]
    · rw [if_neg e, e1]
  · rw [tl.frame l h1, fr l h1 h2, h.frame l h1 h2]

set_option maxHeartbeats 1000000 in
theorem wp_trgeUngStep {W : MatV L} {tau work : VecV L} (ok : QrOK W tau work) (hN : W.n ≤ W.m) (hk : tau.n ≤ W.n) {i : Nat} (hi : i < tau.n)
    (hw : W.n - 1 ≤ work.n) {μ ν : Store L 𝕜} (h : TuState W tau work μ (i + 1) ν) :
    wp (trgeUngStep W tau work i) ν (fun _ ν' => TuState W tau work μ i ν') := by
  have htau : ν (tau.cell i) = ventry μ tau i := by
    refine h.frame _ ?_ (ok.tw i hi)
    rintro ⟨r, c', hr, hc', e⟩
    exact ok.At r c' hr hc' ⟨i, hi, e.symm⟩
  unfold trgeUngStep
  simp only [wp_bind]
  refine wp_sliceCol (by omega) (le_refl _) (by omega) ?_
  refine wp_sliceRow (by omega) (by omega) (le_refl _) ?_
  refine wp_slice (by omega) (le_refl _) (by omega) (le_refl _) ?_
  refine wp_vgetE hi ?_
  rw [htau]
  have tail : ∀ ν1 : Store L 𝕜,
      (∀ r c, r < W.m → c < W.n → ¬ (i < c ∧ (r = i ∨ tau.n ≤ r)) → entry ν1 W r c = entry ν W r c) →
      (∀ r c, r < W.m → i < c → c < W.n → trgeF tau.n (entry ν1 W) r c =
        applyL W.m (ventry μ tau i) (colU i i W.m i (trgeF tau.n (entry ν W))) (trgeF tau.n (entry ν W)) r c) →
      (∀ l, ¬ W.Owns l → ¬ work.Owns l → ν1 l = ν l) →
      wp (forUp_ 0 i fun j => W.set j i 0) ν1 (fun _ ν2 => wp (scal (-ventry μ tau i) (W.colv tau.n W.m i)) ν2
        (fun _ ν3 => wp (W.set i i (1 - ventry μ tau i)) ν3 (fun _ ν' => TuState W tau work μ i ν'))) := by
    intro ν1 a b c
    have := wp_trgeTail (t := ventry μ tau i) (ν := ν1) ok.inj (n := tau.n) (by omega) hi (by omega)
    simp only [wp_bind] at this
    exact wp_conseq this (fun _ ν2 h2 => wp_conseq h2 (fun _ ν3 h3 => wp_conseq h3 (fun _ ν' h' => TuState.next ok hN hk hi h a b c h')))
  by_cases hc : i + 1 = tau.n ∧ ¬ W.n > tau.n
  · rw [if_pos hc, wp_pure]
    exact tail ν (fun _ _ _ _ _ => rfl) (fun r c _ h1 h2 => by omega) (fun _ _ _ => rfl)
  · rw [if_neg hc]
    refine wp_conseq (wp_larfCL (trgeSep ok hN (by omega) hi (by omega)) (by simp [MatV.rowv, MatV.sub])
      (by simp [MatV.colv, MatV.sub]) (by simp only [MatV.sub]; omega) (fun _ => by simp only [MatV.sub]; omega)) ?_
    rintro _ ν1 h1
    have hv := trge_larf_vals ok (by omega) hi (by omega) h1
    exact tail ν1 hv.1 hv.2 (fun l a b => h1.frame l (fun h => a (h.rowv (by omega) (le_refl _))) (fun h => a (h.sub (le_refl _) (le_refl _))) b)

theorem wp_trgeUng2r {W : MatV L} {tau work : VecV L} (ok : QrOK W tau work) (hN : W.n ≤ W.m) (hk : tau.n ≤ W.n) (h0 : 0 < tau.n)
    (hw : W.n - 1 ≤ work.n) {μ : Store L 𝕜} :
    wp (trgeUng2r W tau work) μ (fun _ ν => TuState W tau work μ 0 ν) := by
  unfold trgeUng2r
  simp only [wp_bind]
  refine wp_slice (by omega) (by omega) (by omega) (by omega) ?_
  refine wp_conseq (wp_lasetG (ok.inj.sub (by omega) (by omega))) ?_
  intro _ ν1 h1
  have s1 := (MState.start W μ).lift ok.inj (by omega) (by omega) h1
  refine wp_slice (by omega) (by omega) (by omega) (by omega) ?_
  refine wp_conseq (wp_lasetG (ok.inj.sub (by omega) (by omega))) ?_
  intro _ ν2 h2
  have s2 := s1.lift ok.inj (by omega) (by omega) h2
  rw [if_neg (by omega)]
  refine wp_forDown_ (fun j ν => TuState W tau work μ j ν) (Nat.zero_le _) ?_ ?_ (fun ν h => h)
  · have hv : ∀ r c, r < W.m → c < W.n → entry ν2 W r c = if tau.n ≤ c then eyeF .Forward W.m W.n r c else entry μ W r c := by
      intro r c hr hc
      rw [show entry ν2 W r c = _ from s2.val r c hr hc]
      by_cases e : tau.n ≤ c
      · rw [if_pos e]
        unfold eyeF
        simp only [if_true]
        by_cases e2 : tau.n ≤ r
        · rw [if_pos (by omega)]
          exact if_congr (by omega) rfl rfl
        · rw [if_neg (by omega), if_pos (by omega), if_neg (show ¬ r = c by omega)]
          split <;> rfl
      · rw [if_neg e, if_neg (by omega), if_neg (by omega)]
    refine ⟨⟨fun r c hr hc h => ?_, eyeF .Forward W.m W.n, by simp [ungList], fun r c hr hc h => ?_, fun _ _ _ _ _ => rfl⟩,
      fun r c hr hc => ?_, fun l h _ => s2.frame l h⟩
    · rw [ungDone_fwd] at h
      unfold trgeF
      rw [hv r c hr hc, if_neg h]
    · rw [ungDone_fwd] at h
      rw [trgeF_not (by omega), hv r c hr hc, if_pos h]
    · rw [hv r c (by omega) (by omega), if_neg (by omega)]
  · intro j ν _ hj hν
    exact wp_trgeUngStep ok hN hk hj hw hν

end TLA
