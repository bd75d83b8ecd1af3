import Verif.Proofs.RotView
import Mathlib.Tactic.LinearCombination

/-! hessenberg_rq. -/

set_option linter.unusedTactic false
set_option linter.unusedSectionVars false
set_option linter.unusedVariables false
set_option linter.unreachableTactic false
set_option linter.unusedSimpArgs false

namespace TLA
open Matrix Finset
variable {L T : Type} [DecidableEq L] [Field T] [StarRing T] [DecidableEq T]

theorem rotProd_congr {n : Nat} {c s c' s' : Nat → T} {hi : Nat} :
    ∀ d lo, lo + d = hi → (∀ i, lo ≤ i → i < hi → c i = c' i ∧ s i = s' i) →
      rotProd n c s lo hi = rotProd n c' s' lo hi := by
  intro d
  induction d with
  | zero => intro lo h _; obtain rfl : lo = hi := by omega
            simp [rotProd_self]
  | succ d ih =>
    intro lo h hh
    rw [rotProd_bot _ _ (by omega : lo < hi), rotProd_bot _ _ (by omega : lo < hi),
      ih _ (by omega) (fun i h1 h2 => hh i (by omega) h2), (hh lo le_rfl (by omega)).1, (hh lo le_rfl (by omega)).2]

/-- Rotations beyond the last non-zero entry of a vector do nothing. -/
theorem rotsDn_id {c s : Nat → T} {x : Nat → T} {hi : Nat} :
    ∀ d lo, lo + d = hi → (∀ r, lo ≤ r → r ≤ hi → x r = 0) → rotsDn c s lo hi x = x := by
  intro d
  induction d with
  | zero => intro lo h _; obtain rfl : lo = hi := by omega
            simp [rotsDn]
  | succ d ih =>
    intro lo h hx
    have := ih (lo + 1) (by omega) (fun r h1 h2 => hx r (by omega) h2)
    unfold rotsDn at this ⊢
    rw [foldDown_bot (by omega : lo < hi), this]
    funext r
    unfold pairRot
    by_cases e1 : r = lo
    · subst e1; simp [hx r le_rfl (by omega), hx (r + 1) (by omega) (by omega)]
    · by_cases e2 : r = lo + 1
      · subst e2; simp [hx lo le_rfl (by omega), hx (lo + 1) (by omega) (by omega)]
      · simp [e1, e2]

theorem rotsDn_short {c s : Nat → T} {x : Nat → T} {q hi : Nat} (hq : q ≤ hi) (hx : ∀ r, q < r → r ≤ hi → x r = 0)
    (hq1 : q + 1 ≤ hi) :
    rotsDn c s 0 hi x = rotsDn c s 0 (q + 1) x := by
  rw [← rotsDn_split c s x hq1 (q + 1) 0 (by omega), rotsDn_id (hi - (q + 1)) _ (by omega)
    (fun r h1 h2 => hx r (by omega) h2)]

/-- `P(lo)⋯P(hi-1)` does not touch entries beyond `hi`. -/
theorem rotsDn_above {c s : Nat → T} {x : Nat → T} {hi r : Nat} (hr : hi < r) :
    ∀ d lo, lo + d = hi → rotsDn c s lo hi x r = x r := by
  intro d
  induction d with
  | zero => intro lo h; obtain rfl : lo = hi := by omega
            simp [rotsDn]
  | succ d ih =>
    intro lo h
    have := ih (lo + 1) (by omega)
    unfold rotsDn at this ⊢
    rw [foldDown_bot (by omega : lo < hi)]
    unfold pairRot
    rw [if_neg (by omega), if_neg (by omega)]
    exact this

theorem VecV.Disj.sy {x y : VecV L} (h : x.Disj y) : y.Disj x :=
  fun i hi ⟨j, hj, e⟩ => h j hj ⟨i, hi, e.symm⟩

theorem VecV.DisjM.symm {x : VecV L} {A : MatV L} (h : x.DisjM A) {i j : Nat} (hi : i < A.m) (hj : j < A.n) :
    ¬ x.Owns (A.cell i j) := fun ⟨k, hk, e⟩ => h k hk ⟨i, j, hi, hj, e.symm⟩

/-- Effect of one step of the right part. -/
structure HrqStep (A : MatV L) (cr sr : VecV L) (i : Nat) (ν ν' : Store L T) (K : Nat → Nat → T) (c s : T) : Prop where
  rot : IsRot c s
  tri : K i (i - 1) * c + star s * K i i = 0
  aval : ∀ r q, r < A.m → q < A.n → ν' (A.cell r q) = rowMap (pairRot (i - 1) i c (star s)) K r q
  cval : ∀ k, k < cr.n → ventry ν' cr k = if k = i - 1 then c else ventry ν cr k
  sval : ∀ k, k < sr.n → ventry ν' sr k = if k = i - 1 then s else ventry ν sr k
  frame : ∀ l, ¬ A.Owns l → ¬ cr.Owns l → ¬ sr.Owns l → ν' l = ν l

set_option maxHeartbeats 1000000 in
theorem wp_hessRqStep {o : RotOps T} (ho : RotLaws o) {A : MatV L} {cl sl cr sr : VecV L} (ok : HrqOK A cl sl cr sr)
    {i : Nat} (h1 : 1 ≤ i) (hi : i < A.n) {ν ν0 : Store L T} {K : Nat → Nat → T} (h : MState A ν0 K ν)
    (hz : ∀ r, i < r → r < A.m → K r (i - 1) = 0 ∧ K r i = 0) :
    wp (hessRqStep o A cr sr i) ν (fun _ ν' => ∃ c s, HrqStep A cr sr i ν ν' K c s) := by
  have hm := ok.sq
  have hcn := ok.lcr
  have hsn := ok.lsr
  have hbase : MState A ν K ν := ⟨h.val, fun _ _ => rfl⟩
  unfold hessRqStep
  rw [wp_bind]
  refine wp_conseq (wp_rotgAt ho hbase ok.inj (by omega) hi (by omega : i < A.m) (by omega : i - 1 < A.n)) ?_
  rintro ⟨c, s⟩ ν1 ⟨z, hrot, hann, hs1⟩
  dsimp only at hrot hann hs1 ⊢
  simp only [wp_bind, wp_vset, wp_vget]
  refine ⟨by omega, by omega, by omega, by omega, ?_⟩
  -- memory after the rotation has been stored
  have hne : cr.cell (i - 1) ≠ sr.cell (i - 1) := fun e =>
    ok.crsr (i - 1) (by omega) ⟨i - 1, by omega, e.symm⟩
  generalize hν4 : upd (upd (upd ν1 (cr.cell (i - 1)) c) (sr.cell (i - 1)) s) (sr.cell (i - 1))
      (-upd (upd ν1 (cr.cell (i - 1)) c) (sr.cell (i - 1)) s (sr.cell (i - 1))) = ν4
  have e4 : ∀ l, ν4 l = if l = sr.cell (i - 1) then -s else if l = cr.cell (i - 1) then c else ν1 l := by
    intro l
    rw [← hν4]
    unfold TLA.upd
    by_cases e : l = sr.cell (i - 1)
    · simp [e]
    · simp [e]
  have eA : ∀ r q, r < A.m → q < A.n → ν4 (A.cell r q) = ν1 (A.cell r q) := by
    intro r q hr hq
    rw [e4, if_neg, if_neg]
    · exact fun e => ok.crA.symm hr hq ⟨i - 1, by omega, e.symm⟩
    · exact fun e => ok.srA.symm hr hq ⟨i - 1, by omega, e.symm⟩
  have b4 : MState A ν4 _ ν4 := ⟨fun r q hr hq => (eA r q hr hq).trans (hs1.val r q hr hq), fun _ _ => rfl⟩
  have g0 := wp_setM b4 ok.inj (by omega : i < A.m) (by omega : i - 1 < A.n) 0
  rw [wp_set] at g0
  rw [wp_set]
  refine ⟨⟨by omega, by omega⟩, ?_⟩
  have b5 := g0.2
  generalize upd ν4 (A.cell i (i - 1)) 0 = ν5 at b5 ⊢
  refine wp_sliceCol (by omega) (by omega) (by omega) ?_
  refine wp_sliceCol (by omega) (by omega) (by omega) ?_
  have ec : ν5 (cr.cell (i - 1)) = c := by
    rw [b5.frame _ (ok.crA _ (by omega)), e4, if_neg hne, if_pos rfl]
  have es : ν5 (sr.cell (i - 1)) = -s := by
    rw [b5.frame _ (ok.srA _ (by omega)), e4, if_pos rfl]
  refine ⟨by omega, by omega, ?_⟩
  rw [ec, es]
  refine wp_conseq (wp_rotCols b5 ok.inj (by omega) hi (by omega) (by omega) c (star (-s))) ?_
  intro _ ν6 h6
  have hr' : IsRot c (-s) := ⟨hrot.1, by have := hrot.2; simp only [star_neg]; rw [← this]; ring⟩
  refine ⟨c, -s, hr', ?_, ?_, ?_, ?_, ?_⟩
  · simp only [star_neg]; linear_combination hann
  · intro r q hr hq
    rw [h6.val r q hr hq]
    by_cases hri : r < i
    · rw [if_pos hri]
      unfold rowMap pairRot
      have e0 : ¬ r = i := by omega
      simp only [e0, false_and, if_false]
    · rw [if_neg hri]
      by_cases e : r = i
      · subst e
        unfold rowMap pairRot
        have n1 : ¬ r = r - 1 := by omega
        by_cases q1 : q = r - 1
        · subst q1
          simp only [if_true, true_and, star_neg]
          linear_combination -hann
        · by_cases q2 : q = r
          · subst q2
            simp only [true_and, if_true, n1, if_false, star_neg, star_star]
            ring
          · simp only [true_and, q1, q2, if_false]
      · obtain ⟨z1, z2⟩ := hz r (by omega) hr
        unfold rowMap pairRot
        simp only [e, false_and, if_false]
        by_cases q1 : q = i - 1
        · subst q1; simp [z1, z2]
        · by_cases q2 : q = i
          · subst q2; simp [z1, z2, q1]
          · simp [q1, q2]
  · intro k hk
    show ν6 (cr.cell k) = _
    rw [h6.frame _ (ok.crA k hk), e4, if_neg (fun e => ok.crsr k hk ⟨i - 1, by omega, e.symm⟩)]
    by_cases e : k = i - 1
    · rw [if_pos (by rw [e]), if_pos e]
    · rw [if_neg (fun e' => e (ok.injc _ _ hk (by omega) e')), if_neg e]
      exact hs1.frame _ (ok.crA k hk)
  · intro k hk
    show ν6 (sr.cell k) = _
    rw [h6.frame _ (ok.srA k hk), e4]
    by_cases e : k = i - 1
    · rw [if_pos (by rw [e]), if_pos e]
    · rw [if_neg (fun e' => e (ok.injs _ _ hk (by omega) e')), if_neg e,
        if_neg (fun e' => ok.crsr (i - 1) (by omega) ⟨k, hk, e'⟩)]
      exact hs1.frame _ (ok.srA k hk)
  · intro l l1 l2 l3
    rw [h6.frame l l1, e4, if_neg (fun e => l3 ⟨i - 1, by omega, e.symm⟩),
      if_neg (fun e => l2 ⟨i - 1, by omega, e.symm⟩), hs1.frame l l1]

/-- Invariant of the main loop of hessenberg_rq: steps `n-1, …, i` have been done; `H` is the Hessenberg matrix. -/
structure HrqInv (A : MatV L) (cl sl cr sr : VecV L) (μ : Store L T) (H : Nat → Nat → T) (i : Nat)
    (ν : Store L T) (K : Nat → Nat → T) : Prop where
  eqn : mat A.n A.n K = mat A.n A.n H * (rotProd A.n (ventry ν cr) (ventry ν sr) (i - 1) (A.n - 1))ᴴ
  tri : ∀ r q, r < A.n → q < A.n → i - 1 ≤ q → q < r → K r q = 0
  low : ∀ r q, q + 1 < i → K r q = H r q
  rots : ∀ k, i - 1 ≤ k → k + 1 < A.n → IsRot (ventry ν cr k) (ventry ν sr k)
  aval : ∀ r q, r < A.n → q < A.n → ν (A.cell r q) = if q + 1 < i then entry μ A r q else K r q
  frame : ∀ l, ¬ A.Owns l → ¬ cr.Owns l → ¬ sr.Owns l → ν l = μ l

set_option maxHeartbeats 1000000 in
theorem wp_hessenbergRq {o : RotOps T} (ho : RotLaws o) {A : MatV L} {cl sl cr sr : VecV L}
    (ok : HrqOK A cl sl cr sr) {μ : Store L T}
    (ht : ∀ i j, i < A.n → j < A.n → j < i → entry μ A i j = 0) :
    wp (hessenbergRq o A cl sl cr sr) μ (fun _ ν =>
      mat A.n A.n (entry ν A) = rotProd A.n (ventry μ cl) (ventry μ sl) 0 (A.n - 1) * mat A.n A.n (entry μ A) *
        (rotProd A.n (ventry ν cr) (ventry ν sr) 0 (A.n - 1))ᴴ ∧
      (∀ i j, i < A.n → j < A.n → j < i → entry ν A i j = 0) ∧
      (∀ k, k < cr.n → IsRot (ventry ν cr k) (ventry ν sr k)) ∧
      ∀ l, ¬ A.Owns l → ¬ cr.Owns l → ¬ sr.Owns l → ν l = μ l) := by
  have hm := ok.sq
  have n1 := ok.lcl
  have n2 := ok.lsl
  have n3 := ok.lcr
  have n4 := ok.lsr
  unfold hessenbergRq
  rw [if_neg (by omega)]
  by_cases hn : A.n - 1 < 1
  · rw [if_pos hn]
    simp only [wp_pure]
    have : A.n - 1 = 0 := by omega
    rw [this, rotProd_self, rotProd_self]
    refine ⟨by simp, ht, fun k hk => by omega, fun _ _ _ _ => trivial⟩
  rw [if_neg hn]
  set n := A.n with hndef
  set c := ventry μ cl
  set s := ventry μ sl
  let H : Nat → Nat → T := colMap (rotsDn c s 0 (n - 1)) (fun r j => if r < n then entry μ A r j else 0)
  have hH : mat n n H = rotProd n c s 0 (n - 1) * mat n n (entry μ A) := by
    rw [show mat n n H = _ from mat_rotsDn c s (Or.inl (by omega)) _ (n - 1) 0 (by omega)]
    congr 1
    exact mat_ext_iff.2 fun i j hi hj => if_pos hi
  have hHq : ∀ q, q < n → q + 1 ≤ n - 1 → ∀ r, H r q = rotsDn c s 0 (q + 1) (fun r => if r < n then entry μ A r q else 0) r := by
    intro q hq hq1 r
    show rotsDn c s 0 (n - 1) _ r = _
    rw [rotsDn_short (by omega : q ≤ n - 1) ?_ hq1]
    intro r h1 h2
    beta_reduce
    rw [if_pos (by omega), ht r q (by omega) hq h1]
  have congrDn : ∀ k, k + 1 ≤ n → ∀ q r, r < n → rotsDn c s 0 k (entry μ A · q) r
      = rotsDn c s 0 k (fun r => if r < n then entry μ A r q else 0) r := by
    intro k hk q r hr
    have e1 := mat_rotsDn (n := n) (m := q + 1) c s (Or.inl hk) (entry μ A) k 0 (by omega)
    have e2 := mat_rotsDn (n := n) (m := q + 1) c s (Or.inl hk) (fun r j => if r < n then entry μ A r j else 0) k 0 (by omega)
    have : mat n (q + 1) (entry μ A) = mat n (q + 1) (fun r j => if r < n then entry μ A r j else 0) :=
      mat_ext_iff.2 fun i j hi hj => (if_pos hi).symm
    rw [this, ← e2] at e1
    exact mat_ext_iff.1 e1 r q hr (by omega)
  have hHz : ∀ q, q < n → ∀ r, r < n → q + 1 < r → H r q = 0 := by
    intro q hq r hr hqr
    rw [hHq q hq (by omega), rotsDn_above (by omega) (q + 1) 0 (by omega), if_pos hr, ht r q hr hq (by omega)]
  simp only [wp_bind]
  have b0 : MState A μ (entry μ A) μ := ⟨fun _ _ _ _ => rfl, fun _ _ => rfl⟩
  refine wp_conseq (wp_rsDown id b0 ok.inj ok.clA ok.slA (by omega) (by omega) (by omega) (by omega)) ?_
  intro _ ν0 h0
  have htop : ∀ l, ¬ A.Owns l → ν0 l = μ l := h0.frame
  refine wp_forDown_ (fun i ν => 1 ≤ i ∧ ∃ K, HrqInv A cl sl cr sr μ H i ν K) (by omega) ⟨by omega, H, ?_⟩ ?_ ?_
  · refine ⟨?_, ?_, fun _ _ _ => rfl, fun k h1 h2 => by omega, ?_, fun l h1 _ _ => htop l h1⟩
    · rw [rotProd_self]; simp
    · intro r q hr hq h1 h2; omega
    · intro r q hr hq
      rw [h0.val r q (by omega) hq]
      unfold colAt
      by_cases e : q = n - 1
      · rw [if_pos e, if_neg (by omega)]
        show rotsDn c s 0 (n - 1) (entry μ A · (n - 1)) r = rotsDn c s 0 (n - 1) _ r
        rw [congrDn (n - 1) (by omega) _ _ hr, e]
      · rw [if_neg e, if_pos (by omega)]
  · rintro i ν h1 h2 ⟨-, K, I⟩
    refine (fun h => h : wp _ _ _ → _) ?_
    simp only [wp_bind]
    have ecl : ∀ k, k < cl.n → ventry ν cl k = c k := fun k hk => I.frame _ (ok.clA k hk) (ok.clcr k hk) (ok.clsr k hk)
    have esl : ∀ k, k < sl.n → ventry ν sl k = s k := fun k hk => I.frame _ (ok.slA k hk) (ok.slcr k hk) (ok.slsr k hk)
    have b1 : MState A ν (entry ν A) ν := ⟨fun _ _ _ _ => rfl, fun _ _ => rfl⟩
    refine wp_conseq (wp_rsDown id b1 ok.inj ok.clA ok.slA (by omega : i + 1 ≤ A.m) (by omega : i - 1 < A.n)
      (by omega) (by omega)) ?_
    intro _ ν1 g1
    have hcol : ∀ r, r < n → rotsDn (ventry ν cl) (fun k => id (ventry ν sl k)) 0 i (entry ν A · (i - 1)) r = H r (i - 1) := by
      intro r hr
      rw [hHq (i - 1) (by omega) (by omega), show i - 1 + 1 = i by omega, ← congrDn i (by omega) _ _ hr]
      have e1 := mat_rotsDn (n := n) (m := n) (ventry ν cl) (ventry ν sl) (Or.inl (by omega : i + 1 ≤ n)) (entry ν A) i 0 (by omega)
      have e2 := mat_rotsDn (n := n) (m := n) c s (Or.inl (by omega : i + 1 ≤ n)) (fun r _ => entry μ A r (i - 1)) i 0 (by omega)
      rw [rotProd_congr (c' := c) (s' := s) i 0 (by omega) (fun k _ hk => ⟨ecl k (by omega), esl k (by omega)⟩)] at e1
      have f1 := congrFun (congrFun e1 ⟨r, hr⟩) ⟨i - 1, by omega⟩
      have f2 := congrFun (congrFun e2 ⟨r, hr⟩) ⟨i - 1, by omega⟩
      rw [Matrix.mul_apply] at f1 f2
      refine Eq.trans f1 (Eq.trans ?_ f2.symm)
      refine Finset.sum_congr rfl fun k _ => ?_
      congr 1
      show ν (A.cell k (i - 1)) = _
      rw [I.aval k (i - 1) k.2 (by omega), if_pos (by omega)]
      rfl
    have g1' : MState A ν (fun r q => if q + 1 < i then entry μ A r q else K r q) ν1 := by
      refine g1.congr fun r q hr hq => ?_
      unfold colAt
      by_cases e : q = i - 1
      · rw [if_pos e, if_neg (by omega), hcol r (by omega), I.low r q (by omega), e]
      · rw [if_neg e]
        show _ = ν (A.cell r q)
        rw [I.aval r q (by omega) hq]
        by_cases e2 : q + 1 < i
        · rw [if_pos e2, if_pos (by omega)]
        · rw [if_neg e2, if_neg (by omega)]
    refine wp_conseq (wp_hessRqStep ho ok h1 (by omega) g1' ?_) ?_
    · intro r hr hrm
      rw [if_neg (by omega), if_neg (by omega), I.low r (i - 1) (by omega)]
      exact ⟨hHz _ (by omega) r (by omega) (by omega), I.tri r i (by omega) (by omega) (by omega) hr⟩
    · rintro _ ν2 ⟨c', s', S⟩
      have ecr : ∀ k, i ≤ k → k < cr.n → ventry ν2 cr k = ventry ν cr k := by
        intro k hk hk2
        rw [S.cval k hk2, if_neg (by omega)]
        exact g1.frame _ (ok.crA k hk2)
      have esr : ∀ k, i ≤ k → k < sr.n → ventry ν2 sr k = ventry ν sr k := by
        intro k hk hk2
        rw [S.sval k hk2, if_neg (by omega)]
        exact g1.frame _ (ok.srA k hk2)
      have hc0 : ventry ν2 cr (i - 1) = c' := by rw [S.cval _ (by omega), if_pos rfl]
      have hs0 : ventry ν2 sr (i - 1) = s' := by rw [S.sval _ (by omega), if_pos rfl]
      refine ⟨h1, rowMap (pairRot (i - 1) i c' (star s')) K, ?_, ?_, ?_, ?_, ?_, ?_⟩
      · rw [mat_rowMap_rot (by omega) (by omega) (by omega), rotMat_transpose_star (by omega) S.rot.1, I.eqn,
          rotProd_bot _ _ (by omega : i - 1 < A.n - 1), conjTranspose_mul, hc0, hs0, Matrix.mul_assoc,
          show i - 1 + 1 = i by omega, show i + 1 - 1 = i by omega]
        rw [rotProd_congr (c' := ventry ν2 cr) (s' := ventry ν2 sr) (A.n - 1 - i) i (by omega)
          (fun k hk hk2 => ⟨(ecr k hk (by omega)).symm, (esr k hk (by omega)).symm⟩)]
      · intro r q hr hq h3 h4
        have ha := S.tri
        rw [if_neg (by omega), if_neg (by omega)] at ha
        unfold rowMap pairRot
        by_cases q1 : q = i - 1
        · rw [if_pos q1]
          by_cases hr' : r = i
          · subst hr'; linear_combination ha
          · rw [I.low r (i - 1) (by omega), hHz (i - 1) (by omega) r hr (by omega), I.tri r i hr (by omega) (by omega) (by omega)]
            ring
        · rw [if_neg q1]
          by_cases q2 : q = i
          · rw [if_pos q2, I.low r (i - 1) (by omega), hHz (i - 1) (by omega) r hr (by omega),
              I.tri r i hr (by omega) (by omega) (by omega)]
            ring
          · rw [if_neg q2]
            exact I.tri r q hr hq (by omega) h4
      · intro r q h3
        unfold rowMap pairRot
        rw [if_neg (by omega), if_neg (by omega)]
        exact I.low r q (by omega)
      · intro k hk hk2
        by_cases e : k = i - 1
        · rw [e, hc0, hs0]; exact S.rot
        · rw [ecr k (by omega) (by omega), esr k (by omega) (by omega)]
          exact I.rots k (by omega) hk2
      · intro r q hr hq
        rw [S.aval r q (by omega) hq]
        unfold rowMap pairRot
        by_cases q1 : q = i - 1
        · rw [if_pos q1, if_neg (by omega : ¬ q + 1 < i), if_pos q1]
          beta_reduce
          rw [if_neg (by omega), if_neg (by omega)]
        · by_cases q2 : q = i
          · rw [if_neg q1, if_pos q2, if_neg (by omega : ¬ q + 1 < i), if_neg q1, if_pos q2]
            beta_reduce
            rw [if_neg (by omega), if_neg (by omega)]
          · rw [if_neg q1, if_neg q2, if_neg q1, if_neg q2]
      · intro l l1 l2 l3
        rw [S.frame l l1 l2 l3, g1.frame l l1, I.frame l l1 l2 l3]
  · rintro ν ⟨-, K, I⟩
    have eA : mat n n (entry ν A) = mat n n K := mat_ext_iff.2 fun r q hr hq => by
      show ν (A.cell r q) = _
      rw [I.aval r q hr hq, if_neg (by omega)]
    refine ⟨?_, ?_, ?_, I.frame⟩
    · rw [eA, I.eqn, hH]
    · intro i j hi hj hij
      show ν (A.cell i j) = 0
      rw [I.aval i j hi hj, if_neg (by omega), I.tri i j hi hj (by omega) hij]
    · intro k hk
      exact I.rots k (by omega) (by omega)

end TLA
