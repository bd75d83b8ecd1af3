import Verif.Proofs.QrAlg

/-! geqr2, gelq2, geql2, gerq2 in exact arithmetic. -/

set_option linter.unusedSectionVars false
set_option linter.unusedTactic false
set_option linter.unreachableTactic false

namespace TLA
open Finset
variable {L 𝕜 : Type} [DecidableEq L] [RCLike 𝕜] [DecidableEq 𝕜] {p : HhPar}

/-- The transposed view. -/
def MatV.tr (A : MatV L) : MatV L := ⟨A.n, A.m, fun i j => A.cell j i⟩

theorem MatV.Inj.tr {A : MatV L} (h : A.Inj) : A.tr.Inj := fun i j i' j' hi hj hi' hj' e => by
  have := h j i j' i' hj hi hj' hi' e
  exact ⟨this.2, this.1⟩

theorem MatV.tr_owns {A : MatV L} {l : L} : A.tr.Owns l ↔ A.Owns l :=
  ⟨fun ⟨i, j, hi, hj, e⟩ => ⟨j, i, hj, hi, e⟩, fun ⟨i, j, hi, hj, e⟩ => ⟨j, i, hj, hi, e⟩⟩

/-- As stored (Columnwise) or conjugated (Rowwise). -/
def cj (store : StoreV) (z : 𝕜) : 𝕜 := if store = .Columnwise then z else star z

/-- The matrix being reduced, read from memory through its column view. -/
def LG (store : StoreV) (ν : Store L 𝕜) (B : MatV L) : Nat → Nat → 𝕜 := fun r c => cj store (entry ν B r c)

theorem cj_norm (store : StoreV) (z : 𝕜) : ‖cj store z‖ = ‖z‖ := by
  unfold cj; split
  · rfl
  · exact norm_star z

theorem wp_genCol (hl : HhLaws 𝕜 p) {dir : Direction} {store : StoreV} {B : MatV L} (hB : B.Inj)
    {r0 r1 c P : Nat} (h01 : r0 < r1) (h1 : r1 ≤ B.m) (hc : c < B.n) (hP : P = r0 + pidx dir (r1 - r0))
    {ν : Store L 𝕜} (hb : ∀ r, r0 ≤ r → r < r1 → ‖LG store ν B r c‖ ≤ p.tbig) :
    wp (larfgV (hhOps p) dir store (B.colv r0 r1 c)) ν (fun t ν' => OnlyV (B.colv r0 r1 c) ν ν' ∧
      ColStep B.m B.n P r0 r1 c 0 0 t (LG store ν B) (LG store ν' B)) := by
  have hvn : (B.colv r0 r1 c).n = r1 - r0 := rfl
  refine wp_conseq (wp_larfgV hl (hB.colv h1 hc) (by rw [hvn]; omega) (Or.inl fun i hi => ?_)) ?_
  · rw [hvn] at hi
    have := hb (r0 + skip dir i) (by omega) (by have := skip_lt (dir := dir) hi; omega)
    unfold LG at this
    rw [cj_norm] at this
    exact this
  rintro t ν' ⟨ho, hr⟩
  refine ⟨ho, ?_⟩
  rw [hvn] at hr
  have hR := reflRes_of (dir := dir) (show 0 < r1 - r0 by omega) hr
  have hp := pidx_lt (dir := dir) (show 0 < r1 - r0 by omega)
  -- the raw reflector vector
  obtain ⟨w, hw⟩ : ∃ w, w = hvec dir .Columnwise (r1 - r0) (ventry ν' (B.colv r0 r1 c)) := ⟨_, rfl⟩

  have hu : ∀ i, i < r1 - r0 → colU P r0 r1 c (LG store ν' B) (r0 + i) = cj store (w i) := by
    intro i hi
    unfold colU
    rw [hw]
    unfold hvec
    by_cases e : i = pidx dir (r1 - r0)
    · rw [if_pos (by omega), if_pos e]
      unfold cj; split <;> simp
    · rw [if_neg (by omega), if_neg e, if_pos (by omega)]
      rfl
  have hu0 : ∀ r, r < r0 ∨ r1 ≤ r → colU P r0 r1 c (LG store ν' B) r = 0 := by
    intro r hr
    unfold colU
    rw [if_neg (by omega), if_neg (by omega)]
  refine ⟨fun r c' hr hc' hn => ?_, ?_, fun r hr => ?_, ?_, fun r c' _ h2 h3 => by omega⟩
  · unfold LG
    rw [ho.outCol hB h1 hc hr hc' (by omega)]
  · rw [sum_embed h1 _ (fun s _ hs => by rw [hu0 s hs, zero_mul]), ← hR.unit]
    congr 1
    refine Finset.sum_congr rfl fun i hi => ?_
    rw [hu i (mem_range.1 hi), ← hw]
    unfold cj
    split
    · rfl
    · rw [star_star, mul_comm]
  · rw [sum_embed h1 _ (fun s _ hs => by rw [hu0 s hs, star_zero, zero_mul])]
    by_cases hin : r0 ≤ r ∧ r < r1
    · obtain ⟨i, rfl⟩ : ∃ i, r = r0 + i := ⟨r - r0, by omega⟩
      have hi : i < r1 - r0 := by omega
      have ha := hR.ann i hi
      rw [hu i hi]
      have e0 : LG store ν B (r0 + i) c = cj store (ventry ν (B.colv r0 r1 c) i) := rfl
      have eP : LG store ν' B P c = cj store (ventry ν' (B.colv r0 r1 c) (pidx dir (r1 - r0))) := by
        rw [hP]; rfl
      have es : ∑ s ∈ range (r1 - r0), star (colU P r0 r1 c (LG store ν' B) (r0 + s)) * LG store ν B (r0 + s) c =
          cj store (∑ s ∈ range (r1 - r0), star (w s) * ventry ν (B.colv r0 r1 c) s) := by
        have : ∀ s ∈ range (r1 - r0), star (colU P r0 r1 c (LG store ν' B) (r0 + s)) * LG store ν B (r0 + s) c =
            cj store (star (w s) * ventry ν (B.colv r0 r1 c) s) := by
          intro s hs
          rw [hu s (mem_range.1 hs)]
          unfold LG cj
          split
          · rfl
          · rw [star_mul', star_star]; rfl
        rw [Finset.sum_congr rfl this]
        unfold cj
        split
        · rfl
        · rw [star_sum]
      rw [es, e0, eP]
      rw [show (if r0 + i = P then cj store (ventry ν' (B.colv r0 r1 c) (pidx dir (r1 - r0)))
          else if r0 ≤ r0 + i ∧ r0 + i < r1 then 0 else cj store (ventry ν (B.colv r0 r1 c) i)) =
          cj store (if i = pidx dir (r1 - r0) then ventry ν' (B.colv r0 r1 c) (pidx dir (r1 - r0)) else 0) by
        by_cases e : i = pidx dir (r1 - r0)
        · rw [if_pos (by omega), if_pos e]
        · rw [if_neg (by omega), if_neg e, if_pos hin]
          unfold cj; split <;> simp, ← ha, ← hw]
      unfold cj adjTau
      cases store with
      | Columnwise => simp
      | Rowwise => simp only [reduceCtorEq, if_false, star_sub, star_mul']
    · rw [hu0 r (by omega), mul_zero, zero_mul, sub_zero, if_neg (by omega), if_neg hin]
  · have := hR.real
    have eP : LG store ν' B P c = cj store (ventry ν' (B.colv r0 r1 c) (pidx dir (r1 - r0))) := by
      rw [hP]; rfl
    rw [eP]
    unfold cj
    split
    · exact this
    · rw [this, this]

/-- Adding the application of the reflector to columns `c0..c1`. -/
theorem ColStep.extend {m n P r0 r1 c c0 c1 : Nat} {t : 𝕜} {G G1 G2 : Nat → Nat → 𝕜}
    (h : ColStep m n P r0 r1 c 0 0 t G G1) (h1 : r1 ≤ m) (hcn : c < n) (h2 : c1 ≤ n) (hc : c < c0 ∨ c1 ≤ c)
    (hP : r0 ≤ P ∧ P < r1)
    (hout : ∀ r c', r < m → c' < n → ¬ ((r0 ≤ r ∧ r < r1) ∧ (c0 ≤ c' ∧ c' < c1)) → G2 r c' = G1 r c')
    (hin : ∀ i j, i < r1 - r0 → j < c1 - c0 → G2 (r0 + i) (c0 + j) = G1 (r0 + i) (c0 + j) -
      star t * colU P r0 r1 c G1 (r0 + i) *
        ∑ s ∈ range (r1 - r0), star (colU P r0 r1 c G1 (r0 + s)) * G1 (r0 + s) (c0 + j)) :
    ColStep m n P r0 r1 c c0 c1 t G G2 := by
  have hu : ∀ r, r < m → colU P r0 r1 c G2 r = colU P r0 r1 c G1 r := by
    intro r hr
    unfold colU
    rw [hout r c hr hcn (by omega)]
  have hu0 : ∀ r, r < r0 ∨ r1 ≤ r → colU P r0 r1 c G1 r = 0 := by
    intro r hr
    unfold colU
    rw [if_neg (by omega), if_neg (by omega)]
  have h1' : ∀ r c', r < m → c' < n → c' ≠ c → G1 r c' = G r c' := fun r c' hr hc' hn =>
    h.same r c' hr hc' (by omega)
  have hs : ∀ f : Nat → 𝕜, ∑ r ∈ range m, star (colU P r0 r1 c G2 r) * f r =
      ∑ r ∈ range m, star (colU P r0 r1 c G1 r) * f r := fun f =>
    Finset.sum_congr rfl fun r hr => by rw [hu r (mem_range.1 hr)]
  refine ⟨fun r c' hr hc' hn => ?_, ?_, fun r hr => ?_, ?_, fun r c' hr hc0 hc1 => ?_⟩
  · rw [hout r c' hr hc' (by tauto), h.same r c' hr hc' (by omega)]
  · rw [← h.unit]
    congr 1
    exact Finset.sum_congr rfl fun r hr => by rw [hu r (mem_range.1 hr)]
  · rw [hs, hu r hr, h.ann r hr, hout P c (by omega) hcn (by omega)]
  · rw [hout P c (by omega) hcn (by omega)]
    exact h.real
  · unfold applyL
    rw [hs, hu r hr, sum_embed h1 _ (fun s _ hs => by rw [hu0 s hs, star_zero, zero_mul])]
    by_cases hr' : r0 ≤ r ∧ r < r1
    · have := hin (r - r0) (c' - c0) (by omega) (by omega)
      rw [show r0 + (r - r0) = r by omega, show c0 + (c' - c0) = c' by omega] at this
      rw [this, h1' r c' hr (by omega) (by omega)]
      congr 2
      refine Finset.sum_congr rfl fun s hs => ?_
      rw [h1' _ c' (by have := mem_range.1 hs; omega) (by omega) (by omega)]
    · rw [hu0 r (by omega), mul_zero, zero_mul, sub_zero, hout r c' hr (by omega) (by omega),
        h1' r c' hr (by omega) (by omega)]

theorem QrOK.tr {A : MatV L} {tau work : VecV L} (h : QrOK A tau work) : QrOK A.tr tau work :=
  ⟨h.inj.tr, h.tinj, h.winj, fun i j hi hj => h.At j i hj hi, fun i j hi hj => h.Aw j i hj hi, h.tw⟩

/-- State after the reflector has been generated and its factor stored. -/
structure QrMid (store : StoreV) (B : MatV L) (tau : VecV L) (P r0 r1 c i : Nat) (t : 𝕜) (ν ν2 : Store L 𝕜) : Prop where
  cs : ColStep B.m B.n P r0 r1 c 0 0 t (LG store ν B) (LG store ν2 B)
  ti : ventry ν2 tau i = t
  tn : ∀ j, j < tau.n → j ≠ i → ventry ν2 tau j = ventry ν tau j
  frame : ∀ l, ¬ B.Owns l → l ≠ tau.cell i → ν2 l = ν l

theorem LG_congr {store : StoreV} {B : MatV L} {ν ν' : Store L 𝕜} (h : ∀ l, B.Owns l → ν' l = ν l) {r c : Nat}
    (hr : r < B.m) (hc : c < B.n) : LG store ν' B r c = LG store ν B r c := by
  unfold LG entry; rw [h _ ⟨r, c, hr, hc, rfl⟩]

theorem ColStep.congr {m n P r0 r1 c c0 c1 : Nat} {t : 𝕜} {G G1 G2 : Nat → Nat → 𝕜}
    (h : ColStep m n P r0 r1 c c0 c1 t G G1) (h1 : r1 ≤ m) (hcn : c < n) (h2 : c1 ≤ n)
    (hP : r0 ≤ P ∧ P < r1) (he : ∀ r c', r < m → c' < n → G2 r c' = G1 r c') :
    ColStep m n P r0 r1 c c0 c1 t G G2 := by
  have hu : ∀ r, r < m → colU P r0 r1 c G2 r = colU P r0 r1 c G1 r := by
    intro r hr
    unfold colU
    rw [he r c hr hcn]
  have hs : ∀ f : Nat → 𝕜, ∑ r ∈ range m, star (colU P r0 r1 c G2 r) * f r =
      ∑ r ∈ range m, star (colU P r0 r1 c G1 r) * f r := fun f =>
    Finset.sum_congr rfl fun r hr => by rw [hu r (mem_range.1 hr)]
  refine ⟨fun r c' hr hc' hn => (he r c' hr hc').trans (h.same r c' hr hc' hn), ?_, fun r hr => ?_, ?_,
    fun r c' hr hc0 hc1 => ?_⟩
  · rw [← h.unit]
    congr 1
    exact Finset.sum_congr rfl fun r hr => by rw [hu r (mem_range.1 hr)]
  · rw [hs, hu r hr, h.ann r hr, he P c (by omega) hcn]
  · rw [he P c (by omega) hcn]; exact h.real
  · rw [he r c' hr (by omega), h.rest r c' hr hc0 hc1]
    unfold applyL
    rw [hs, hu r hr]

theorem wp_qrGen (hl : HhLaws 𝕜 p) {dir : Direction} {store : StoreV} {B : MatV L} {tau work : VecV L}
    (ok : QrOK B tau work) {r0 r1 c P i : Nat} (h01 : r0 < r1) (h1 : r1 ≤ B.m) (hc : c < B.n)
    (hP : P = r0 + pidx dir (r1 - r0)) (hi : i < tau.n)
    {ν : Store L 𝕜} (hb : ∀ r, r0 ≤ r → r < r1 → ‖LG store ν B r c‖ ≤ p.tbig)
    {Q : Store L 𝕜 → Prop} (hQ : ∀ t ν2, QrMid store B tau P r0 r1 c i t ν ν2 → Q ν2) :
    wp (larfgV (hhOps p) dir store (B.colv r0 r1 c)) ν (fun t ν1 => wp (tau.set i t) ν1 (fun _ ν2 => Q ν2)) := by
  refine wp_conseq (wp_genCol hl (p := p) ok.inj h01 h1 hc hP hb) ?_
  rintro t ν1 ⟨o, cs⟩
  rw [wp_vset]
  refine ⟨hi, hQ t _ ?_⟩
  have hp := pidx_lt (dir := dir) (show 0 < r1 - r0 by omega)
  have hnt : ∀ l, B.Owns l → upd ν1 (tau.cell i) t l = ν1 l := by
    rintro l ⟨r, c', hr, hc', rfl⟩
    unfold upd
    rw [if_neg (fun e => ok.At r c' hr hc' ⟨i, hi, e.symm⟩)]
  have hv : ∀ l, (B.colv r0 r1 c).Owns l → B.Owns l := fun l h => h.colv h1 hc
  have htB : ∀ j, j < tau.n → ¬ B.Owns (tau.cell j) := by
    rintro j hj ⟨r, c', hr, hc', e⟩
    exact ok.At r c' hr hc' ⟨j, hj, e.symm⟩
  refine ⟨cs.congr h1 hc (by omega) (by omega) (fun r c' hr hc' => LG_congr hnt hr hc'), by simp [ventry, upd],
    fun j hj hne => ?_, fun l h2 h3 => ?_⟩
  · unfold ventry upd
    rw [if_neg (fun e => hne (ok.tinj _ _ hj hi e))]
    exact o _ (fun h => htB j hj (hv _ h))
  · unfold upd
    rw [if_neg h3]
    exact o l (fun h => h2 (hv l h))

theorem hvec_colU {dir : Direction} {store : StoreV} {B : MatV L} {r0 r1 c P i : Nat} {ν : Store L 𝕜}
    (hP : P = r0 + pidx dir (r1 - r0)) (hi : i < r1 - r0) :
    hvec dir store (r1 - r0) (ventry ν (B.colv r0 r1 c)) i = colU P r0 r1 c (LG store ν B) (r0 + i) := by
  unfold hvec colU
  by_cases e : i = pidx dir (r1 - r0)
  · rw [if_pos e, if_pos (by omega)]
  · rw [if_neg e, if_neg (by omega), if_pos (by omega)]
    cases store <;> rfl

theorem colv_disj_sub {B : MatV L} (hB : B.Inj) {r0 r1 c c0 c1 : Nat} (h1 : r1 ≤ B.m) (hcn : c < B.n)
    (h2 : c1 ≤ B.n) (hc : c < c0 ∨ c1 ≤ c) : (B.colv r0 r1 c).DisjM (B.sub r0 r1 c0 c1) := by
  rintro i hi ⟨i', j', hi', hj', e⟩
  simp only [MatV.colv, MatV.sub] at hi hi' hj' e
  have := hB _ _ _ _ (by omega) (by omega) (by omega) hcn e
  omega

theorem wp_qrApplyL {dir : Direction} {B : MatV L} {tau work : VecV L}
    (ok : QrOK B tau work) {r0 r1 c c0 c1 P i : Nat} (h01 : r0 < r1) (h1 : r1 ≤ B.m) (hcn : c < B.n)
    (h2 : c1 ≤ B.n) (hc : c < c0 ∨ c1 ≤ c) (hP : P = r0 + pidx dir (r1 - r0))
    (hw : larfWorksize .Left (r1 - r0) (c1 - c0) ≤ work.n) {t : 𝕜} {ν ν2 : Store L 𝕜}
    (mid : QrMid .Columnwise B tau P r0 r1 c i t ν ν2) :
    wp (larf .Left dir .Columnwise (B.colv r0 r1 c) (star t) (B.sub r0 r1 c0 c1) work) ν2 (fun _ ν3 =>
      ColStep B.m B.n P r0 r1 c c0 c1 t (LG .Columnwise ν B) (LG .Columnwise ν3 B) ∧
      ∀ l, ¬ B.Owns l → ¬ work.Owns l → ν3 l = ν2 l) := by
  have hp := pidx_lt (dir := dir) (show 0 < r1 - r0 by omega)
  refine wp_conseq (wp_larf_left ⟨Or.inl rfl, by simp [MatV.colv, MatV.sub], ok.inj.sub h1 h2, ok.winj,
    colv_disj_sub ok.inj h1 hcn h2 hc, ?_, ?_, hw⟩) ?_
  · intro i hi ho
    simp only [MatV.colv] at hi ho
    exact ok.Aw _ _ (by omega) hcn ho
  · intro i j hi hj ho
    simp only [MatV.sub] at hi hj ho
    exact ok.Aw _ _ (by omega) (by omega) ho
  intro _ ν3 h3
  refine ⟨mid.cs.extend h1 hcn h2 hc (by omega) (fun r c' hr hc' hn => ?_) (fun i j hi hj => ?_), fun l hB hW =>
    h3.frame l (fun ho => hB (ho.sub h1 h2)) hW⟩
  · unfold LG entry
    rw [h3.frame _ ?_ (ok.Aw r c' hr hc')]
    rintro ⟨i', j', hi', hj', e⟩
    simp only [MatV.sub] at hi' hj' e
    have := ok.inj _ _ _ _ (by omega) (by omega) hr hc' e
    omega
  · have := h3.val i j hi hj
    unfold applyL at this
    rw [MatV.sub_m] at this
    rw [hvec_colU hP hi, Finset.sum_congr rfl (fun s hs => by rw [hvec_colU hP (mem_range.1 hs)])] at this
    exact this

theorem wp_qrApplyR {dir : Direction} {B : MatV L} {tau work : VecV L}
    (ok : QrOK B tau work) {r0 r1 c c0 c1 P i : Nat} (h01 : r0 < r1) (h1 : r1 ≤ B.m) (hcn : c < B.n)
    (h2 : c1 ≤ B.n) (hc : c < c0 ∨ c1 ≤ c) (hP : P = r0 + pidx dir (r1 - r0))
    (hw : larfWorksize .Right (c1 - c0) (r1 - r0) ≤ work.n) {t : 𝕜} {ν ν2 : Store L 𝕜}
    (mid : QrMid .Rowwise B tau P r0 r1 c i t ν ν2) :
    wp (larf .Right dir .Rowwise (B.colv r0 r1 c) t (B.tr.sub c0 c1 r0 r1) work) ν2 (fun _ ν3 =>
      ColStep B.m B.n P r0 r1 c c0 c1 t (LG .Rowwise ν B) (LG .Rowwise ν3 B) ∧
      ∀ l, ¬ B.Owns l → ¬ work.Owns l → ν3 l = ν2 l) := by
  have hp := pidx_lt (dir := dir) (show 0 < r1 - r0 by omega)
  refine wp_conseq (wp_larf_right ⟨Or.inr rfl, by simp [MatV.colv, MatV.sub], ok.inj.tr.sub h2 h1, ok.winj,
    ?_, ?_, ?_, hw⟩) ?_
  · rintro i hi ⟨i', j', hi', hj', e⟩
    exact colv_disj_sub ok.inj h1 hcn h2 hc i hi ⟨j', i', hj', hi', e⟩
  · intro i hi ho
    simp only [MatV.colv] at hi ho
    exact ok.Aw _ _ (by omega) hcn ho
  · intro i j hi hj ho
    simp only [MatV.sub, MatV.tr] at hi hj ho
    exact ok.Aw _ _ (by omega) (by omega) ho
  intro _ ν3 h3
  refine ⟨mid.cs.extend h1 hcn h2 hc (by omega) (fun r c' hr hc' hn => ?_) (fun i j hi hj => ?_), fun l hB hW =>
    h3.frame l (fun ho => hB (MatV.tr_owns.1 (ho.sub h2 h1))) hW⟩
  · unfold LG entry
    rw [h3.frame _ ?_ (ok.Aw r c' hr hc')]
    rintro ⟨i', j', hi', hj', e⟩
    simp only [MatV.sub, MatV.tr] at hi' hj' e
    have := ok.inj _ _ _ _ (by omega) (by omega) hr hc' e
    omega
  · have := h3.val j i hj hi
    unfold applyR at this
    rw [MatV.sub_n] at this
    have e : star (entry ν3 (B.tr.sub c0 c1 r0 r1) j i) = LG .Rowwise ν3 B (r0 + i) (c0 + j) := rfl
    rw [← e, this, star_sub, star_mul', star_mul', star_star, star_sum]
    rw [hvec_colU hP hi, Finset.sum_congr rfl (fun s hs => by rw [star_mul', hvec_colU hP (mem_range.1 hs)])]
    have e2 : star (entry ν2 (B.tr.sub c0 c1 r0 r1) j i) = LG .Rowwise ν2 B (r0 + i) (c0 + j) := rfl
    rw [e2]
    rw [mul_right_comm]
    congr 2
    refine Finset.sum_congr rfl fun s _ => ?_
    rw [mul_comm]
    rfl

/-- The loop invariant. -/
structure QrState (dir : Direction) (store : StoreV) (B : MatV L) (tau work : VecV L) (k : Nat) (μ : Store L 𝕜)
    (s : Nat) (ν : Store L 𝕜) : Prop where
  inv : QRInv dir B.m B.n k (LG store μ B) s (LG store ν B) (ventry ν tau)
  frame : ∀ l, ¬ B.Owns l → ¬ (tau.sub 0 k).Owns l → ¬ work.Owns l → ν l = μ l

theorem QrState.start {dir : Direction} {store : StoreV} {B : MatV L} {tau work : VecV L} {k : Nat} {μ : Store L 𝕜} :
    QrState dir store B tau work k μ 0 μ := ⟨QRInv.start _ _ _ _ _ _, fun _ _ _ _ => rfl⟩

/-- The slice parameters of step `s`. -/
structure QrPar (dir : Direction) (m n s P r0 r1 c c0 c1 : Nat) : Prop where
  P : P = if dir = .Forward then s else m - 1 - s
  r0 : r0 = if dir = .Forward then s else 0
  r1 : r1 = if dir = .Forward then m else m - s
  c : c = if dir = .Forward then s else n - 1 - s
  c0 : c0 = if dir = .Forward then s + 1 else 0
  c1 : c1 = if dir = .Forward then n else n - 1 - s

theorem QrState.next {dir : Direction} {store : StoreV} {B : MatV L} {tau work : VecV L} {k s : Nat}
    {μ ν ν2 ν3 : Store L 𝕜} {P r0 r1 c c0 c1 : Nat} {t : 𝕜} (h : QrState dir store B tau work k μ s ν)
    (ok : QrOK B tau work) (hs : s < k) (hm : k ≤ B.m) (hn : k ≤ B.n) (hk : k ≤ tau.n)
    (hp : QrPar dir B.m B.n s P r0 r1 c c0 c1)
    (mid : QrMid store B tau P r0 r1 c (qidx dir k s) t ν ν2)
    (cs : ColStep B.m B.n P r0 r1 c c0 c1 t (LG store ν B) (LG store ν3 B))
    (fr : ∀ l, ¬ B.Owns l → ¬ work.Owns l → ν3 l = ν2 l) : QrState dir store B tau work k μ (s + 1) ν3 := by
  have hq : qidx dir k s < k := by unfold qidx; split <;> omega
  have htB : ∀ j, j < tau.n → ¬ B.Owns (tau.cell j) := by
    rintro j hj ⟨r, c', hr, hc', e⟩
    exact ok.At r c' hr hc' ⟨j, hj, e.symm⟩
  have ht3 : ∀ j, j < tau.n → ventry ν3 tau j = ventry ν2 tau j := fun j hj =>
    fr _ (htB j hj) (ok.tw j hj)
  refine ⟨?_, fun l h1 h2 h3 => ?_⟩
  · obtain ⟨rfl, rfl, rfl, rfl, rfl, rfl⟩ := hp
    refine (h.inv.step hs hm hn cs).congr (by omega) hm hn (fun _ _ _ _ => rfl) (fun i hi => ?_)
    rw [ht3 i (by omega)]
    by_cases e : i = qidx dir k s
    · subst e; rw [mid.ti, Function.update_self]
    · rw [mid.tn i (by omega) e, Function.update_of_ne e]
  · rw [fr l h1 h3, mid.frame l h1 (fun e => h2 ⟨qidx dir k s, by simpa [VecV.sub] using hq, by simp [VecV.sub, e]⟩), h.frame l h1 h2 h3]

theorem QrState.tbig {dir : Direction} {store : StoreV} {B : MatV L} {tau work : VecV L} {k s : Nat}
    {μ ν : Store L 𝕜} {P r0 r1 c c0 c1 : Nat} (hl : HhLaws 𝕜 p) (h : QrState dir store B tau work k μ s ν)
    (hs : s < k) (hm : k ≤ B.m) (hn : k ≤ B.n)
    (hp : QrPar dir B.m B.n s P r0 r1 c c0 c1)
    (hb : ∀ c, c < B.n → ∑ r ∈ range B.m, ‖LG store μ B r c‖ ^ 2 ≤ p.tbig ^ 2) :
    ∀ r, r0 ≤ r → r < r1 → ‖LG store ν B r c‖ ≤ p.tbig := by
  intro r h0 h1
  have := hl.tbig_one
  obtain ⟨rfl, rfl, rfl, rfl, rfl, rfl⟩ := hp
  refine h.inv.bound ?_ (by linarith) (hb _ ?_) ?_ ?_
  · split <;> omega
  · split <;> omega
  · cases dir <;> simp at h1 ⊢ <;> omega
  · unfold qz
    cases dir <;> simp at h0 h1 ⊢ <;> omega

end TLA
