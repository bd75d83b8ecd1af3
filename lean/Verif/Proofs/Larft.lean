import Verif.Proofs.BlkAlg
import Verif.Proofs.Tri2
import Verif.SpecBlk

/-! larft in exact arithmetic. -/

set_option linter.unusedSectionVars false
set_option linter.unusedTactic false
set_option linter.unreachableTactic false

namespace TLA
open Finset
variable {L 𝕜 : Type} [DecidableEq L] [RCLike 𝕜] [DecidableEq 𝕜] {p : HhPar}

/-- The stored entry `s` of vector `b`. -/
def wF (store : StoreV) (V : Nat → Nat → 𝕜) (b s : Nat) : 𝕜 := match store with
  | .Columnwise => V s b
  | .Rowwise => star (V b s)

theorem houseVec_piv {dir : Direction} {store : StoreV} {q k : Nat} {V : Nat → Nat → 𝕜} {b s : Nat}
    (h : s = hpiv dir q k b) : houseVec dir store q k V b s = 1 := if_pos h

theorem houseVec_zero {dir : Direction} {store : StoreV} {q k : Nat} {V : Nat → Nat → 𝕜} {b s : Nat}
    (h : if dir = .Forward then s < hpiv dir q k b else hpiv dir q k b < s) : houseVec dir store q k V b s = 0 := by
  unfold houseVec
  rw [if_neg (by split at h <;> omega), if_pos h]

theorem houseVec_in {dir : Direction} {store : StoreV} {q k : Nat} {V : Nat → Nat → 𝕜} {b s : Nat}
    (h : if dir = .Forward then hpiv dir q k b < s else s < hpiv dir q k b) :
    houseVec dir store q k V b s = wF store V b s := by
  unfold houseVec wF
  rw [if_neg (by split at h <;> omega), if_neg (by split at h <;> split <;> first | omega | simp_all)]
  cases store <;> rfl

theorem gram_fwd {store : StoreV} {q k : Nat} {V : Nat → Nat → 𝕜} {b i : Nat} (hb : b < i) (hi : i < q) :
    gramF q (houseVec .Forward store q k V) b i = star (wF store V b i) +
      ∑ l ∈ range (q - (i + 1)), star (wF store V b (i + 1 + l)) * wF store V i (i + 1 + l) := by
  unfold gramF
  have e : q = (i + 1) + (q - (i + 1)) := by omega
  have h0 : ∑ s ∈ range q, star (houseVec .Forward store q k V b s) * houseVec .Forward store q k V i s
      = ∑ s ∈ range ((i + 1) + (q - (i + 1))), star (houseVec .Forward store q k V b s) * houseVec .Forward store q k V i s := by
    rw [← e]
  rw [h0, Finset.sum_range_add, Finset.sum_range_succ, Finset.sum_eq_zero (fun s hs => ?_), zero_add]
  · congr 1
    · rw [houseVec_in (by simp [hpiv]; omega), houseVec_piv (by simp [hpiv]), mul_one]
    · refine Finset.sum_congr rfl fun s _ => ?_
      rw [houseVec_in (by simp [hpiv]; omega), houseVec_in (by simp [hpiv]; omega)]
  · have := mem_range.1 hs
    rw [houseVec_zero (b := i) (by simp [hpiv]; omega), mul_zero]

theorem gram_bwd {store : StoreV} {q k : Nat} {V : Nat → Nat → 𝕜} {b i : Nat} (hb : i < b) (hk : b < k) (hi : k ≤ q) :
    gramF q (houseVec .Backward store q k V) b i = star (wF store V b (q - k + i)) +
      ∑ l ∈ range (q - k + i), star (wF store V b l) * wF store V i l := by
  unfold gramF
  have e : q = (q - k + i + 1) + (q - (q - k + i + 1)) := by omega
  have h0 : ∑ s ∈ range q, star (houseVec .Backward store q k V b s) * houseVec .Backward store q k V i s
      = ∑ s ∈ range ((q - k + i + 1) + (q - (q - k + i + 1))), star (houseVec .Backward store q k V b s) * houseVec .Backward store q k V i s := by
    rw [← e]
  rw [h0, Finset.sum_range_add, Finset.sum_range_succ,
    Finset.sum_eq_zero (s := range (q - (q - k + i + 1))) (fun s hs => ?_), add_zero, add_comm]
  · congr 1
    · rw [houseVec_in (by simp [hpiv]; omega), houseVec_piv (by simp [hpiv]), mul_one]
    · refine Finset.sum_congr rfl fun s hs => ?_
      have := mem_range.1 hs
      rw [houseVec_in (by simp [hpiv]; omega), houseVec_in (by simp [hpiv]; omega)]
  · rw [houseVec_zero (b := i) (by simp [hpiv]; omega), mul_zero]

/-- The initial values: a vector loop followed by an update of all of them. -/
theorem wp_larftInit {t : VecV L} {len : Nat} (hinj : t.Inj) (hn : t.n = len) {f : Nat → M L 𝕜 Unit} {v : Nat → 𝕜}
    {ν : Store L 𝕜} (hb : ∀ j ν1, j < len → OnlyV t ν ν1 → wp (f j) ν1 (fun _ ν' => ν' = upd ν1 (t.cell j) (v j))) :
    wp (forUp_ 0 len f) ν (fun _ ν' => OnlyV t ν ν' ∧ ∀ j, j < len → ventry ν' t j = v j) := by
  refine wp_conseq (wp_vecLoop v (VState.start t ν) hinj (by omega) (by omega)
    (fun j ν1 _ hj h1 => hb j ν1 hj h1.frame)) ?_
  intro _ ν1 h1
  refine ⟨h1.frame, fun j hj => ?_⟩
  have := h1.val j (by omega)
  rw [if_pos (by omega)] at this
  exact this

theorem MatV.Disj.colv_right {A B : MatV L} (h : A.Disj B) {r0 r1 c : Nat} (hr : r1 ≤ B.m) (hc : c < B.n) :
    A.DisjV (B.colv r0 r1 c) := fun i j hi hj ho => h i j hi hj (ho.colv hr hc)

theorem MatV.DisjV.rows {A : MatV L} {x : VecV L} (h : A.DisjV x) {r0 r1 c0 c1 : Nat} (hr : r1 ≤ A.m) (hc : c1 ≤ A.n) :
    (A.sub r0 r1 c0 c1).DisjV x := by
  intro i j hi hj
  simp only [MatV.sub] at hi hj
  exact h _ _ (by omega) (by omega)

theorem MatV.DisjV.col {A : MatV L} {x : VecV L} (h : A.DisjV x) {r0 r1 c : Nat} (hr : r1 ≤ A.m) (hc : c < A.n) :
    (A.colv r0 r1 c).Disj x := by
  intro i hi
  simp only [MatV.colv] at hi
  exact h _ _ (by omega) hc

/-- The operands larft really needs: a `tau` that shares memory with the triangular factor may only do so with the
diagonal, entry by entry. -/
structure LarftW (store : StoreV) (V : MatV L) (tau : VecV L) (Tm : MatV L) : Prop where
  inj : Tm.Inj
  VT : V.Disj Tm
  tT : ∀ i a b, i < tau.n → a < Tm.m → b < Tm.n → Tm.cell a b = tau.cell i → a = i ∧ b = i
  kc : tau.n ≤ vcnt store V
  kq : tau.n ≤ vlen store V
  km : tau.n ≤ Tm.m
  kn : tau.n ≤ Tm.n

theorem LarftOK.weak {store : StoreV} {V : MatV L} {tau : VecV L} {Tm : MatV L} (ok : LarftOK store V tau Tm) :
    LarftW store V tau Tm :=
  ⟨ok.inj, ok.VT, fun i a b hi ha hb e => (ok.tT i hi ⟨a, b, ha, hb, e⟩).elim, ok.kc, ok.kq, ok.km, ok.kn⟩

/-- The column `t := -tau_i V^H v_i`, for the four cases: first the pivot row, then the rest. -/
theorem wp_larftVec {dir : Direction} {store : StoreV} {V : MatV L} {tau : VecV L} {Tm : MatV L}
    (ok : LarftW store V tau Tm) {i : Nat} (hi : i < tau.n) {ti : 𝕜} {μ ν : Store L 𝕜}
    (hV : ∀ r c, r < V.m → c < V.n → entry ν V r c = entry μ V r c) {b0 len : Nat}
    (hb : b0 = if dir = .Forward then 0 else i + 1) (hlen : len = if dir = .Forward then i else tau.n - i - 1) :
    wp (match store with
      | .Columnwise => (do
        forUp_ 0 len fun j => do
          let v ← V.get (hpiv dir (vlen store V) tau.n i) (j + b0)
          (Tm.colv b0 (b0 + len) i).set j (-ti * star v)
        if dir = .Forward then larftGemvC V ti (vlen store V) i (Tm.colv b0 (b0 + len) i) else do
          let V0 ← V.slice 0 (vlen store V - tau.n + i) (i + 1) tau.n
          let vi ← V.sliceCol 0 (vlen store V - tau.n + i) i
          gemv .ConjTrans (-ti) V0 vi (.val 1) (Tm.colv b0 (b0 + len) i) : M L 𝕜 Unit)
      | .Rowwise => (do
        forUp_ 0 len fun j => do
          let v ← V.get (j + b0) (hpiv dir (vlen store V) tau.n i)
          (Tm.colv b0 (b0 + len) i).set j (-ti * v)
        if dir = .Forward then larftGemmR V ti (vlen store V) i Tm else do
          let Ti ← Tm.slice (i + 1) tau.n i (i + 1)
          let V0 ← V.slice (i + 1) tau.n 0 (vlen store V - tau.n + i)
          let vi ← V.slice i (i + 1) 0 (vlen store V - tau.n + i)
          gemm .NoTrans .ConjTrans (-ti) V0 vi (.val 1) Ti : M L 𝕜 Unit)) ν (fun _ ν' =>
      OnlyV (Tm.colv b0 (b0 + len) i) ν ν' ∧ ∀ j, j < len → ventry ν' (Tm.colv b0 (b0 + len) i) j =
        -ti * gramF (vlen store V) (houseVec dir store (vlen store V) tau.n (entry μ V)) (b0 + j) i) := by
  have hkc := ok.kc
  have hkq := ok.kq
  have hkm := ok.km
  have hkn := ok.kn
  obtain ⟨q, hq⟩ : ∃ q, q = vlen store V := ⟨_, rfl⟩
  rw [← hq] at hkq ⊢
  have hle : b0 + len ≤ tau.n := by rw [hb, hlen]; split <;> omega
  have htinj : (Tm.colv b0 (b0 + len) i).Inj := ok.inj.colv (by omega) (by omega)
  have hVt : V.DisjV (Tm.colv b0 (b0 + len) i) := ok.VT.colv_right (by omega) (by omega)
  have hVk : ∀ {ν1 : Store L 𝕜}, OnlyV (Tm.colv b0 (b0 + len) i) ν ν1 → ∀ r c, r < V.m → c < V.n →
      entry ν1 V r c = entry μ V r c := fun o r c hr hc =>
    (o _ (hVt r c hr hc)).trans (hV r c hr hc)
  obtain ⟨tv, htv⟩ : ∃ tv, tv = Tm.colv b0 (b0 + len) i := ⟨_, rfl⟩
  have htn : tv.n = len := by rw [htv]; simp [MatV.colv]
  have hP : hpiv dir q tau.n i < q := by unfold hpiv; split <;> omega
  cases store with
  | Columnwise =>
    simp only [wp_bind]
    have hqe : V.m = q := by rw [hq]; rfl
    have hce : tau.n ≤ V.n := hkc
    rw [← htv] at htinj hVt hVk ⊢
    refine wp_conseq (wp_larftInit htinj htn (v := fun j => -ti * star (entry μ V (hpiv dir q tau.n i) (j + b0)))
      (fun j ν1 hj o => ?_)) ?_
    · simp only [wp_bind, wp_get, wp_vset]
      refine ⟨⟨by omega, by omega⟩, by omega, ?_⟩
      rw [← hVk o _ _ (by omega) (by omega)]; rfl
    rintro _ ν1 ⟨o, hv⟩
    cases dir with
    | Forward =>
      simp only [if_true] at hb hlen ⊢
      have hlen' := hlen.symm
      subst hb hlen'
      unfold larftGemvC
      have hpe : hpiv .Forward q tau.n i = i := rfl
      rw [hpe] at hv
      by_cases hc : i + 1 < q
      · rw [if_pos hc]
        simp only [wp_bind]
        refine wp_slice (by omega) (by omega) (by omega) (by omega) ?_
        refine wp_sliceCol (by omega) (by omega) (by omega) ?_
        refine wp_conseq (wp_gemv_e (m := i) (n := q - (i + 1)) ⟨by simp [MatV.sub], by simp [MatV.sub],
          by simp [MatV.colv], htn, htinj, hVt.rows (by omega) (by omega), hVt.col (by omega) (by omega)⟩
          (Or.inr rfl)) ?_
        rintro _ ν2 ⟨o2, h2⟩
        refine ⟨fun l hl => (o2 l hl).trans (o l hl), fun j hj => ?_⟩
        rw [h2 j (by omega), hv j hj, gram_fwd (by omega) (by omega)]
        have e : ∀ l ∈ range (q - (i + 1)), opF .ConjTrans (entry ν1 (V.sub (i + 1) q 0 i)) j l *
            ventry ν1 (V.colv (i + 1) q i) l = star (wF .Columnwise (entry μ V) (0 + j) (i + 1 + l)) *
              wF .Columnwise (entry μ V) i (i + 1 + l) := by
          intro l hl
          have := mem_range.1 hl
          unfold wF opF
          rw [← hVk o _ _ (by omega) (by omega), ← hVk o (i + 1 + l) i (by omega) (by omega)]
          rfl
        rw [Finset.sum_congr rfl e]
        show -ti * _ + 1 * _ = _
        simp only [wF, Nat.add_zero, Nat.zero_add]
        ring
      · rw [if_neg hc]
        refine ⟨o, fun j hj => ?_⟩
        rw [hv j hj, gram_fwd (by omega) (by omega), show q - (i + 1) = 0 by omega]
        simp [wF]
    | Backward =>
      simp only [reduceCtorEq, if_false] at hb hlen ⊢
      have hpe : hpiv .Backward q tau.n i = q - tau.n + i := rfl
      rw [hpe] at hv
      subst hb
      simp only [wp_bind]
      refine wp_slice (by omega) (by omega) (by omega) (by omega) ?_
      refine wp_sliceCol (by omega) (by omega) (by omega) ?_
      refine wp_conseq (wp_gemv_e (m := len) (n := q - tau.n + i) ⟨by simp [MatV.sub]; omega, by simp [MatV.sub],
        by simp [MatV.colv], htn, htinj, hVt.rows (by omega) (by omega), hVt.col (by omega) (by omega)⟩
        (Or.inr rfl)) ?_
      rintro _ ν2 ⟨o2, h2⟩
      refine ⟨fun l hl => (o2 l hl).trans (o l hl), fun j hj => ?_⟩
      rw [h2 j (by omega), hv j hj, gram_bwd (by omega) (by omega) (by omega)]
      have e : ∀ l ∈ range (q - tau.n + i), opF .ConjTrans (entry ν1 (V.sub 0 (q - tau.n + i) (i + 1) tau.n)) j l *
          ventry ν1 (V.colv 0 (q - tau.n + i) i) l = star (wF .Columnwise (entry μ V) (i + 1 + j) l) *
            wF .Columnwise (entry μ V) i l := by
        intro l hl
        have := mem_range.1 hl
        unfold wF opF
        rw [← hVk o _ _ (by omega) (by omega), ← hVk o l i (by omega) (by omega)]
        show star (ν1 (V.cell (0 + l) (i + 1 + j))) * ν1 (V.cell (0 + l) i) = _
        rw [Nat.zero_add]; rfl
      rw [Finset.sum_congr rfl e]
      show -ti * _ + 1 * _ = _
      simp only [wF, Nat.add_comm j]
      ring
  | Rowwise =>
    simp only [wp_bind]
    have hqe : V.n = q := by rw [hq]; rfl
    have hce : tau.n ≤ V.m := hkc
    rw [← htv] at htinj hVt hVk ⊢
    refine wp_conseq (wp_larftInit htinj htn (v := fun j => -ti * entry μ V (j + b0) (hpiv dir q tau.n i))
      (fun j ν1 hj o => ?_)) ?_
    · simp only [wp_bind, wp_get, wp_vset]
      refine ⟨⟨by omega, by omega⟩, by omega, ?_⟩
      rw [← hVk o _ _ (by omega) (by omega)]; rfl
    rintro _ ν1 ⟨o, hv⟩
    have key : ∀ {c0 c1 : Nat}, c1 ≤ q → c0 ≤ c1 → (∀ j, j < len →
        gramF q (houseVec dir .Rowwise q tau.n (entry μ V)) (b0 + j) i =
          entry μ V (j + b0) (hpiv dir q tau.n i) + ∑ l ∈ range (c1 - c0),
            entry μ V (b0 + j) (c0 + l) * star (entry μ V i (c0 + l))) →
        wp (gemm .NoTrans .ConjTrans (-ti) (V.sub b0 (b0 + len) c0 c1) (V.sub i (i + 1) c0 c1) (.val 1)
          (Tm.sub b0 (b0 + len) i (i + 1))) ν1 (fun _ ν' => OnlyV tv ν ν' ∧ ∀ j, j < len → ventry ν' tv j =
            -ti * gramF q (houseVec dir .Rowwise q tau.n (entry μ V)) (b0 + j) i) := by
      intro c0 c1 hc1 hc01 hg
      refine wp_conseq (wp_gemm_e (m := len) (n := 1) (k := c1 - c0) ⟨by simp, by simp, by simp [MatV.sub],
        by simp [MatV.sub], by simp [MatV.sub], by simp [MatV.sub], by simp [MatV.sub], by simp [MatV.sub],
        ok.inj.sub (by omega) (by omega), ?_, ?_⟩) ?_
      · exact (ok.VT.sub_left (by omega) (by omega)).sub_right (by omega) (by omega)
      · exact (ok.VT.sub_left (by omega) (by omega)).sub_right (by omega) (by omega)
      rintro _ ν2 ⟨o2, h2⟩
      refine ⟨fun l hl => (o2 l ?_).trans (o l hl), fun j hj => ?_⟩
      · rintro ⟨i', j', hi', hj', e⟩
        simp only [MatV.sub] at hi' hj' e
        refine hl ⟨i', by omega, ?_⟩
        rw [htv]
        show Tm.cell (b0 + i') i = l
        rw [← e]; congr 1; omega
      · have := h2 j 0 (by simp [MatV.sub]; exact hj) (by simp [MatV.sub])
        have e0 : ventry ν2 tv j = entry ν2 (Tm.sub b0 (b0 + len) i (i + 1)) j 0 := by rw [htv]; rfl
        have e1 : entry ν1 (Tm.sub b0 (b0 + len) i (i + 1)) j 0 = ventry ν1 tv j := by rw [htv]; rfl
        rw [e0, this, e1, hv j hj, hg j hj]
        have e : ∀ l ∈ range (c1 - c0), opF .NoTrans (entry ν1 (V.sub b0 (b0 + len) c0 c1)) j l *
            opF .ConjTrans (entry ν1 (V.sub i (i + 1) c0 c1)) l 0 =
              entry μ V (b0 + j) (c0 + l) * star (entry μ V i (c0 + l)) := by
          intro l hl
          have := mem_range.1 hl
          unfold opF
          rw [← hVk o (b0 + j) (c0 + l) (by omega) (by omega), ← hVk o i (c0 + l) (by omega) (by omega)]
          rfl
        rw [Finset.sum_congr rfl e]
        show -ti * _ + 1 * _ = _
        ring
    cases dir with
    | Forward =>
      simp only [if_true] at hb hlen key ⊢
      have hlen' := hlen.symm
      subst hb hlen'
      unfold larftGemmR
      by_cases hc : i + 1 < q
      · rw [if_pos hc]
        simp only [wp_bind]
        refine wp_slice (by omega) (by omega) (by omega) (by omega) ?_
        refine wp_slice (by omega) (by omega) (by omega) (by omega) ?_
        refine wp_slice (by omega) (by omega) (by omega) (by omega) ?_
        simp only [Nat.zero_add] at key ⊢
        refine key (c0 := i + 1) le_rfl (by omega) (fun j hj => ?_)
        rw [gram_fwd (by omega) (by omega)]
        simp only [wF, star_star]
        rfl
      · rw [if_neg hc]
        refine ⟨o, fun j hj => ?_⟩
        rw [hv j hj, gram_fwd (by omega) (by omega), show q - (i + 1) = 0 by omega]
        simp [wF, hpiv]
    | Backward =>
      simp only [reduceCtorEq, if_false] at hb hlen key ⊢
      subst hb
      simp only [wp_bind]
      refine wp_slice (by omega) (by omega) (by omega) (by omega) ?_
      refine wp_slice (by omega) (by omega) (by omega) (by omega) ?_
      refine wp_slice (by omega) (by omega) (by omega) (by omega) ?_
      rw [show i + 1 + len = tau.n by omega] at key
      refine key (by omega) (by omega) (fun j hj => ?_)
      rw [gram_bwd (by omega) (by omega) (by omega)]
      simp only [wF, star_star, Nat.zero_add, Nat.sub_zero, Nat.add_comm j]
      rfl

/-- The part of the factor computed so far: the reflectors `lo..hi`. -/
structure TInv (dir : Direction) (k : Nat) (g : Nat → Nat → 𝕜) (t : Nat → 𝕜) (Tm : MatV L) (lo hi : Nat)
    (μ ν : Store L 𝕜) : Prop where
  diag : ∀ i, lo ≤ i → i < hi → entry ν Tm i i = t i
  off : ∀ i a, lo ≤ i → i < hi → lo ≤ a → a < hi → a ∈ bset dir k i → entry ν Tm a i = -t i *
    ∑ b ∈ bset dir k i, triF (duplo dir) .NonUnit (entry ν Tm) a b * g b i
  frame : ∀ l, (∀ a b, a < k → b < k → inTri (duplo dir) a b → Tm.cell a b ≠ l) → ν l = μ l

theorem TInv.trel {dir : Direction} {k : Nat} {g : Nat → Nat → 𝕜} {t : Nat → 𝕜} {Tm : MatV L} {μ ν : Store L 𝕜}
    (h : TInv dir k g t Tm 0 k μ ν) : TRel dir k g t (triF (duplo dir) .NonUnit (entry ν Tm)) := by
  have hlt : ∀ i b, i < k → b ∈ bset dir k i → b < k := by
    intro i b hi hb
    unfold bset at hb
    split at hb <;> simp at hb <;> omega
  refine ⟨fun i hi => ?_, fun i b hi hb => ?_, fun i a hi ha => ?_⟩
  · unfold triF; rw [if_pos rfl]; exact h.diag i (by omega) hi
  · unfold triF bset duplo at *
    cases dir with
    | Forward =>
      simp only [if_true, mem_range] at hb ⊢
      rw [if_neg (by omega), if_neg (by simp only [inTri]; omega)]
    | Backward =>
      simp only [reduceCtorEq, if_false, mem_Ico] at hb ⊢
      rw [if_neg (by omega), if_neg (by simp only [inTri]; omega)]
  · rw [← h.off i a (by omega) hi (by omega) (hlt i a hi ha) ha]
    unfold triF bset duplo at *
    cases dir with
    | Forward =>
      simp only [if_true, mem_range] at ha ⊢
      rw [if_neg (by omega), if_pos (by simp only [inTri]; omega)]
    | Backward =>
      simp only [reduceCtorEq, if_false, mem_Ico] at ha ⊢
      rw [if_neg (by omega), if_pos (by simp only [inTri]; omega)]

/-- One step of the loop. -/
theorem TInv.step {dir : Direction} {k : Nat} {g : Nat → Nat → 𝕜} {t : Nat → 𝕜} {Tm : MatV L} {i : Nat}
    {μ ν ν1 : Store L 𝕜} (hT : Tm.Inj) (hm : k ≤ Tm.m) (hn : k ≤ Tm.n) (hi : i < k)
    (h : TInv dir k g t Tm (if dir = .Forward then 0 else i + 1) (if dir = .Forward then i else k) μ ν)
    {b0 len : Nat} (hb : b0 = if dir = .Forward then 0 else i + 1)
    (hlen : len = if dir = .Forward then i else k - i - 1)
    (o : OnlyV (Tm.colv b0 (b0 + len) i) ν ν1)
    (hv : ∀ j, j < len → ventry ν1 (Tm.colv b0 (b0 + len) i) j = -t i *
      ∑ b ∈ bset dir k i, triF (duplo dir) .NonUnit (entry ν Tm) (b0 + j) b * g b i) :
    TInv dir k g t Tm (if dir = .Forward then 0 else i) (if dir = .Forward then i + 1 else k) μ
      (upd ν1 (Tm.cell i i) (t i)) := by
  have hle : b0 + len ≤ k := by rw [hb, hlen]; split <;> omega
  have hmem : ∀ b, b ∈ bset dir k i ↔ b0 ≤ b ∧ b < b0 + len := by
    intro b
    unfold bset
    rw [hb, hlen]
    cases dir <;> simp <;> omega
  -- entries away from the column
  have hout : ∀ a c, a < k → c < k → c ≠ i → entry (upd ν1 (Tm.cell i i) (t i)) Tm a c = entry ν Tm a c := by
    intro a c ha hc hne
    rw [upd_out hT (by omega) (by omega) (by omega) (by omega) (Or.inr hne),
      o.outCol hT (by omega) (by omega) (by omega) (by omega) (Or.inr (Or.inr hne))]
  have hin : ∀ a, b0 ≤ a → a < b0 + len → entry (upd ν1 (Tm.cell i i) (t i)) Tm a i = -t i *
      ∑ b ∈ bset dir k i, triF (duplo dir) .NonUnit (entry ν Tm) a b * g b i := by
    intro a h1 h2
    have hne : a ≠ i := by rw [hb] at h1; rw [hb, hlen] at h2; cases dir <;> simp at h1 h2 <;> omega
    rw [upd_out hT (by omega) (by omega) (by omega) (by omega) (Or.inl hne)]
    have := hv (a - b0) (by omega)
    rw [show b0 + (a - b0) = a by omega] at this
    rw [← this]
    show ν1 _ = ν1 (Tm.cell (b0 + (a - b0)) i)
    rw [show b0 + (a - b0) = a by omega]
  have htri : ∀ a b, a < k → b < k → b ≠ i → triF (duplo dir) .NonUnit (entry (upd ν1 (Tm.cell i i) (t i)) Tm) a b =
      triF (duplo dir) .NonUnit (entry ν Tm) a b := by
    intro a b ha hb hne
    unfold triF
    rw [hout a b ha hb hne]
    by_cases e : a = b
    · subst e; rw [if_pos rfl, if_pos rfl]; exact hout a a ha ha hne
    · rw [if_neg e, if_neg e]
  refine ⟨fun j h1 h2 => ?_, fun j a h1 h2 h3 h4 ha => ?_, fun l hl => ?_⟩
  · by_cases e : j = i
    · subst e; exact upd_in
    · have hj : j < k := by split at h2 <;> omega
      rw [hout j j hj hj e]
      refine h.diag j ?_ ?_
      · cases dir <;> simp at h1 ⊢ <;> omega
      · cases dir <;> simp at h2 ⊢ <;> omega
  · have hj : j < k := by split at h2 <;> omega
    have hak : a < k := by split at h4 <;> omega
    by_cases e : j = i
    · subst e
      obtain ⟨h5, h6⟩ := (hmem a).1 ha
      rw [hin a h5 h6]
      congr 1
      refine Finset.sum_congr rfl fun b hb' => ?_
      obtain ⟨h7, h8⟩ := (hmem b).1 hb'
      rw [htri a b hak (by omega) (by rw [hb] at h7; rw [hb, hlen] at h8; cases dir <;> simp at h7 h8 <;> omega)]
    · have hai : a ≠ i := by
        unfold bset at ha
        cases dir <;> simp at h1 h2 ha <;> omega
      rw [hout a j hak hj e, h.off j a (by cases dir <;> simp at h1 ⊢ <;> omega)
        (by cases dir <;> simp at h2 ⊢ <;> omega) (by cases dir <;> simp at h3 ⊢ <;> omega)
        (by cases dir <;> simp at h4 ⊢ <;> omega) ha]
      congr 1
      refine Finset.sum_congr rfl fun b hb' => ?_
      have : b < k ∧ b ≠ i := by
        unfold bset at hb'
        cases dir <;> simp at h1 h2 hb' <;> omega
      rw [htri a b hak this.1 this.2]
  · have htr : ∀ a, b0 ≤ a → a < b0 + len → inTri (duplo dir) a i := by
      intro a h1 h2
      unfold duplo
      rw [hb] at h1; rw [hb, hlen] at h2
      cases dir <;> simp at h1 h2 ⊢ <;> simp only [inTri] <;> omega
    unfold upd
    rw [if_neg (fun e => hl i i hi hi (by unfold duplo; split <;> exact le_refl i) e.symm), o l ?_, h.frame l hl]
    rintro ⟨j, hj, e⟩
    simp only [MatV.colv] at hj e
    exact hl _ i (by omega) hi (htr _ (by omega) (by omega)) e

theorem sum_bset {dir : Direction} {k i b0 len : Nat} (hi : i < k) (hb : b0 = if dir = .Forward then 0 else i + 1)
    (hlen : len = if dir = .Forward then i else k - i - 1) (f : Nat → 𝕜) :
    ∑ b ∈ bset dir k i, f b = ∑ j ∈ range len, f (b0 + j) := by
  unfold bset
  cases dir with
  | Forward => simp at hb hlen; subst hb hlen; simp
  | Backward =>
    simp at hb hlen; subst hb hlen
    simp only [reduceCtorEq, if_false]
    rw [Finset.sum_Ico_eq_sum_range]
    rfl

theorem wp_larftTrmv {dir : Direction} {k i : Nat} {g : Nat → Nat → 𝕜} {ti : 𝕜} {Tm : MatV L} {ν ν1 : Store L 𝕜}
    (hT : Tm.Inj) (hm : k ≤ Tm.m) (hn : k ≤ Tm.n) (hi : i < k) {b0 len : Nat}
    (hb : b0 = if dir = .Forward then 0 else i + 1) (hlen : len = if dir = .Forward then i else k - i - 1)
    (o : OnlyV (Tm.colv b0 (b0 + len) i) ν ν1)
    (hv : ∀ j, j < len → ventry ν1 (Tm.colv b0 (b0 + len) i) j = -ti * g (b0 + j) i) :
    wp (trmv (duplo dir) .NoTrans .NonUnit (Tm.sub b0 (b0 + len) b0 (b0 + len)) (Tm.colv b0 (b0 + len) i)) ν1
      (fun _ ν' => OnlyV (Tm.colv b0 (b0 + len) i) ν ν' ∧ ∀ j, j < len →
        ventry ν' (Tm.colv b0 (b0 + len) i) j = -ti *
          ∑ b ∈ bset dir k i, triF (duplo dir) .NonUnit (entry ν Tm) (b0 + j) b * g b i) := by
  have hle : b0 + len ≤ k := by rw [hb, hlen]; split <;> omega
  have hne : ∀ b, b < len → b0 + b ≠ i := by
    intro b h1; rw [hb]; rw [hlen] at h1; split <;> simp_all <;> omega
  refine wp_conseq (wp_trmv_exact (n := len) ⟨duplo_tri dir, by simp [MatV.sub], by simp [MatV.sub],
    by simp [MatV.colv], hT.colv (by omega) (by omega), ?_⟩) ?_
  · rintro a b ha hb' ⟨j, hj, e⟩
    simp only [MatV.sub, MatV.colv] at ha hb' hj e
    have := hT _ _ _ _ (by omega) (by omega) (by omega) (by omega) e
    exact hne b (by omega) this.2.symm
  intro _ ν2 h2
  refine ⟨fun l hl => (h2.frame l hl).trans (o l hl), fun j hj => ?_⟩
  rw [show ventry ν2 _ j = _ from h2.val j (by simp [MatV.colv]; exact hj), sum_bset hi hb hlen, Finset.mul_sum]
  refine Finset.sum_congr rfl fun b hb' => ?_
  have hbl := mem_range.1 hb'
  rw [hv b hbl, sh_entry]
  have e : opF .NoTrans (triF (duplo dir) .NonUnit (sh b0 b0 (entry ν1 Tm))) j b =
      triF (duplo dir) .NonUnit (entry ν Tm) (b0 + j) (b0 + b) := by
    have h1 : opF .NoTrans (triF (duplo dir) .NonUnit (sh b0 b0 (entry ν1 Tm))) j b =
      sh b0 b0 (triF (duplo dir) .NonUnit (entry ν1 Tm)) j b := by rw [triF_sh (duplo_tri dir)]; rfl
    rw [h1]
    show triF _ _ _ (b0 + j) (b0 + b) = _
    unfold triF
    have e1 : ∀ a, a < k → entry ν1 Tm a (b0 + b) = entry ν Tm a (b0 + b) := fun a ha =>
      o.outCol hT (by omega) (by omega) (by omega) (by omega) (Or.inr (Or.inr (hne b hbl)))
    rw [e1 (b0 + j) (by omega)]
    by_cases e : b0 + j = b0 + b
    · rw [if_pos e, if_pos e, e, e1 (b0 + b) (by omega)]
    · rw [if_neg e, if_neg e]
  rw [e]
  ring

theorem wp_larftW {dir : Direction} {store : StoreV} {V : MatV L} {tau : VecV L} {Tm : MatV L}
    (ok : LarftW store V tau Tm) (μ : Store L 𝕜) :
    wp (larft dir store V tau Tm) μ (fun r ν => r = 0 ∧
      TInv dir tau.n (gramF (vlen store V) (houseVec dir store (vlen store V) tau.n (entry μ V)))
        (ventry μ tau) Tm 0 tau.n μ ν) := by
  have hkc := ok.kc
  have hkq := ok.kq
  have hkm := ok.km
  have hkn := ok.kn
  obtain ⟨k, hk⟩ : ∃ k, k = tau.n := ⟨_, rfl⟩
  unfold larft
  have c1 : (!decide (tau.n > if store = .Columnwise then V.n else V.m)) = true := by
    simp only [Bool.not_eq_true', decide_eq_false_iff_not]; unfold vcnt at hkc; omega
  have c2 : (!decide (Tm.m < tau.n ∨ Tm.n < tau.n)) = true := by
    simp only [Bool.not_eq_true', decide_eq_false_iff_not]; omega
  simp only [wp_bind, wp_check, c1, c2, if_true]
  have hq : (if store = .Columnwise then V.m else V.n) = vlen store V := rfl
  rw [hq]
  by_cases h0 : vlen store V = 0 ∨ tau.n = 0
  · rw [if_pos h0]
    refine ⟨rfl, fun i _ hi => by omega, fun i _ _ hi => by omega, fun l _ => rfl⟩
  rw [if_neg h0]
  obtain ⟨g, hg⟩ : ∃ g, g = gramF (vlen store V) (houseVec dir store (vlen store V) tau.n (entry μ V)) := ⟨_, rfl⟩
  -- what the invariant gives about the operands that are read
  have hread : ∀ {lo hi : Nat} {ν : Store L 𝕜}, TInv dir tau.n g (ventry μ tau) Tm lo hi μ ν →
      (∀ r c, r < V.m → c < V.n → entry ν V r c = entry μ V r c) := by
    intro lo hi ν h r c hr hc
    exact h.frame _ fun a b ha hb _ e => ok.VT r c hr hc ⟨a, b, by omega, by omega, e⟩
  -- `tau` keeps its values although its cells may be written
  have htau : ∀ {i b0 b1 : Nat} {ν ν1 : Store L 𝕜}, i < tau.n → b1 ≤ Tm.m → (b1 ≤ i ∨ i < b0) → OnlyV (Tm.colv b0 b1 i) ν ν1 →
      (∀ j, j < tau.n → ventry ν tau j = ventry μ tau j) →
      ∀ j, j < tau.n → ventry (upd ν1 (Tm.cell i i) (ventry μ tau i)) tau j = ventry μ tau j := by
    intro i b0 b1 ν ν1 hi hb1 hd o ht j hj
    unfold ventry upd
    by_cases e : tau.cell j = Tm.cell i i
    · rw [if_pos e, (ok.tT j i i hj (by omega) (by omega) e.symm).1]
    · rw [if_neg e]
      refine (o _ ?_).trans (ht j hj)
      rintro ⟨a, ha, e2⟩
      simp only [MatV.colv] at ha e2
      have := ok.tT j _ _ hj (by omega) (by omega) e2
      omega
  -- the first reflector
  have hfirst : ∀ i, i < tau.n → (∀ b, b ∉ bset dir tau.n i) →
      TInv dir tau.n g (ventry μ tau) Tm (if dir = .Forward then 0 else i) (if dir = .Forward then i + 1 else tau.n) μ
        (upd μ (Tm.cell i i) (ventry μ tau i)) := by
    intro i hi hnb
    refine TInv.step ok.inj hkm hkn hi (ν := μ) (b0 := if dir = .Forward then 0 else i + 1)
      (len := if dir = .Forward then i else tau.n - i - 1) ?_ rfl rfl (fun _ _ => rfl) (fun j hj => ?_)
    · have hE : ∀ x, (if dir = .Forward then 0 else i + 1) ≤ x → x < (if dir = .Forward then i else tau.n) → False := by
        intro x h1 h2
        refine hnb x ?_
        unfold bset
        cases dir <;> simp at h1 h2 ⊢ <;> omega
      exact ⟨fun j h1 h2 => (hE j h1 h2).elim, fun j a h1 h2 _ _ _ => (hE j h1 h2).elim, fun _ _ => rfl⟩
    · exfalso
      refine hnb ((if dir = .Forward then 0 else i + 1) + j) ?_
      unfold bset
      cases dir <;> simp at hj ⊢ <;> omega
  rw [← hg]
  cases dir with
  | Forward =>
    simp only [if_true, wp_bind, wp_vget, wp_set]
    refine ⟨by omega, ⟨by omega, by omega⟩, ?_⟩
    refine wp_forUp_ (fun i ν => TInv .Forward tau.n g (ventry μ tau) Tm 0 i μ ν ∧ ∀ j, j < tau.n → ventry ν tau j = ventry μ tau j) (by omega)
      ⟨by have := hfirst 0 (by omega) (by simp [bset]); simp at this; exact this,
        htau (i := 0) (b0 := 0) (b1 := 0) (ν := μ) (by omega) (by omega) (by omega) (fun _ _ => rfl) (fun _ _ => rfl)⟩ ?_ (fun ν h => ⟨rfl, h.1⟩)
    rintro i ν h1 hi ⟨h, ht⟩
    have hV := hread h
    have fin : ∀ ν1, OnlyV (Tm.colv 0 i i) ν ν1 → (∀ j, j < i → ventry ν1 (Tm.colv 0 i i) j = -(ventry μ tau i) *
        ∑ b ∈ bset .Forward tau.n i, triF (duplo .Forward) .NonUnit (entry ν Tm) (0 + j) b * g b i) →
        wp (Tm.set i i (ν (tau.cell i))) ν1 (fun _ ν' => TInv .Forward tau.n g (ventry μ tau) Tm 0 (i + 1) μ ν' ∧ ∀ j, j < tau.n → ventry ν' tau j = ventry μ tau j) := by
      intro ν1 o hv
      rw [wp_set]
      refine ⟨⟨by omega, by omega⟩, ?_⟩
      have := TInv.step ok.inj hkm hkn hi (dir := .Forward) (by simpa using h) (b0 := 0) (len := i) rfl rfl
        (by simpa using o) (by simpa using hv)
      rw [show ν (tau.cell i) = ventry μ tau i from ht i hi]
      exact ⟨by simpa using this, htau hi (by omega) (by omega) o ht⟩
    unfold larftFwdStep
    simp only [wp_bind]
    refine wp_sliceCol (by omega) (by omega) (by omega) ?_
    rw [wp_vget]
    refine ⟨hi, ?_⟩
    unfold larftFwdCol
    by_cases hz : ν (tau.cell i) = 0
    · rw [if_pos hz]
      refine wp_conseq (wp_larftInit (t := Tm.colv 0 i i) (len := i) (v := fun _ => 0) (ok.inj.colv (by omega) (show i < Tm.n by omega)) (by simp [MatV.colv])
        (fun j ν1 hj _ => by rw [wp_vset]; exact ⟨by simpa [MatV.colv] using hj, rfl⟩)) ?_
      rintro _ ν1 ⟨o, hv⟩
      refine fin ν1 o (fun j hj => ?_)
      rw [hv j hj, ← ht i hi, show ventry ν tau i = 0 from hz]
      simp
    · rw [if_neg hz]
      have := wp_larftVec (dir := .Forward) ok hi (ti := ν (tau.cell i)) hV (b0 := 0) (len := i) rfl rfl
      have tail : ∀ ν1, OnlyV (Tm.colv 0 i i) ν ν1 → (∀ j, j < i → ventry ν1 (Tm.colv 0 i i) j = -(ν (tau.cell i)) * g j i) →
          wp (do let T0 ← Tm.slice 0 i 0 i
                 trmv .Upper .NoTrans .NonUnit T0 (Tm.colv 0 i i)) ν1
            (fun _ ν1 => wp (Tm.set i i (ν (tau.cell i))) ν1 (fun _ ν' => TInv .Forward tau.n g (ventry μ tau) Tm 0 (i + 1) μ ν' ∧ ∀ j, j < tau.n → ventry ν' tau j = ventry μ tau j)) := by
        intro ν1 o hv
        rw [wp_bind]
        refine wp_slice (by omega) (by omega) (by omega) (by omega) ?_
        have h3 := wp_larftTrmv (dir := .Forward) (g := g) (ti := ν (tau.cell i)) (ν := ν) (ν1 := ν1) ok.inj hkm hkn hi (b0 := 0) (len := i) rfl rfl
          (by simpa using o) (by simpa using hv)
        simp only [Nat.zero_add] at h3
        refine wp_conseq h3 ?_
        rintro _ ν2 ⟨o2, hv2⟩
        refine fin ν2 o2 (fun j hj => ?_)
        rw [hv2 j hj, show ν (tau.cell i) = ventry μ tau i from ht i hi, Nat.zero_add]
      cases store with
      | Columnwise =>
        simp only [wp_bind, if_true, Nat.zero_add, Nat.add_zero] at this ⊢
        refine wp_conseq this (fun _ ν1 h1 => wp_conseq h1 ?_)
        rintro _ ν2 ⟨o, hv⟩
        have := tail ν2 o (by rw [hg]; exact hv)
        rw [wp_bind] at this
        exact this
      | Rowwise =>
        simp only [wp_bind, if_true, Nat.zero_add, Nat.add_zero] at this ⊢
        refine wp_conseq this (fun _ ν1 h1 => wp_conseq h1 ?_)
        rintro _ ν2 ⟨o, hv⟩
        have := tail ν2 o (by rw [hg]; exact hv)
        rw [wp_bind] at this
        exact this
  | Backward =>
    simp only [reduceCtorEq, if_false, wp_bind, wp_vget, wp_set]
    refine ⟨by omega, ⟨by omega, by omega⟩, ?_⟩
    refine wp_forDown_ (fun i ν => TInv .Backward tau.n g (ventry μ tau) Tm i tau.n μ ν ∧ ∀ j, j < tau.n → ventry ν tau j = ventry μ tau j) (by omega)
      ⟨by have := hfirst (tau.n - 1) (by omega) (by simp [bset]; omega); simp at this; exact this,
        htau (i := tau.n - 1) (b0 := 0) (b1 := 0) (ν := μ) (by omega) (by omega) (by omega) (fun _ _ => rfl) (fun _ _ => rfl)⟩ ?_ (fun ν h => ⟨rfl, h.1⟩)
    rintro i ν h1 hi' ⟨h, ht⟩
    have hi : i < tau.n := by omega
    have hV := hread h
    obtain ⟨len, hlen⟩ : ∃ len, len = tau.n - i - 1 := ⟨_, rfl⟩
    have hend : i + 1 + len = tau.n := by omega
    have fin : ∀ ν1, OnlyV (Tm.colv (i + 1) tau.n i) ν ν1 → (∀ j, j < len → ventry ν1 (Tm.colv (i + 1) tau.n i) j = -(ventry μ tau i) *
        ∑ b ∈ bset .Backward tau.n i, triF (duplo .Backward) .NonUnit (entry ν Tm) (i + 1 + j) b * g b i) →
        wp (Tm.set i i (ν (tau.cell i))) ν1 (fun _ ν' => TInv .Backward tau.n g (ventry μ tau) Tm i tau.n μ ν' ∧ ∀ j, j < tau.n → ventry ν' tau j = ventry μ tau j) := by
      intro ν1 o hv
      rw [wp_set]
      refine ⟨⟨by omega, by omega⟩, ?_⟩
      have := TInv.step ok.inj hkm hkn hi (dir := .Backward) (by simpa using h) (b0 := i + 1) (len := len) rfl (by simpa using hlen)
        (by rw [hend]; exact o) (by rw [hend]; exact hv)
      rw [show ν (tau.cell i) = ventry μ tau i from ht i hi]
      exact ⟨by simpa using this, htau hi (by omega) (by omega) o ht⟩
    unfold larftBwdStep
    simp only [wp_bind]
    refine wp_sliceCol (by omega) (by omega) (by omega) ?_
    rw [wp_vget]
    refine ⟨hi, ?_⟩
    unfold larftBwdCol
    rw [← hlen]
    by_cases hz : ν (tau.cell i) = 0
    · rw [if_pos hz]
      refine wp_conseq (wp_larftInit (t := Tm.colv (i + 1) tau.n i) (len := len) (v := fun _ => 0) (ok.inj.colv (by omega) (show i < Tm.n by omega)) (by simp [MatV.colv]; omega)
        (fun j ν1 hj _ => by rw [wp_vset]; exact ⟨by simp [MatV.colv]; omega, rfl⟩)) ?_
      rintro _ ν1 ⟨o, hv⟩
      refine fin ν1 o (fun j hj => ?_)
      rw [hv j hj, ← ht i hi, show ventry ν tau i = 0 from hz]
      simp
    · rw [if_neg hz]
      have := wp_larftVec (dir := .Backward) ok hi (ti := ν (tau.cell i)) hV (b0 := i + 1) (len := len) rfl (by simpa using hlen)
      rw [hend] at this
      have tail : ∀ ν1, OnlyV (Tm.colv (i + 1) tau.n i) ν ν1 → (∀ j, j < len → ventry ν1 (Tm.colv (i + 1) tau.n i) j = -(ν (tau.cell i)) * g (i + 1 + j) i) →
          wp (do let T0 ← Tm.slice (i + 1) tau.n (i + 1) tau.n
                 trmv .Lower .NoTrans .NonUnit T0 (Tm.colv (i + 1) tau.n i)) ν1
            (fun _ ν1 => wp (Tm.set i i (ν (tau.cell i))) ν1 (fun _ ν' => TInv .Backward tau.n g (ventry μ tau) Tm i tau.n μ ν' ∧ ∀ j, j < tau.n → ventry ν' tau j = ventry μ tau j)) := by
        intro ν1 o hv
        rw [wp_bind]
        refine wp_slice (by omega) (by omega) (by omega) (by omega) ?_
        have h3 := wp_larftTrmv (dir := .Backward) (g := g) (ti := ν (tau.cell i)) (ν := ν) (ν1 := ν1) ok.inj hkm hkn hi (b0 := i + 1) (len := len) rfl (by simpa using hlen)
          (by rw [hend]; exact o) (by rw [hend]; exact hv)
        rw [hend] at h3
        refine wp_conseq h3 ?_
        rintro _ ν2 ⟨o2, hv2⟩
        refine fin ν2 o2 (fun j hj => ?_)
        rw [hv2 j hj, show ν (tau.cell i) = ventry μ tau i from ht i hi]
      cases store with
      | Columnwise =>
        simp only [wp_bind, reduceCtorEq, if_false, ← Nat.add_assoc] at this ⊢
        refine wp_conseq this (fun _ ν1 h1 => wp_conseq h1 fun _ ν2 h2 => wp_conseq h2 fun _ ν3 h3 => wp_conseq h3 ?_)
        rintro _ ν2 ⟨o, hv⟩
        have := tail ν2 o (by rw [hg]; exact hv)
        rw [wp_bind] at this
        exact this
      | Rowwise =>
        simp only [wp_bind, reduceCtorEq, if_false, ← Nat.add_assoc] at this ⊢
        refine wp_conseq this (fun _ ν1 h1 => wp_conseq h1 fun _ ν2 h2 => wp_conseq h2 fun _ ν3 h3 => wp_conseq h3 fun _ ν4 h4 => wp_conseq h4 ?_)
        rintro _ ν2 ⟨o, hv⟩
        have := tail ν2 o (by rw [hg]; exact hv)
        rw [wp_bind] at this
        exact this

theorem wp_larft {dir : Direction} {store : StoreV} {V : MatV L} {tau : VecV L} {Tm : MatV L}
    (ok : LarftOK store V tau Tm) (μ : Store L 𝕜) :
    wp (larft dir store V tau Tm) μ (fun r ν => r = 0 ∧
      TInv dir tau.n (gramF (vlen store V) (houseVec dir store (vlen store V) tau.n (entry μ V)))
        (ventry μ tau) Tm 0 tau.n μ ν) := wp_larftW ok.weak μ

end TLA
