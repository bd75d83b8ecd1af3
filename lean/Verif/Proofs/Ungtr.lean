import Verif.Proofs.Trid
set_option linter.unusedTactic false
set_option linter.unusedVariables false
set_option linter.unreachableTactic false
set_option linter.unusedSectionVars false

/-! # ungtr -/

namespace TLA
open Finset
variable {L 𝕜 : Type} [DecidableEq L] [RCLike 𝕜] [DecidableEq 𝕜] {p : HhPar}

/-- The direction of the reflectors of hetd2. -/
def tdir (uplo : Uplo) : Direction := if uplo = .Upper then .Backward else .Forward

/-- The product of the reflectors of hetd2 acts on all rows but the first (Lower) or the last (Upper). -/
theorem tridQ_emb {uplo : Uplo} (hu : uplo = .Upper ∨ uplo = .Lower) {n : Nat} (hn : 0 < n) (V : Nat → Nat → 𝕜) (t : Nat → 𝕜) :
    tridQ uplo n V t = emb n (if uplo = .Upper then 0 else 1) (houseQ (tdir uplo) .Columnwise (n - 1) (n - 1)
      (fun r i => if uplo = .Upper then V r (i + 1) else V (1 + r) i) t) := by
  rcases hu with rfl | rfl
  · simp only [tridQ, tdir, if_true]
    unfold houseQ
    simp only []
    rw [emb_list (by omega)]
    congr 1
    refine List.map_congr_left fun i hi => ?_
    rw [List.mem_reverse, List.mem_range] at hi
    unfold houseH
    refine emb_refl _ _ _ (fun r hr hr' => ?_) (fun r hr hr' => ?_)
    · unfold tridCol houseVec hpiv
      simp only [if_true, reduceCtorEq, if_false, Nat.zero_add, Nat.sub_self]
      by_cases e : r = i
      · rw [if_pos e, if_pos e]
      · rw [if_neg e, if_neg e]
        by_cases e2 : r < i
        · rw [if_pos e2, if_neg (by omega)]
        · rw [if_neg e2, if_pos (by omega)]
    · unfold tridCol
      simp only [if_true]
      rw [if_neg (by omega), if_neg (by omega)]
  · have e := hessQ_emb (n := n) (ilo := 0) (ihi := n) (by omega) (by omega) V t
    have e1 : tridQ .Lower n V t = hessQ n 0 n V t := by
      unfold tridQ hessQ reflProd tridCol
      simp
    rw [e1, e]
    simp only [tdir, reduceCtorEq, if_false, Nat.zero_add, Nat.sub_zero]

set_option maxHeartbeats 1000000 in
theorem wp_ungtrGen {isReal : Bool} (hreal : isReal = true → ∀ z : 𝕜, star z = z) {uplo : Uplo}
    (hu : uplo = .Upper ∨ uplo = .Lower) {Q : MatV L} {tau work : VecV L} {n r0 d : Nat} (ok : QrOK Q tau work)
    (hm : Q.m = n) (hn : Q.n = n) (hn0 : 0 < n) (ht : tau.n = n - 1)
    (hr0 : r0 = if uplo = .Upper then 0 else 1) (hd : d = if uplo = .Upper then n - 1 else 0)
    (hw : 1 < n → (ungqBlkWorksize (tdir uplo) .Columnwise (Q.sub r0 (r0 + (n - 1)) r0 (r0 + (n - 1))) (n - 1) 32).size ≤ work.n)
    {G : Nat → Nat → 𝕜} {μ ν : Store L 𝕜} (h : MState Q μ G ν)
    (hid : ∀ r c, r < n → c < n → r = d ∨ c = d → G r c = if r = c then 1 else 0)
    (hv : ∀ r i, r < n - 1 → i < n - 1 → (if uplo = .Upper then r < i else i < r) →
      G (r0 + r) (r0 + i) = if uplo = .Upper then entry μ Q r (i + 1) else entry μ Q (1 + r) i) :
    wp (do
      let Qr ← Q.slice r0 (r0 + (n - 1)) r0 (r0 + (n - 1))
      ungqBlk isReal 32 (tdir uplo) .Columnwise Qr tau work) ν (fun r ν' => r = 0 ∧
      mat n n (entry ν' Q) = tridQ uplo n (entry μ Q) (ventry μ tau) ∧
      ∀ l, ¬ Q.Owns l → ¬ work.Owns l → ν' l = μ l) := by
  have hr1 : r0 ≤ 1 := by rw [hr0]; split <;> omega
  have hrn : r0 + (n - 1) ≤ n := by omega
  have t3 : ∀ i, i < tau.n → ventry ν tau i = ventry μ tau i := by
    intro i hi
    refine h.frame _ ?_
    rintro ⟨r, c, hr, hc, e⟩
    exact ok.At r c hr hc ⟨i, hi, e.symm⟩
  simp only [wp_bind]
  refine wp_slice (by omega) (by omega) (by omega) (by omega) ?_
  refine wp_conseq (wp_ungqBlk_sq (q := n - 1) hreal (by simp [MatV.sub]) (by simp [MatV.sub]) ht
    ⟨⟨ok.inj.sub (by omega) (by omega), ok.tinj, ok.winj, ?_, ?_, ok.tw⟩,
      by simp [MatV.sub, ht], by omega, ?_, ?_⟩) ?_
  · rintro i j hi hj ho
    simp only [MatV.sub] at hi hj ho
    exact ok.At _ _ (by omega) (by omega) ho
  · rintro i j hi hj ho
    simp only [MatV.sub] at hi hj ho
    exact ok.Aw _ _ (by omega) (by omega) ho
  · rw [ht]
    by_cases e : n = 1
    · right; left; simp [MatV.sub, e]
    · left; omega
  · intro h1 h2
    rw [ht]
    apply hw
    simp [MatV.sub] at h1
    omega
  rintro r ν4 ⟨h0, hQ, h4⟩
  refine ⟨h0, ?_, fun l hA hW => ?_⟩
  · rw [tridQ_emb hu hn0, ← hr0]
    have e1 : houseQ (tdir uplo) .Columnwise (n - 1) (n - 1) (entry ν (Q.sub r0 (r0 + (n - 1)) r0 (r0 + (n - 1))))
        (ventry ν tau) = houseQ (tdir uplo) .Columnwise (n - 1) (n - 1)
        (fun r i => if uplo = .Upper then entry μ Q r (i + 1) else entry μ Q (1 + r) i) (ventry μ tau) := by
      have hH : ∀ i, i < n - 1 → houseH (tdir uplo) .Columnwise (n - 1) (n - 1)
          (entry ν (Q.sub r0 (r0 + (n - 1)) r0 (r0 + (n - 1)))) (ventry ν tau) i =
          houseH (tdir uplo) .Columnwise (n - 1) (n - 1)
          (fun r i => if uplo = .Upper then entry μ Q r (i + 1) else entry μ Q (1 + r) i) (ventry μ tau) i := by
        intro i hi
        unfold houseH
        refine refl_congr (t3 i (by omega)).symm (fun r hr => ?_) |>.symm
        unfold houseVec hpiv
        have hent : ∀ (hlt : if uplo = .Upper then r < i else i < r),
            entry ν (Q.sub r0 (r0 + (n - 1)) r0 (r0 + (n - 1))) r i =
            if uplo = .Upper then entry μ Q r (i + 1) else entry μ Q (1 + r) i := by
          intro hlt
          rw [← hv r i hr hi hlt]
          exact h.val (r0 + r) (r0 + i) (by omega) (by omega)
        rcases hu with rfl | rfl
        · simp only [tdir, if_true, reduceCtorEq, if_false, Nat.sub_self, Nat.zero_add] at hent ⊢
          by_cases e : r = i
          · rw [if_pos e, if_pos e]
          · rw [if_neg e, if_neg e]
            by_cases e2 : i < r
            · rw [if_pos e2, if_pos e2]
            · rw [if_neg e2, if_neg e2, hent (by omega)]
        · simp only [tdir, if_true, reduceCtorEq, if_false] at hent ⊢
          by_cases e : r = i
          · rw [if_pos e, if_pos e]
          · rw [if_neg e, if_neg e]
            by_cases e2 : r < i
            · rw [if_pos e2, if_pos e2]
            · rw [if_neg e2, if_neg e2, hent (by omega)]
      unfold houseQ
      rcases hu with rfl | rfl
      · simp only [tdir, if_true] at hH ⊢
        congr 1
        refine List.map_congr_left fun i hi => ?_
        rw [List.mem_reverse, List.mem_range] at hi
        exact hH i hi
      · simp only [tdir, reduceCtorEq, if_false] at hH ⊢
        congr 1
        refine List.map_congr_left fun i hi => ?_
        rw [List.mem_range] at hi
        exact hH i hi
    rw [← e1, ← hQ]
    unfold emb
    rw [mat_ext_iff]
    intro r c hr hc
    by_cases b : (r0 ≤ r ∧ r < r0 + (n - 1)) ∧ r0 ≤ c ∧ c < r0 + (n - 1)
    · rw [if_pos b, toF_mat _ (by omega) (by omega)]
      show _ = ν4 (Q.cell (r0 + (r - r0)) (r0 + (c - r0)))
      rw [show r0 + (r - r0) = r by omega, show r0 + (c - r0) = c by omega]
      rfl
    · rw [if_neg b]
      have : entry ν4 Q r c = G r c := by
        refine (h4 _ ?_ (ok.Aw r c (by omega) (by omega))).trans (h.val r c (by omega) (by omega))
        rintro ⟨i, j, hi, hj, e⟩
        simp only [MatV.sub] at hi hj e
        have := ok.inj _ _ _ _ (by omega) (by omega) (by omega) (by omega) e
        omega
      rw [this]
      apply hid r c hr hc
      rcases hu with rfl | rfl
      · simp only [if_true] at hr0 hd; omega
      · simp only [reduceCtorEq, if_false] at hr0 hd; omega
  · rw [h4 l (fun ho => hA (ho.sub (by omega) (by omega))) hW, h.frame l hA]

/-- The workspace ungtr needs: that of the call of ungqr/ungql. -/
theorem wp_ungtr {isReal : Bool} (hreal : isReal = true → ∀ z : 𝕜, star z = z) {uplo : Uplo}
    (hu : uplo = .Upper ∨ uplo = .Lower) {Q : MatV L} {tau work : VecV L} {n : Nat} (ok : QrOK Q tau work)
    (hm : Q.m = n) (hn : Q.n = n) (hn0 : 0 < n) (ht : tau.n = n - 1)
    (hw : 1 < n → (ungqBlkWorksize (tdir uplo) .Columnwise (if uplo = .Upper then Q.sub 0 (n - 1) 0 (n - 1) else Q.sub 1 n 1 n)
      (n - 1) 32).size ≤ work.n) {μ : Store L 𝕜} :
    wp (ungtr isReal uplo Q tau work) μ (fun r ν' => r = 0 ∧
      mat n n (entry ν' Q) = tridQ uplo n (entry μ Q) (ventry μ tau) ∧
      ∀ l, ¬ Q.Owns l → ¬ work.Owns l → ν' l = μ l) := by
  have hQ := ok.inj
  unfold ungtr
  rw [if_neg (by omega)]
  rcases hu with rfl | rfl
  · rw [if_neg (by simp)]
    unfold ungtrU
    simp only [wp_bind]
    rw [hn]
    have h1 : ∀ (Qp : Unit → Store L 𝕜 → Prop), (∀ ν, MState Q μ (fun r c => if 1 ≤ c ∧ c < n - 1 ∧ r < c then entry μ Q r (c + 1)
          else entry μ Q r c) ν → Qp () ν) →
        wp (forUp_ 1 (n - 1) fun j => forUp_ 0 j fun i => do
          let q ← Q.get i (j + 1)
          Q.set i j q) μ Qp := by
      intro Qp hQp
      by_cases hn1 : n = 1
      · subst hn1
        simp only [forUp_]
        refine wp_conseq (Q := fun _ ν => ν = μ) ?_ ?_
        · simp [forUp, forUpN, wp_pure]
        · rintro _ _ rfl
          refine hQp _ ((MState.start Q _).congr fun r c hr hc => by rw [if_neg (by omega)])
      refine wp_forUp_ (fun k ν => MState Q μ (fun r c => if 1 ≤ c ∧ c < k ∧ r < c then entry μ Q r (c + 1)
          else entry μ Q r c) ν) (by omega) ?_ ?_ ?_
      · exact (MState.start Q μ).congr fun r c hr hc => by rw [if_neg (by omega)]
      · intro j ν hj0 hj1 hν
        refine wp_forUp_ (fun k ν => MState Q μ (fun r c => if 1 ≤ c ∧ ((c < j ∧ r < c) ∨ (c = j ∧ r < k)) then entry μ Q r (c + 1)
          else entry μ Q r c) ν) (by omega) ?_ ?_ ?_
        · exact hν.congr fun r c hr hc => by ifs
        · intro i ν' hi0 hi1 hν'
          simp only [wp_bind, wp_get, wp_set]
          refine ⟨⟨by omega, by omega⟩, ⟨by omega, by omega⟩, ?_⟩
          rw [hν'.val i (j + 1) (by omega) (by omega), if_neg (by omega)]
          refine hν'.upd hQ (by omega) (by omega) fun r c hr hc => ?_
          by_cases e : r = i ∧ c = j
          · rw [e.1, e.2, if_pos (by omega), if_pos ⟨rfl, rfl⟩]
          · rw [if_neg e]; ifs
        · intro ν' hν'
          exact hν'.congr fun r c hr hc => by ifs
      · intro ν hν
        exact hQp ν hν
    refine h1 _ fun ν1 hν1 => ?_
    refine wp_forUp_ (fun k ν => MState Q μ (fun r c => if (r < k ∧ c = n - 1) ∨ (c < k ∧ r = n - 1) then 0 else
        if 1 ≤ c ∧ c < n - 1 ∧ r < c then entry μ Q r (c + 1) else entry μ Q r c) ν) (by omega) ?_ ?_ ?_
    · exact hν1.congr fun r c hr hc => by ifs
    · intro i ν hi0 hi1 hν
      simp only [wp_bind, wp_set]
      refine ⟨⟨by omega, by omega⟩, ⟨by omega, by omega⟩, ?_⟩
      have a1 : MState Q μ (fun r c => if r = i ∧ c = n - 1 then 0 else if (r < i ∧ c = n - 1) ∨ (c < i ∧ r = n - 1) then 0 else
        if 1 ≤ c ∧ c < n - 1 ∧ r < c then entry μ Q r (c + 1) else entry μ Q r c) (upd ν (Q.cell i (n - 1)) 0) :=
        hν.upd hQ (by omega) (by omega) fun r c hr hc => rfl
      refine a1.upd hQ (by omega) (by omega) fun r c hr hc => ?_
      by_cases e : r = n - 1 ∧ c = i
      · rw [if_pos (by omega), if_pos e]
      · rw [if_neg e]; ifs
    intro ν2 hν2
    rw [wp_set]
    refine ⟨⟨by omega, by omega⟩, ?_⟩
    have h3 : MState Q μ (fun r c => if r = n - 1 ∧ c = n - 1 then 1 else if (r < n - 1 ∧ c = n - 1) ∨ (c < n - 1 ∧ r = n - 1) then 0 else
        if 1 ≤ c ∧ c < n - 1 ∧ r < c then entry μ Q r (c + 1) else entry μ Q r c) (upd ν2 (Q.cell (n - 1) (n - 1)) 1) :=
      hν2.upd hQ (by omega) (by omega) fun r c hr hc => rfl
    have := wp_ungtrGen hreal (uplo := .Upper) (Or.inl rfl) (r0 := 0) (d := n - 1) ok hm hn hn0 ht (by simp) (by simp)
      (by simpa using hw) h3 ?_ ?_
    · simp only [wp_bind, Nat.zero_add] at this
      exact this
    · intro r c hr hc hrc
      beta_reduce
      by_cases e : r = c
      · rw [if_pos (by omega), if_pos e]
      · rw [if_neg (by omega), if_pos (by omega), if_neg e]
    · intro r i hr hi hlt
      simp only [if_true, Nat.zero_add] at hlt ⊢
      rw [if_neg (by omega), if_neg (by omega), if_pos (by omega)]
  · rw [if_pos rfl]
    unfold ungtrL
    simp only [wp_bind]
    rw [hn]
    have h1 : ∀ (Qp : Unit → Store L 𝕜 → Prop), (∀ ν, MState Q μ (fun r c => if 1 ≤ c ∧ c < r then entry μ Q r (c - 1)
          else entry μ Q r c) ν → Qp () ν) →
        wp (forDown_ 2 n fun j2 => forUp_ j2 n fun i => do
          let q ← Q.get i (j2 - 1 - 1)
          Q.set i (j2 - 1) q) μ Qp := by
      intro Qp hQp
      by_cases hn1 : n = 1
      · subst hn1
        simp only [forDown_]
        refine wp_conseq (Q := fun _ ν => ν = μ) ?_ ?_
        · simp [forDown, forDownN, wp_pure]
        · rintro _ _ rfl
          refine hQp _ ((MState.start Q _).congr fun r c hr hc => by rw [if_neg (by omega)])
      refine wp_forDown_ (fun k ν => MState Q μ (fun r c => if 1 ≤ c ∧ k ≤ c + 1 ∧ c < r then entry μ Q r (c - 1)
          else entry μ Q r c) ν) (by omega) ?_ ?_ ?_
      · exact (MState.start Q μ).congr fun r c hr hc => by rw [if_neg (by omega)]
      · intro j2 ν hj0 hj1 hν
        refine wp_forUp_ (fun k ν => MState Q μ (fun r c => if 1 ≤ c ∧ c < r ∧ (j2 + 1 ≤ c + 1 ∨ (j2 = c + 1 ∧ r < k)) then entry μ Q r (c - 1)
          else entry μ Q r c) ν) (by omega) ?_ ?_ ?_
        · exact hν.congr fun r c hr hc => by ifs
        · intro i ν' hi0 hi1 hν'
          simp only [wp_bind, wp_get, wp_set]
          refine ⟨⟨by omega, by omega⟩, ⟨by omega, by omega⟩, ?_⟩
          rw [hν'.val i (j2 - 1 - 1) (by omega) (by omega), if_neg (by omega)]
          refine hν'.upd hQ (by omega) (by omega) fun r c hr hc => ?_
          by_cases e : r = i ∧ c = j2 - 1
          · rw [e.1, e.2, if_pos (by omega), if_pos ⟨rfl, rfl⟩]
          · rw [if_neg e]; ifs
        · intro ν' hν'
          exact hν'.congr fun r c hr hc => by ifs
      · intro ν hν
        exact hQp ν (hν.congr fun r c hr hc => by ifs)
    refine h1 _ fun ν1 hν1 => ?_
    refine wp_forUp_ (fun k ν => MState Q μ (fun r c => if (1 ≤ r ∧ r < k ∧ c = 0) ∨ (1 ≤ c ∧ c < k ∧ r = 0) then 0 else
        if 1 ≤ c ∧ c < r then entry μ Q r (c - 1) else entry μ Q r c) ν) (by omega) ?_ ?_ ?_
    · exact hν1.congr fun r c hr hc => by ifs
    · intro i ν hi0 hi1 hν
      simp only [wp_bind, wp_set]
      refine ⟨⟨by omega, by omega⟩, ⟨by omega, by omega⟩, ?_⟩
      have a1 : MState Q μ (fun r c => if r = i ∧ c = 0 then 0 else if (1 ≤ r ∧ r < i ∧ c = 0) ∨ (1 ≤ c ∧ c < i ∧ r = 0) then 0 else
        if 1 ≤ c ∧ c < r then entry μ Q r (c - 1) else entry μ Q r c) (upd ν (Q.cell i 0) 0) :=
        hν.upd hQ (by omega) (by omega) fun r c hr hc => rfl
      refine a1.upd hQ (by omega) (by omega) fun r c hr hc => ?_
      by_cases e : r = 0 ∧ c = i
      · rw [if_pos (by omega), if_pos e]
      · rw [if_neg e]; ifs
    intro ν2 hν2
    rw [wp_set]
    refine ⟨⟨by omega, by omega⟩, ?_⟩
    have h3 : MState Q μ (fun r c => if r = 0 ∧ c = 0 then 1 else if (1 ≤ r ∧ r < n ∧ c = 0) ∨ (1 ≤ c ∧ c < n ∧ r = 0) then 0 else
        if 1 ≤ c ∧ c < r then entry μ Q r (c - 1) else entry μ Q r c) (upd ν2 (Q.cell 0 0) 1) :=
      hν2.upd hQ (by omega) (by omega) fun r c hr hc => rfl
    have := wp_ungtrGen hreal (uplo := .Lower) (Or.inr rfl) (r0 := 1) (d := 0) ok hm hn hn0 ht (by simp) (by simp)
      (by rw [show 1 + (n - 1) = n by omega]; simpa using hw) h3 ?_ ?_
    · rw [show 1 + (n - 1) = n by omega] at this
      simp only [wp_bind] at this
      exact this
    · intro r c hr hc hrc
      beta_reduce
      by_cases e : r = c
      · rw [if_pos (by omega), if_pos e]
      · rw [if_neg (by omega), if_pos (by omega), if_neg e]
    · intro r i hr hi hlt
      simp only [reduceCtorEq, if_false] at hlt ⊢
      rw [if_neg (by omega), if_neg (by omega), if_pos (by omega), show 1 + i - 1 = i by omega]

end TLA
