import Verif.Proofs.UnmqBlk
import Verif.Proofs.HouseGenLoops
set_option linter.unusedTactic false
set_option linter.unusedVariables false
set_option linter.unreachableTactic false
set_option linter.unusedSectionVars false

/-! # ungq, blocked -/

namespace TLA
open Finset
variable {L 𝕜 : Type} [DecidableEq L] [RCLike 𝕜] [DecidableEq 𝕜]

/-- The slice parameters of a block of reflectors `i..i+ib`. -/
structure UngBlkPar (dir : Direction) (m n k i ib r0 q c0 d0 nr : Nat) : Prop where
  hr0 : r0 = if dir = .Forward then i else 0
  hq : r0 + q = if dir = .Forward then m else m - k + i + ib
  hc0 : c0 = if dir = .Forward then i else n - k + i
  hd0 : d0 = if dir = .Forward then i + ib else 0
  hnr : d0 + nr = if dir = .Forward then n else n - k + i

theorem UInv.block {dir : Direction} {m n k i ib jold jnew : Nat} {G0 G G' : Nat → Nat → 𝕜} {t : Nat → 𝕜}
    (hn : n ≤ m) (hk : k ≤ n) (hi : i + ib ≤ k)
    (hold : jold = if dir = .Forward then i + ib else i) (hnew : jnew = if dir = .Forward then i else i + ib)
    {r0 q c0 d0 nr : Nat} (hp : UngBlkPar dir m n k i ib r0 q c0 d0 nr)
    (h : UInv dir m n k (fun i => mat m m (reflF (t i) (houseVec dir .Columnwise m k
      (fun r i => G0 r (qcol dir n k i)) i))) G0 jold G)
    (hpan : mat q ib (sh r0 c0 G') = houseP dir .Columnwise q ib (sh r0 c0 G0) (fun j => t (i + j)) * mat q ib (eyeF dir q ib))
    (hzero : ∀ r c, r < m → c0 ≤ c → c < c0 + ib → (r < r0 ∨ r0 + q ≤ r) → G' r c = 0)
    (hrest : mat q nr (sh r0 d0 G') = houseP dir .Columnwise q ib (sh r0 c0 G0) (fun j => t (i + j)) * mat q nr (sh r0 d0 G))
    (hsame : ∀ r c, r < m → c < n → ¬ (c0 ≤ c ∧ c < c0 + ib) → (r < r0 ∨ r0 + q ≤ r ∨ ¬ (d0 ≤ c ∧ c < d0 + nr)) → G' r c = G r c) :
    UInv dir m n k (fun i => mat m m (reflF (t i) (houseVec dir .Columnwise m k
      (fun r i => G0 r (qcol dir n k i)) i))) G0 jnew G' := by
  obtain ⟨hr0, hq, hc0, hd0, hnr⟩ := hp
  have hqm : r0 + q ≤ m := by rw [hq]; split <;> omega
  obtain ⟨F, hF, hd, hnd⟩ := h.new
  obtain ⟨P, hP⟩ : ∃ P, P = houseP dir .Columnwise q ib (sh r0 c0 G0) (fun j => t (i + j)) := ⟨_, rfl⟩
  rw [← hP] at hpan hrest
  -- the reflectors of the block
  have hH : ∀ j, j < ib → mat m m (reflF (t (i + j)) (houseVec dir .Columnwise m k
      (fun r i => G0 r (qcol dir n k i)) (i + j))) =
      emb m r0 (houseH dir .Columnwise q ib (sh r0 c0 G0) (fun j => t (i + j)) j) := by
    intro j hj
    unfold houseH
    refine emb_refl _ _ _ (fun r hr hrm => ?_) (fun r hr hr' => ?_)
    · unfold houseVec sh
      have e2 : qcol dir n k (i + j) = c0 + j := by
        rw [hc0]; unfold qcol; cases dir <;> simp <;> omega
      have e3 : hpiv dir m k (i + j) = r0 + hpiv dir q ib j := by
        rw [hr0] at hq ⊢; unfold hpiv; cases dir <;> simp at hq ⊢ <;> omega
      simp only [e2, e3, Nat.add_right_inj, Nat.add_lt_add_iff_left]
    · unfold houseVec
      rw [if_neg, if_pos]
      · rw [hq, hr0] at hr'; unfold hpiv; cases dir <;> simp at hr' ⊢ <;> omega
      · rw [hq, hr0] at hr'; unfold hpiv; cases dir <;> simp at hr' ⊢ <;> omega
  have hlist : ungList dir k jnew = ((List.range ib).map fun j => i + qidx dir ib j) ++ ungList dir k jold := by
    unfold ungList
    rw [hold, hnew]
    cases dir with
    | Forward =>
      simp only [if_true, qidx]
      rw [show k - i = ib + (k - (i + ib)) by omega, ← List.range'_append_1, List.range'_eq_map_range]
    | Backward =>
      simp only [reduceCtorEq, if_false]
      rw [List.range_add, List.reverse_append]
      congr 1
      rw [← List.map_reverse]
      refine List.ext_getElem (by simp) fun a h1 h2 => ?_
      simp at h1
      simp [qidx, h1]
  have hprod : ((ungList dir k jnew).map fun i => mat m m (reflF (t i) (houseVec dir .Columnwise m k
      (fun r i => G0 r (qcol dir n k i)) i))).prod = emb m r0 P * ((ungList dir k jold).map fun i => mat m m (reflF (t i)
      (houseVec dir .Columnwise m k (fun r i => G0 r (qcol dir n k i)) i))).prod := by
    rw [hlist, List.map_append, List.prod_append]
    congr 1
    rw [hP]
    unfold houseP
    rw [emb_list hqm, List.map_map]
    congr 1
    refine List.map_congr_left fun j hj => ?_
    have hj := List.mem_range.1 hj
    exact hH _ (by unfold qidx; split <;> omega)
  refine ⟨fun r c hr hc h2 => ?_, fun r c => if r0 ≤ r ∧ r < r0 + q then ∑ s ∈ range q, toF P (r - r0) s * F (r0 + s) c
      else F r c, ?_, fun r c hr hc h2 => ?_, fun r c hr hc h2 => ?_⟩
  · unfold ungDone at h2
    rw [hnew] at h2
    rw [hsame r c hr hc (by rw [hc0]; cases dir <;> simp at h2 ⊢ <;> omega)
      (Or.inr (Or.inr (by rw [hnr, hd0]; cases dir <;> simp at h2 ⊢ <;> omega)))]
    refine h.old r c hr hc ?_
    unfold ungDone; rw [hold]; cases dir <;> simp at h2 ⊢ <;> omega
  · rw [hprod, Matrix.mul_assoc, ← hF, emb_mul_mat hqm]
  · beta_reduce
    unfold ungDone at h2
    rw [hnew] at h2
    by_cases h1 : c0 ≤ c ∧ c < c0 + ib
    · have hE : ∀ r, r < m → F r c = eyeF dir m n r c := fun r hr => hnd r c hr hc (by
        unfold ungDone; rw [hold]; rw [hc0] at h1; cases dir <;> simp at h1 ⊢ <;> omega)
      by_cases h3 : r0 ≤ r ∧ r < r0 + q
      · rw [if_pos h3]
        have e := congrArg (fun M => toF M (r - r0) (c - c0)) hpan
        simp only [toF_mul _ _ (show r - r0 < q by omega) (show c - c0 < ib by omega),
          toF_mat _ (show r - r0 < q by omega) (show c - c0 < ib by omega)] at e
        rw [show G' r c = sh r0 c0 G' (r - r0) (c - c0) by
          unfold sh; rw [show r0 + (r - r0) = r by omega, show c0 + (c - c0) = c by omega], e]
        refine Finset.sum_congr rfl fun s hs => ?_
        have hs := mem_range.1 hs
        rw [toF_mat _ hs (by omega), hE _ (by omega)]
        congr 1
        unfold eyeF
        refine if_congr ?_ rfl rfl
        rw [hc0] at h1 ⊢
        rw [hr0] at hq ⊢
        cases dir <;> simp at h1 hq ⊢ <;> omega
      · rw [if_neg h3, hzero r c hr h1.1 h1.2 (by omega), hE r hr]
        unfold eyeF
        rw [if_neg]
        rw [hq, hr0] at h3
        rw [hc0] at h1
        cases dir <;> simp at h1 h3 ⊢ <;> omega
    · have h4 : d0 ≤ c ∧ c < d0 + nr := by
        rw [hc0] at h1
        rw [hnr, hd0]; cases dir <;> simp at h1 h2 ⊢ <;> omega
      have hG : ∀ q, q < m → G q c = F q c := fun q hq => hd q c hq hc (by
        rw [hnr, hd0] at h4
        unfold ungDone; rw [hold]; cases dir <;> simp at h4 ⊢ <;> omega)
      by_cases h3 : r0 ≤ r ∧ r < r0 + q
      · rw [if_pos h3]
        have e := congrArg (fun M => toF M (r - r0) (c - d0)) hrest
        simp only [toF_mul _ _ (show r - r0 < q by omega) (show c - d0 < nr by omega),
          toF_mat _ (show r - r0 < q by omega) (show c - d0 < nr by omega)] at e
        rw [show G' r c = sh r0 d0 G' (r - r0) (c - d0) by
          unfold sh; rw [show r0 + (r - r0) = r by omega, show d0 + (c - d0) = c by omega], e]
        refine Finset.sum_congr rfl fun s hs => ?_
        have hs := mem_range.1 hs
        rw [toF_mat _ hs (by omega), ← hG _ (by omega)]
        unfold sh
        rw [show d0 + (c - d0) = c by omega]
      · rw [if_neg h3, hsame r c hr hc h1 (by omega), hG r hr]
  · beta_reduce
    have hE : ∀ q, q < m → F q c = eyeF dir m n q c := fun q hq => hnd q c hq hc (by
      unfold ungDone at h2 ⊢; rw [hnew] at h2; rw [hold]; cases dir <;> simp at h2 ⊢ <;> omega)
    unfold ungDone at h2
    rw [hnew] at h2
    by_cases h3 : r0 ≤ r ∧ r < r0 + q
    · have hz : ∀ r, r0 ≤ r → r < r0 + q → (eyeF dir m n r c : 𝕜) = 0 := by
        intro r h4 h5
        unfold eyeF
        rw [if_neg]
        rw [hq] at h5; rw [hr0] at h4
        cases dir <;> simp at h2 h4 h5 ⊢ <;> omega
      rw [if_pos h3, hz r h3.1 h3.2]
      refine Finset.sum_eq_zero fun s hs => ?_
      have hs := mem_range.1 hs
      rw [hE _ (by omega), hz _ (by omega) (by omega), mul_zero]
    · rw [if_neg h3, hE r hr]

theorem UState.block {dir : Direction} {store : StoreV} {B : MatV L} {tau work : VecV L} {μ ν ν1 ν2 : Store L 𝕜}
    {i ib jold jnew r0 q c0 d0 nr : Nat} (ok : QrOK B tau work) (hn : B.n ≤ B.m) (hk : tau.n ≤ B.n) (hi : i + ib ≤ tau.n)
    (hold : jold = if dir = .Forward then i + ib else i) (hnew : jnew = if dir = .Forward then i else i + ib)
    (hp : UngBlkPar dir B.m B.n tau.n i ib r0 q c0 d0 nr)
    (h : UState dir store B tau work μ jold ν)
    (hrest : mat q nr (LG store ν1 (B.sub r0 (r0 + q) d0 (d0 + nr))) =
      houseP dir .Columnwise q ib (LG store ν (B.sub r0 (r0 + q) c0 (c0 + ib))) (ventry ν (tau.sub i (i + ib))) *
        mat q nr (LG store ν (B.sub r0 (r0 + q) d0 (d0 + nr))))
    (fr1 : ∀ l, ¬ (B.sub r0 (r0 + q) d0 (d0 + nr)).Owns l → ¬ work.Owns l → ν1 l = ν l)
    (hpan : mat q ib (LG store ν2 (B.sub r0 (r0 + q) c0 (c0 + ib))) =
      houseP dir .Columnwise q ib (LG store ν1 (B.sub r0 (r0 + q) c0 (c0 + ib))) (ventry ν1 (tau.sub i (i + ib))) *
        mat q ib (eyeF dir q ib))
    (hzero : ∀ r c, r < B.m → c < ib → (r < r0 ∨ r0 + q ≤ r) → ν2 (B.cell r (c0 + c)) = 0)
    (fr2 : ∀ l, ¬ (B.sub 0 B.m c0 (c0 + ib)).Owns l → ¬ work.Owns l → ν2 l = ν1 l) :
    UState dir store B tau work μ jnew ν2 := by
  obtain ⟨hr0, hq, hc0, hd0, hnr⟩ := hp
  have hrq : r0 + q ≤ B.m := by rw [hq]; split <;> omega
  have hci : c0 + ib ≤ B.n := by rw [hc0]; split <;> omega
  have hdn : d0 + nr ≤ B.n := by rw [hnr]; split <;> omega
  have hcd : c0 + ib ≤ d0 ∨ d0 + nr ≤ c0 := by rw [hnr, hc0, hd0]; cases dir <;> simp <;> omega
  have htB : ∀ j, j < tau.n → ¬ B.Owns (tau.cell j) := by
    rintro j hj ⟨r, c', hr, hc', e⟩
    exact ok.At r c' hr hc' ⟨j, hj, e.symm⟩
  have hsub : ∀ {a b c d : Nat}, d ≤ B.n → b ≤ B.m → ∀ {l}, ¬ B.Owns l → ¬ (B.sub a b c d).Owns l :=
    fun hb hc l hl ho => hl (ho.sub hc hb)
  have hBw : ∀ r c, r < B.m → c < B.n → ¬ work.Owns (B.cell r c) := fun r c hr hc => ok.Aw r c hr hc
  have hout : ∀ x y a b r c, y ≤ B.m → b ≤ B.n → r < B.m → c < B.n → (r < x ∨ y ≤ r ∨ c < a ∨ b ≤ c) →
      ¬ (B.sub x y a b).Owns (B.cell r c) := by
    rintro x y a b r c hy hb hr hc hd ⟨i, j, hi, hj, e⟩
    simp only [MatV.sub] at hi hj e
    have := ok.inj _ _ _ _ (by omega) (by omega) hr hc e
    omega
  have h10 : ∀ r c, r < B.m → c < B.n → (r < r0 ∨ r0 + q ≤ r ∨ c < d0 ∨ d0 + nr ≤ c) → ν1 (B.cell r c) = ν (B.cell r c) :=
    fun r c hr hc hd => fr1 _ (hout _ _ _ _ r c hrq hdn hr hc hd) (hBw r c hr hc)
  have h21 : ∀ r c, r < B.m → c < B.n → (c < c0 ∨ c0 + ib ≤ c) → ν2 (B.cell r c) = ν1 (B.cell r c) :=
    fun r c hr hc hd => fr2 _ (hout _ _ _ _ r c (le_refl _) hci hr hc (by omega)) (hBw r c hr hc)
  have ht1 : ∀ j, j < ib → ventry ν1 (tau.sub i (i + ib)) j = ventry μ tau (i + j) := fun j hj => by
    show ν1 (tau.cell (i + j)) = μ (tau.cell (i + j))
    rw [fr1 _ (hsub hdn hrq (htB _ (by omega))) (ok.tw _ (by omega)), h.frame _ (htB _ (by omega)) (ok.tw _ (by omega))]
  have ht0 : ∀ j, j < ib → ventry ν (tau.sub i (i + ib)) j = ventry μ tau (i + j) := fun j hj =>
    h.frame _ (htB _ (by omega)) (ok.tw _ (by omega))
  -- the panel is still the input
  have hp0 : ∀ r c, r < q → c < ib → LG store ν (B.sub r0 (r0 + q) c0 (c0 + ib)) r c = sh r0 c0 (LG store μ B) r c := by
    intro r c hr hc
    exact h.inv.old (r0 + r) (c0 + c) (by omega) (by omega) (by
      unfold ungDone; rw [hold, hc0]; cases dir <;> simp <;> omega)
  have hp1 : ∀ r c, r < q → c < ib → LG store ν1 (B.sub r0 (r0 + q) c0 (c0 + ib)) r c = sh r0 c0 (LG store μ B) r c := by
    intro r c hr hc
    rw [← hp0 r c hr hc]
    show cj store (ν1 (B.cell _ _)) = cj store (ν (B.cell _ _))
    rw [h10 _ _ (by omega) (by omega) (by omega)]
  have hcong : ∀ ν' : Store L 𝕜, (∀ r c, r < q → c < ib → LG store ν' (B.sub r0 (r0 + q) c0 (c0 + ib)) r c = sh r0 c0 (LG store μ B) r c) →
      (∀ j, j < ib → ventry ν' (tau.sub i (i + ib)) j = ventry μ tau (i + j)) →
      houseP dir .Columnwise q ib (LG store ν' (B.sub r0 (r0 + q) c0 (c0 + ib))) (ventry ν' (tau.sub i (i + ib))) =
      houseP dir .Columnwise q ib (sh r0 c0 (LG store μ B)) (fun j => ventry μ tau (i + j)) := by
    intro ν' lg lt
    unfold houseP
    congr 1
    refine List.map_congr_left fun j hj => ?_
    rw [List.mem_range] at hj
    have hqi : qidx dir ib j < ib := by unfold qidx; split <;> omega
    unfold houseH
    beta_reduce
    rw [lt _ hqi, mat_ext_iff]
    intro r c hr hc
    unfold reflF
    have : ∀ r, r < q → houseVec dir .Columnwise q ib (LG store ν' (B.sub r0 (r0 + q) c0 (c0 + ib))) (qidx dir ib j) r =
        houseVec dir .Columnwise q ib (sh r0 c0 (LG store μ B)) (qidx dir ib j) r := by
      intro r hr
      unfold houseVec
      simp only [lg r _ hr hqi]
    rw [this r hr, this c hc]
  rw [hcong ν hp0 ht0] at hrest
  rw [hcong ν1 hp1 ht1] at hpan
  refine ⟨UInv.block hn hk hi hold hnew ⟨hr0, hq, hc0, hd0, hnr⟩ h.inv hpan ?_ ?_ ?_, fun l h1 h2 => ?_⟩
  · intro r c hr h1 h2 h3
    have := hzero r (c - c0) hr (by omega) h3
    rw [show c0 + (c - c0) = c by omega] at this
    show cj store (ν2 (B.cell r c)) = 0
    rw [this]; unfold cj; split <;> simp
  · rw [show mat q nr (sh r0 d0 (LG store ν B)) = mat q nr (LG store ν (B.sub r0 (r0 + q) d0 (d0 + nr))) from rfl, ← hrest, mat_ext_iff]
    intro r c hr hc
    show cj store (ν2 (B.cell _ _)) = cj store (ν1 (B.cell _ _))
    rw [h21 _ _ (by omega) (by omega) (by omega)]
  · intro r c hr hc h1 h2
    show cj store (ν2 (B.cell _ _)) = cj store (ν (B.cell _ _))
    rw [h21 _ _ hr hc (by omega), h10 r c hr hc (by omega)]
  · rw [fr2 l (hsub hci (le_refl _) h1) h2, fr1 l (hsub hdn hrq h1) h2, h.frame l h1 h2]

/-- The columns that are not reflectors. -/
theorem UState.start {dir : Direction} {store : StoreV} {B : MatV L} {tau work : VecV L} {μ ν : Store L 𝕜}
    (ok : QrOK B tau work) (hn : B.n ≤ B.m) (hk : tau.n ≤ B.n) {j : Nat} (hj : j = if dir = .Forward then tau.n else 0)
    {a b : Nat} (ha : a = if dir = .Forward then tau.n else 0) (hb : b = if dir = .Forward then B.n else B.n - tau.n)
    (hv : ∀ r c, r < B.m → a ≤ c → c < b → ν (B.cell r c) = eyeF dir B.m B.n r c)
    (fr : ∀ l, ¬ (B.sub 0 B.m a b).Owns l → ν l = μ l) : UState dir store B tau work μ j ν := by
  have hbn : b ≤ B.n := by rw [hb]; split <;> omega
  refine ⟨⟨fun r c hr hc h2 => ?_, eyeF dir B.m B.n, ?_, fun r c hr hc h2 => ?_, fun _ _ _ _ _ => rfl⟩, fun l h1 _ =>
    fr l (fun ho => h1 (ho.sub (le_refl _) hbn))⟩
  · show cj store (ν (B.cell _ _)) = cj store (μ (B.cell _ _))
    rw [fr]
    rintro ⟨i, j', hi, hj', e⟩
    simp only [MatV.sub] at hi hj' e
    have := ok.inj _ _ _ _ (by omega) (by omega) hr hc e
    unfold ungDone at h2
    rw [hj] at h2
    rw [ha] at this; rw [hb, ha] at hj'
    cases dir <;> simp at h2 this hj' <;> omega
  · have : ungList dir tau.n j = [] := by
      unfold ungList; rw [hj]; cases dir <;> simp
    rw [this]; simp
  · unfold ungDone at h2
    rw [hj] at h2
    show cj store (ν (B.cell _ _)) = _
    rw [hv r c hr (by rw [ha]; cases dir <;> simp at h2 ⊢ <;> omega) (by rw [hb]; cases dir <;> simp at h2 ⊢ <;> omega)]
    unfold cj eyeF; split <;> split <;> simp

/-! ### The program -/

/-- The post-condition of ungq_level2 on a panel. -/
def PanelPost (dir : Direction) (store : StoreV) (B : MatV L) (tau work : VecV L) (q ib : Nat) (ν ν' : Store L 𝕜) : Prop :=
  mat q ib (LG store ν' B) = houseP dir .Columnwise q ib (LG store ν B) (ventry ν tau) * mat q ib (eyeF dir q ib) ∧
    ∀ l, ¬ B.Owns l → ¬ work.Owns l → ν' l = ν l

theorem UState.panelPost {dir : Direction} {store : StoreV} {B : MatV L} {tau work : VecV L} {q ib : Nat} {ν ν' : Store L 𝕜}
    (hq : B.m = q) (hib : B.n = ib) (ht : tau.n = ib)
    (h : UState dir store B tau work ν (if dir = .Forward then 0 else tau.n) ν') : PanelPost dir store B tau work q ib ν ν' := by
  refine ⟨?_, h.frame⟩
  subst hq hib
  have := h.inv.houseQ (by omega) rfl
  rw [this, houseP_cols]
  congr 1
  have e : (fun r i => LG store ν B r (qcol dir B.n tau.n i)) = LG store ν B := by
    funext r i
    unfold qcol
    cases dir <;> simp [ht]
  rw [e, ht]

theorem wp_ungq_panelC {dir : Direction} {A : MatV L} {tau work : VecV L} (ok : UngqOK .Columnwise A tau work) {q ib : Nat}
    (hq : A.m = q) (hib : A.n = ib) (ht : tau.n = ib) (hq0 : 0 < q) (hi0 : 0 < ib) {ν : Store L 𝕜} :
    wp (ungq dir .Columnwise A tau work) ν (fun _ ν' => PanelPost dir .Columnwise A tau work q ib ν ν') := by
  cases dir
  · exact wp_conseq (wp_ungq_cf ok) fun _ ν' h => (h.2.1 (by omega)).panelPost hq hib ht
  · exact wp_conseq (wp_ungq_cb ok) fun _ ν' h => (h.2.1 (by omega)).panelPost hq hib ht

theorem wp_ungq_panelR {dir : Direction} {A : MatV L} {tau work : VecV L} (ok : UngqOK .Rowwise A tau work) {q ib : Nat}
    (hq : A.n = q) (hib : A.m = ib) (ht : tau.n = ib) (hq0 : 0 < q) (hi0 : 0 < ib) {ν : Store L 𝕜} :
    wp (ungq dir .Rowwise A tau work) ν (fun _ ν' => PanelPost dir .Rowwise A.tr tau work q ib ν ν') := by
  cases dir
  · exact wp_conseq (wp_ungq_rf ok) fun _ ν' h => UState.panelPost (B := A.tr) hq hib ht (h.2.1 (by omega))
  · exact wp_conseq (wp_ungq_rb ok) fun _ ν' h => UState.panelPost (B := A.tr) hq hib ht (h.2.1 (by omega))

/-- What the second half of a step does. -/
structure TailPost (dir : Direction) (store : StoreV) (B : MatV L) (tau work : VecV L) (r0 q c0 ib : Nat) (ν1 ν2 : Store L 𝕜) : Prop where
  pan : mat q ib (LG store ν2 (B.sub r0 (r0 + q) c0 (c0 + ib))) =
      houseP dir .Columnwise q ib (LG store ν1 (B.sub r0 (r0 + q) c0 (c0 + ib))) (ventry ν1 tau) * mat q ib (eyeF dir q ib)
  zero : ∀ r c, r < B.m → c < ib → (r < r0 ∨ r0 + q ≤ r) → ν2 (B.cell r (c0 + c)) = 0
  fr : ∀ l, ¬ (B.sub 0 B.m c0 (c0 + ib)).Owns l → ¬ work.Owns l → ν2 l = ν1 l

theorem tailPost_of {dir : Direction} {store : StoreV} {B : MatV L} {tau work : VecV L} {r0 q c0 ib z0 z1 : Nat} {ν1 νa ν2 : Store L 𝕜}
    (ok : QrOK B tau work) (ht : tau.n = ib) (hrq : r0 + q ≤ B.m) (hci : c0 + ib ≤ B.n)
    (hz : (z0 = 0 ∧ z1 = r0 ∧ r0 + q = B.m) ∨ (z0 = r0 + q ∧ z1 = B.m ∧ r0 = 0))
    (h : (MState (B.sub z0 z1 c0 (c0 + ib)) ν1 (fun _ _ => 0) νa ∧ PanelPost dir store (B.sub r0 (r0 + q) c0 (c0 + ib)) tau work q ib νa ν2) ∨
      (PanelPost dir store (B.sub r0 (r0 + q) c0 (c0 + ib)) tau work q ib ν1 νa ∧ MState (B.sub z0 z1 c0 (c0 + ib)) νa (fun _ _ => 0) ν2)) :
    TailPost dir store B tau work r0 q c0 ib ν1 ν2 := by
  have hz1 : z1 ≤ B.m := by omega
  have htB : ∀ j, j < tau.n → ¬ B.Owns (tau.cell j) := by
    rintro j hj ⟨r, c', hr, hc', e⟩
    exact ok.At r c' hr hc' ⟨j, hj, e.symm⟩
  have hBw : ∀ r c, r < B.m → c < B.n → ¬ work.Owns (B.cell r c) := fun r c hr hc => ok.Aw r c hr hc
  have hout : ∀ x y a b r c, y ≤ B.m → b ≤ B.n → r < B.m → c < B.n → (r < x ∨ y ≤ r ∨ c < a ∨ b ≤ c) →
      ¬ (B.sub x y a b).Owns (B.cell r c) := by
    rintro x y a b r c hy hb hr hc hd ⟨i, j, hi, hj, e⟩
    simp only [MatV.sub] at hi hj e
    have := ok.inj _ _ _ _ (by omega) (by omega) hr hc e
    omega
  have hown : ∀ x y, y ≤ B.m → ∀ l, (B.sub x y c0 (c0 + ib)).Owns l → (B.sub 0 B.m c0 (c0 + ib)).Owns l := by
    rintro x y hy l ⟨i, j, hi, hj, e⟩
    simp only [MatV.sub] at hi hj e
    exact ⟨x + i, j, by simp only [MatV.sub]; omega, by simp only [MatV.sub]; omega, by simp only [MatV.sub]; rw [Nat.zero_add]; exact e⟩
  rcases h with ⟨h1, h2⟩ | ⟨h1, h2⟩
  · refine ⟨?_, fun r c hr hc hd => ?_, fun l hl hw => ?_⟩
    · rw [h2.1]
      congr 1
      have et : ∀ j, j < ib → ventry νa tau j = ventry ν1 tau j := fun j hj =>
        h1.frame _ (fun ho => htB j (by omega) (ho.sub hz1 hci))
      have ev : ∀ r c, r < q → c < ib → LG store νa (B.sub r0 (r0 + q) c0 (c0 + ib)) r c = LG store ν1 (B.sub r0 (r0 + q) c0 (c0 + ib)) r c := by
        intro r c hr hc
        show cj store (νa (B.cell _ _)) = cj store (ν1 (B.cell _ _))
        rw [h1.frame _ (hout _ _ _ _ _ _ hz1 hci (by omega) (by omega) (by omega))]
      unfold houseP
      congr 1
      refine List.map_congr_left fun j hj => ?_
      rw [List.mem_range] at hj
      have hqi : qidx dir ib j < ib := by unfold qidx; split <;> omega
      unfold houseH
      rw [et _ hqi, mat_ext_iff]
      intro r c hr hc
      unfold reflF
      have : ∀ r, r < q → houseVec dir .Columnwise q ib (LG store νa (B.sub r0 (r0 + q) c0 (c0 + ib))) (qidx dir ib j) r =
          houseVec dir .Columnwise q ib (LG store ν1 (B.sub r0 (r0 + q) c0 (c0 + ib))) (qidx dir ib j) r := by
        intro r hr
        unfold houseVec
        simp only [ev r _ hr hqi]
      rw [this r hr, this c hc]
    · rw [h2.2 _ (hout _ _ _ _ _ _ hrq hci hr (by omega) (by omega)) (hBw _ _ hr (by omega))]
      have := h1.val (r - z0) c (by simp only [MatV.sub]; omega) (by simp only [MatV.sub]; omega)
      simp only [MatV.sub] at this
      rw [show z0 + (r - z0) = r by omega] at this
      exact this
    · rw [h2.2 l (fun ho => hl (hown _ _ hrq l ho)) hw, h1.frame l (fun ho => hl (hown _ _ hz1 l ho))]
  · refine ⟨?_, fun r c hr hc hd => ?_, fun l hl hw => ?_⟩
    · rw [← h1.1, mat_ext_iff]
      intro r c hr hc
      show cj store (ν2 (B.cell _ _)) = cj store (νa (B.cell _ _))
      rw [h2.frame _ (hout _ _ _ _ _ _ hz1 hci (by omega) (by omega) (by omega))]
    · have := h2.val (r - z0) c (by simp only [MatV.sub]; omega) (by simp only [MatV.sub]; omega)
      simp only [MatV.sub] at this
      rw [show z0 + (r - z0) = r by omega] at this
      exact this
    · rw [h2.frame l (fun ho => hl (hown _ _ hz1 l ho)), h1.2 l (fun ho => hl (hown _ _ hrq l ho)) hw]

theorem wp_lasetZ {A : MatV L} (hA : A.Inj) {μ : Store L 𝕜} :
    wp (lasetG (0 : 𝕜) A) μ (fun _ ν => MState A μ (fun _ _ => 0) ν) :=
  wp_conseq (wp_lasetG hA) fun _ ν h => h.congr fun i j _ _ => by simp

theorem lasetZ_tr {A : MatV L} {r0 r1 c0 c1 : Nat} {μ ν : Store L 𝕜} (h : MState (A.sub r0 r1 c0 c1) μ (fun _ _ => (0 : 𝕜)) ν) :
    MState (A.tr.sub c0 c1 r0 r1) μ (fun _ _ => 0) ν :=
  ⟨fun i j hi hj => h.val j i hj hi, fun l hl => h.frame l fun ⟨i, j, hi, hj, e⟩ => hl ⟨j, i, hj, hi, e⟩⟩

/-- The update of the rest of the matrix, Columnwise. -/
theorem wp_ungqUpdC {isReal : Bool} (hreal : isReal = true → ∀ z : 𝕜, star z = z) {dir : Direction} {A TT : MatV L}
    {tau work w1 : VecV L} {i ib nb r0 q c0 d0 nr : Nat} {ν : Store L 𝕜} (ok : QrOK A tau work) (hn : A.n ≤ A.m) (hk : tau.n ≤ A.n)
    (hi : i + ib ≤ tau.n) (hp : UngBlkPar dir A.m A.n tau.n i ib r0 q c0 d0 nr) {c : Prop} [Decidable c] (hc : c ↔ 0 < nr)
    (hT : 0 < nr → TT = wview work nb nb ∧ w1 = work.sub (nb * nb) work.n) (hib : ib ≤ nb)
    (wn : 0 < nr → nb * nb + ib * nr ≤ work.n) :
    wp (ungqUpd (decide c) isReal dir .Columnwise (A.sub r0 (r0 + q) c0 (c0 + ib)) (tau.sub i (i + ib)) TT A r0 (r0 + q) d0 (d0 + nr) w1) ν
      (fun _ ν1 => mat q nr (LG .Columnwise ν1 (A.sub r0 (r0 + q) d0 (d0 + nr))) =
        houseP dir .Columnwise q ib (LG .Columnwise ν (A.sub r0 (r0 + q) c0 (c0 + ib))) (ventry ν (tau.sub i (i + ib))) *
          mat q nr (LG .Columnwise ν (A.sub r0 (r0 + q) d0 (d0 + nr))) ∧
        ∀ l, ¬ (A.sub r0 (r0 + q) d0 (d0 + nr)).Owns l → ¬ work.Owns l → ν1 l = ν l) := by
  obtain ⟨hr0, hq, hc0, hd0, hnr⟩ := hp
  have hrq : r0 + q ≤ A.m := by rw [hq]; split <;> omega
  have hci : c0 + ib ≤ A.n := by rw [hc0]; split <;> omega
  have hdn : d0 + nr ≤ A.n := by rw [hnr]; split <;> omega
  have hcd : c0 + ib ≤ d0 ∨ d0 + nr ≤ c0 := by rw [hnr, hc0, hd0]; cases dir <;> simp <;> omega
  have hqib : ib ≤ q := by rw [hr0] at hq; cases dir <;> simp at hq <;> omega
  unfold ungqUpd
  by_cases h0 : c
  · have h1 := hc.1 h0
    obtain ⟨rfl, rfl⟩ := hT h1
    have wn := wn h1
    simp only [h0, decide_true, if_true, wp_bind]
    refine wp_slice (by omega) hrq (by omega) hdn ?_
    have bok : BlkOK .Left .Columnwise (A.sub r0 (r0 + q) c0 (c0 + ib)) (tau.sub i (i + ib)) (wview work nb nb)
        (A.sub r0 (r0 + q) d0 (d0 + nr)) (work.sub (nb * nb) work.n) := by
      refine blkOK_of (Or.inl rfl) (ok.inj.sub hrq hdn) ok.winj (ok.inj.disj_sub hrq hci hrq hdn (by omega))
        (ok.Aw.rows hrq hci) (vec_sub_disj ok.tw (by omega)) (ok.Aw.rows hrq hdn) ?_ ?_ ?_ ?_ ?_
      · simp [VecV.sub]; omega
      · simp [vcnt, MatV.sub, VecV.sub]
      · simp [vlen, MatV.sub]
      · simp [vlen, MatV.sub, VecV.sub]; omega
      · simp [larfbWorksize, WorkInfo.size, WorkInfo.ofMat, MatV.sub, VecV.sub]; exact wn
    refine wp_conseq (wp_blockApplyD bok (Or.inl rfl) hreal (m := q) (n := nr) (k := ib) (by simp [MatV.sub]) (by simp [MatV.sub]) (by simp [VecV.sub]) ν) fun _ ν2 ⟨e, fr⟩ => ?_
    refine ⟨?_, fun l h1 h2 => fr l h1 (fun ho => h2 (ho.sub (le_refl _))) (fun ho => h2 (wview_owns (by omega) ho))⟩
    simp only [if_true] at e
    exact e
  · have h1 : nr = 0 := by
      by_contra h; exact h0 (hc.2 (by omega))
    simp only [h0, decide_false, Bool.false_eq_true, if_false, wp_pure]
    refine ⟨?_, fun _ _ _ => trivial⟩
    subst h1
    funext i j
    exact absurd j.2 (by omega)

/-- The update of the rest of the matrix, Rowwise. -/
theorem wp_ungqUpdR {isReal : Bool} (hreal : isReal = true → ∀ z : 𝕜, star z = z) {dir : Direction} {A TT : MatV L}
    {tau work w1 : VecV L} {i ib nb r0 q c0 d0 nr : Nat} {ν : Store L 𝕜} (ok : QrOK A tau work) (hn : A.m ≤ A.n) (hk : tau.n ≤ A.m)
    (hi : i + ib ≤ tau.n) (hp : UngBlkPar dir A.n A.m tau.n i ib r0 q c0 d0 nr) {c : Prop} [Decidable c] (hc : c ↔ 0 < nr)
    (hT : 0 < nr → TT = wview work nb nb ∧ w1 = work.sub (nb * nb) work.n) (hib : ib ≤ nb)
    (wn : 0 < nr → nb * nb + nr * ib ≤ work.n) :
    wp (ungqUpd (decide c) isReal dir .Rowwise (A.sub c0 (c0 + ib) r0 (r0 + q)) (tau.sub i (i + ib)) TT A d0 (d0 + nr) r0 (r0 + q) w1) ν
      (fun _ ν1 => mat q nr (LG .Rowwise ν1 (A.tr.sub r0 (r0 + q) d0 (d0 + nr))) =
        houseP dir .Columnwise q ib (LG .Rowwise ν (A.tr.sub r0 (r0 + q) c0 (c0 + ib))) (ventry ν (tau.sub i (i + ib))) *
          mat q nr (LG .Rowwise ν (A.tr.sub r0 (r0 + q) d0 (d0 + nr))) ∧
        ∀ l, ¬ (A.tr.sub r0 (r0 + q) d0 (d0 + nr)).Owns l → ¬ work.Owns l → ν1 l = ν l) := by
  obtain ⟨hr0, hq, hc0, hd0, hnr⟩ := hp
  have hrq : r0 + q ≤ A.n := by rw [hq]; split <;> omega
  have hci : c0 + ib ≤ A.m := by rw [hc0]; split <;> omega
  have hdn : d0 + nr ≤ A.m := by rw [hnr]; split <;> omega
  have hcd : c0 + ib ≤ d0 ∨ d0 + nr ≤ c0 := by rw [hnr, hc0, hd0]; cases dir <;> simp <;> omega
  have hqib : ib ≤ q := by rw [hr0] at hq; cases dir <;> simp at hq <;> omega
  unfold ungqUpd
  by_cases h0 : c
  · have h1 := hc.1 h0
    obtain ⟨rfl, rfl⟩ := hT h1
    have wn := wn h1
    simp only [h0, decide_true, if_true, reduceCtorEq, if_false, wp_bind]
    refine wp_slice (by omega) hdn (by omega) hrq ?_
    have bok : BlkOK .Right .Rowwise (A.sub c0 (c0 + ib) r0 (r0 + q)) (tau.sub i (i + ib)) (wview work nb nb)
        (A.sub d0 (d0 + nr) r0 (r0 + q)) (work.sub (nb * nb) work.n) := by
      refine blkOK_of (Or.inr rfl) (ok.inj.sub hdn hrq) ok.winj (ok.inj.disj_sub hci hrq hdn hrq (by omega))
        (ok.Aw.rows hci hrq) (vec_sub_disj ok.tw (by omega)) (ok.Aw.rows hdn hrq) ?_ ?_ ?_ ?_ ?_
      · simp [VecV.sub]; omega
      · simp [vcnt, MatV.sub, VecV.sub]
      · simp [vlen, MatV.sub]
      · simp [vlen, MatV.sub, VecV.sub]; omega
      · simp [larfbWorksize, WorkInfo.size, WorkInfo.ofMat, MatV.sub, VecV.sub]; exact wn
    refine wp_conseq (wp_blockApplyD bok (Or.inr (Or.inl rfl)) hreal (m := nr) (n := q) (k := ib) (by simp [MatV.sub]) (by simp [MatV.sub]) (by simp [VecV.sub]) ν) fun _ ν2 ⟨e, fr⟩ => ?_
    refine ⟨?_, fun l h1 h2 => fr l (fun ho => h1 ?_) (fun ho => h2 (ho.sub (le_refl _))) (fun ho => h2 (wview_owns (by omega) ho))⟩
    · simp only [reduceCtorEq, if_false] at e
      have e' := congrArg Matrix.conjTranspose e
      rw [Matrix.conjTranspose_mul, mat_conjTranspose, mat_conjTranspose] at e'
      refine Eq.trans e' ?_
      congr 1
      exact Matrix.conjTranspose_conjTranspose _
    · obtain ⟨i, j, hi, hj, e⟩ := ho
      exact ⟨j, i, hj, hi, e⟩
  · have h1 : nr = 0 := by
      by_contra h; exact h0 (hc.2 (by omega))
    simp only [h0, decide_false, Bool.false_eq_true, if_false, wp_pure]
    refine ⟨?_, fun _ _ _ => trivial⟩
    subst h1
    funext i j
    exact absurd j.2 (by omega)

theorem qrOK_subT {A : MatV L} {tau work : VecV L} (ok : QrOK A tau work) {a b : Nat}
    (hb : b ≤ tau.n) : QrOK A (tau.sub a b) work := by
  have := qrOK_sub (r0 := 0) (c0 := 0) (a := a) ok (le_refl _) (le_refl _) hb
  exact ⟨ok.inj, this.tinj, ok.winj, fun i j hi hj => by
    have := this.At i j (by simpa [MatV.sub] using hi) (by simpa [MatV.sub] using hj)
    simpa [MatV.sub] using this, ok.Aw, this.tw⟩

theorem ungqWorksize_monoC {A B : MatV L} (hm : A.m ≤ B.m) (hn : A.n ≤ B.n) : ungqWorksize .Columnwise A ≤ ungqWorksize .Columnwise B := by
  unfold ungqWorksize
  simp only []
  split
  · rw [if_pos (by omega)]; exact larfWorksize_left hm (by omega)
  · omega

theorem ungqWorksize_monoR {A B : MatV L} (hm : A.m ≤ B.m) (hn : A.n ≤ B.n) : ungqWorksize .Rowwise A ≤ ungqWorksize .Rowwise B := by
  unfold ungqWorksize
  simp only []
  split
  · rw [if_pos (by omega)]; exact larfWorksize_right (by omega) hn
  · omega

/-- What the workspace query guarantees. -/
theorem ungqBlkWorksize_leC {dir : Direction} {A : MatV L} {k nb0 nb w : Nat} (hnb : nb = min nb0 k)
    (h : (ungqBlkWorksize dir .Columnwise A k nb0).size ≤ w) :
    ungqWorksize .Columnwise (A.sub 0 A.m 0 nb) ≤ w ∧ (nb < A.n →
      nb * nb + nb * (if dir = .Forward then A.n - nb else (A.n - k) + (k - 1) / nb * nb) ≤ w) := by
  unfold ungqBlkWorksize at h
  simp only [← hnb] at h
  have h0 : ∀ w1 : WorkInfo, (w1.minMax (.ofSize (ungqWorksize .Columnwise (A.sub 0 A.m 0 nb)))).size ≤ w →
      w1.size ≤ w ∧ ungqWorksize .Columnwise (A.sub 0 A.m 0 nb) ≤ w := by
    intro w1 h
    obtain ⟨h1, h2⟩ := C05_minMax_size w1 (.ofSize (ungqWorksize .Columnwise (A.sub 0 A.m 0 nb)))
    have h3 : (WorkInfo.ofSize (ungqWorksize .Columnwise (A.sub 0 A.m 0 nb))).size = ungqWorksize .Columnwise (A.sub 0 A.m 0 nb) := by
      simp [WorkInfo.size, WorkInfo.ofSize]
    omega
  obtain ⟨h1, h2⟩ := h0 _ h
  refine ⟨h2, fun hc => ?_⟩
  rw [if_pos hc, C05_add_size _ _ (by simp [larfbWorksize, WorkInfo.Valid, WorkInfo.ofMat]) (by simp [WorkInfo.Valid, WorkInfo.ofMat])] at h1
  simp only [larfbWorksize, if_true, WorkInfo.size, WorkInfo.ofMat] at h1
  omega

theorem ungqBlkWorksize_leR {dir : Direction} {A : MatV L} {k nb0 nb w : Nat} (hnb : nb = min nb0 k)
    (h : (ungqBlkWorksize dir .Rowwise A k nb0).size ≤ w) :
    ungqWorksize .Rowwise (A.sub 0 nb 0 A.n) ≤ w ∧ (nb < A.m →
      nb * nb + (if dir = .Forward then A.m - nb else (A.m - k) + (k - 1) / nb * nb) * nb ≤ w) := by
  unfold ungqBlkWorksize at h
  simp only [← hnb] at h
  have h0 : ∀ w1 : WorkInfo, (w1.minMax (.ofSize (ungqWorksize .Rowwise (A.sub 0 nb 0 A.n)))).size ≤ w →
      w1.size ≤ w ∧ ungqWorksize .Rowwise (A.sub 0 nb 0 A.n) ≤ w := by
    intro w1 h
    obtain ⟨h1, h2⟩ := C05_minMax_size w1 (.ofSize (ungqWorksize .Rowwise (A.sub 0 nb 0 A.n)))
    have h3 : (WorkInfo.ofSize (ungqWorksize .Rowwise (A.sub 0 nb 0 A.n))).size = ungqWorksize .Rowwise (A.sub 0 nb 0 A.n) := by
      simp [WorkInfo.size, WorkInfo.ofSize]
    omega
  obtain ⟨h1, h2⟩ := h0 _ h
  refine ⟨h2, fun hc => ?_⟩
  rw [if_pos hc, C05_add_size _ _ (by simp [larfbWorksize, WorkInfo.Valid, WorkInfo.ofMat]) (by simp [WorkInfo.Valid, WorkInfo.ofMat])] at h1
  simp only [larfbWorksize, reduceCtorEq, if_false, WorkInfo.size, WorkInfo.ofMat] at h1
  omega

/-- What a step needs to know about the blocked call. -/
structure UngCtx (n k : Nat) (work : VecV L) (nb : Nat) (TT : MatV L) (w1 : VecV L) : Prop where
  nb0 : 0 < nb
  nbk : nb ≤ k
  T : nb < n → TT = wview work nb nb ∧ w1 = work.sub (nb * nb) work.n

theorem wp_ungqrStep {isReal : Bool} (hreal : isReal = true → ∀ z : 𝕜, star z = z) {A TT : MatV L} {tau work w1 : VecV L}
    (ok : QrOK A tau work) (hn : A.n ≤ A.m) (hk : tau.n ≤ A.n) {nb j ib : Nat} (cx : UngCtx A.n tau.n work nb TT w1)
    (hw1 : ungqWorksize .Columnwise (A.sub 0 A.m 0 nb) ≤ work.n) (hw2 : nb < A.n → nb * nb + nb * (A.n - nb) ≤ work.n)
    (hj : j < tau.n) (hib : ib = min nb (tau.n - j)) (hjb : j = 0 ∨ nb ≤ j) {μ ν : Store L 𝕜}
    (h : UState .Forward .Columnwise A tau work μ (j + ib) ν) :
    wp (ungqrStep isReal A tau work TT w1 nb j) ν (fun _ ν' => UState .Forward .Columnwise A tau work μ j ν') := by
  have hnb0 := cx.nb0
  have hnbk := cx.nbk
  unfold ungqrStep
  simp only [wp_bind, ← hib]
  refine wp_vslice (by omega) (by omega) ?_
  refine wp_slice (by omega) (le_refl _) (by omega) (by omega) ?_
  have par : UngBlkPar .Forward A.m A.n tau.n j ib j (A.m - j) j (j + ib) (A.n - j - ib) :=
    ⟨rfl, by simp; omega, rfl, rfl, by simp; omega⟩
  have em : j + (A.m - j) = A.m := by omega
  have en : j + ib + (A.n - j - ib) = A.n := by omega
  have U := wp_ungqUpdC (c := j + ib < A.n) (nb := nb) (TT := TT) (w1 := w1) hreal (ν := ν) ok hn hk (by omega) par (by omega)
    (fun h => cx.T (by omega)) (by omega) (fun h => by
      have h1 := hw2 (by omega)
      have h2 : ib * (A.n - j - ib) ≤ nb * (A.n - nb) := Nat.mul_le_mul (by omega) (by omega)
      omega)
  rw [em, en] at U
  refine wp_conseq U ?_
  rintro _ ν1 ⟨hrest, fr1⟩
  refine wp_slice (by omega) (by omega) (by omega) (by omega) ?_
  refine wp_conseq (wp_lasetZ (ok.inj.sub (by omega) (by omega))) fun _ νa ha => ?_
  have lok : UngqOK .Columnwise (A.sub j A.m j (j + ib)) (tau.sub j (j + ib)) work := by
    refine ⟨qrOK_sub ok (le_refl _) (by omega) (by omega), ?_, ?_⟩
    · simp [MatV.sub, VecV.sub]; omega
    · exact le_trans (ungqWorksize_monoC (by simp [MatV.sub]) (by simp [MatV.sub]; omega)) hw1
  refine wp_conseq (wp_ungq_panelC lok (q := A.m - j) (ib := ib) (by simp [MatV.sub]) (by simp [MatV.sub]) (by simp [VecV.sub])
    (by omega) (by omega)) fun _ ν2 hpan => ?_
  rw [wp_pure]
  have tp : TailPost .Forward .Columnwise A (tau.sub j (j + ib)) work j (A.m - j) j ib ν1 ν2 := by
    refine tailPost_of (qrOK_subT ok (by omega)) (by simp [VecV.sub]) (by omega) (by omega) (Or.inl ⟨rfl, rfl, em⟩) (Or.inl ⟨ha, ?_⟩)
    rw [em]; exact hpan
  refine h.block ok hn hk (i := j) (ib := ib) (by omega) (by simp) (by simp) par ?_ ?_ tp.pan tp.zero tp.fr
  · rw [em, en]; exact hrest
  · rw [em, en]; exact fr1

theorem wp_ungqlStep {isReal : Bool} (hreal : isReal = true → ∀ z : 𝕜, star z = z) {A TT : MatV L} {tau work w1 : VecV L}
    (ok : QrOK A tau work) (hn : A.n ≤ A.m) (hk : tau.n ≤ A.n) {nb j ib : Nat} (cx : UngCtx A.n tau.n work nb TT w1)
    (hw1 : ungqWorksize .Columnwise (A.sub 0 A.m 0 nb) ≤ work.n)
    (hw2 : nb < A.n → nb * nb + nb * ((A.n - tau.n) + (tau.n - 1) / nb * nb) ≤ work.n)
    (hj : j < tau.n) (hib : ib = min nb (tau.n - j)) (hjb : ∃ b, j = b * nb) {μ ν : Store L 𝕜}
    (h : UState .Backward .Columnwise A tau work μ j ν) :
    wp (ungqlStep isReal A tau work TT w1 nb j) ν (fun r ν' => r = none ∧ UState .Backward .Columnwise A tau work μ (j + ib) ν') := by
  have hnb0 := cx.nb0
  have hnbk := cx.nbk
  have hjl : j ≤ (tau.n - 1) / nb * nb := by
    obtain ⟨b, rfl⟩ := hjb
    exact Nat.mul_le_mul_right _ ((Nat.le_div_iff_mul_le hnb0).2 (by omega))
  have hj0 : j = 0 ∨ nb ≤ j := by
    obtain ⟨b, rfl⟩ := hjb
    rcases Nat.eq_zero_or_pos b with h | h
    · left; rw [h, Nat.zero_mul]
    · right; exact Nat.le_mul_of_pos_left _ h
  unfold ungqlStep
  simp only [wp_bind, ← hib]
  refine wp_vslice (by omega) (by omega) ?_
  refine wp_slice (by omega) (by omega) (by omega) (by omega) ?_
  have par : UngBlkPar .Backward A.m A.n tau.n j ib 0 (A.m - tau.n + j + ib) (A.n - tau.n + j) 0 (A.n - tau.n + j) :=
    ⟨rfl, by simp, rfl, rfl, by simp⟩
  have U := wp_ungqUpdC (c := A.n - tau.n + j > 0) (nb := nb) (TT := TT) (w1 := w1) hreal (ν := ν) ok hn hk (by omega) par Iff.rfl
    (fun h => cx.T (by omega)) (by omega) (fun h => by
      have h1 := hw2 (by omega)
      have h2 : ib * (A.n - tau.n + j) ≤ nb * ((A.n - tau.n) + (tau.n - 1) / nb * nb) := Nat.mul_le_mul (by omega) (by omega)
      omega)
  rw [Nat.zero_add, Nat.zero_add] at U
  refine wp_conseq U ?_
  rintro _ ν1 ⟨hrest, fr1⟩
  refine wp_slice (by omega) (by omega) (by omega) (by omega) ?_
  have lok : UngqOK .Columnwise (A.sub 0 (A.m - tau.n + j + ib) (A.n - tau.n + j) (A.n - tau.n + j + ib)) (tau.sub j (j + ib)) work := by
    refine ⟨qrOK_sub ok (by omega) (by omega) (by omega), ?_, ?_⟩
    · simp [MatV.sub, VecV.sub]
    · exact le_trans (ungqWorksize_monoC (by simp [MatV.sub]; omega) (by simp [MatV.sub]; omega)) hw1
  refine wp_conseq (wp_ungq_panelC lok (q := A.m - tau.n + j + ib) (ib := ib) (by simp [MatV.sub]) (by simp [MatV.sub]) (by simp [VecV.sub])
    (by omega) (by omega)) fun _ νa hpan => ?_
  refine wp_conseq (wp_lasetZ (ok.inj.sub (by omega) (by omega))) fun _ ν2 ha => ?_
  rw [wp_pure]
  refine ⟨rfl, ?_⟩
  have tp : TailPost .Backward .Columnwise A (tau.sub j (j + ib)) work 0 (A.m - tau.n + j + ib) (A.n - tau.n + j) ib ν1 ν2 := by
    refine tailPost_of (qrOK_subT ok (by omega)) (by simp [VecV.sub]) (by omega) (by omega) (z0 := A.m - tau.n + j + ib) (z1 := A.m)
      (Or.inr ⟨by omega, rfl, rfl⟩) (Or.inr ⟨?_, ha⟩)
    rw [Nat.zero_add]; exact hpan
  refine h.block ok hn hk (i := j) (ib := ib) (by omega) (by simp) (by simp) par ?_ ?_ tp.pan tp.zero tp.fr
  · rw [Nat.zero_add, Nat.zero_add]; exact hrest
  · rw [Nat.zero_add, Nat.zero_add]; exact fr1

theorem wp_unglqStep {isReal : Bool} (hreal : isReal = true → ∀ z : 𝕜, star z = z) {A TT : MatV L} {tau work w1 : VecV L}
    (ok : QrOK A tau work) (hn : A.m ≤ A.n) (hk : tau.n ≤ A.m) {nb j ib : Nat} (cx : UngCtx A.m tau.n work nb TT w1)
    (hw1 : ungqWorksize .Rowwise (A.sub 0 nb 0 A.n) ≤ work.n) (hw2 : nb < A.m → nb * nb + (A.m - nb) * nb ≤ work.n)
    (hj : j < tau.n) (hib : ib = min nb (tau.n - j)) (hjb : j = 0 ∨ nb ≤ j) {μ ν : Store L 𝕜}
    (h : UState .Forward .Rowwise A.tr tau work μ (j + ib) ν) :
    wp (unglqStep isReal A tau work TT w1 nb j) ν (fun _ ν' => UState .Forward .Rowwise A.tr tau work μ j ν') := by
  have hnb0 := cx.nb0
  have hnbk := cx.nbk
  unfold unglqStep
  simp only [wp_bind, ← hib]
  refine wp_vslice (by omega) (by omega) ?_
  refine wp_slice (by omega) (by omega) (by omega) (le_refl _) ?_
  have par : UngBlkPar .Forward A.n A.m tau.n j ib j (A.n - j) j (j + ib) (A.m - j - ib) :=
    ⟨rfl, by simp; omega, rfl, rfl, by simp; omega⟩
  have em : j + (A.n - j) = A.n := by omega
  have en : j + ib + (A.m - j - ib) = A.m := by omega
  have U := wp_ungqUpdR (c := j + ib < A.m) (nb := nb) (TT := TT) (w1 := w1) hreal (ν := ν) ok hn hk (by omega) par (by omega)
    (fun h => cx.T (by omega)) (by omega) (fun h => by
      have h1 := hw2 (by omega)
      have h2 : (A.m - j - ib) * ib ≤ (A.m - nb) * nb := Nat.mul_le_mul (by omega) (by omega)
      omega)
  rw [em, en] at U
  refine wp_conseq U ?_
  rintro _ ν1 ⟨hrest, fr1⟩
  refine wp_slice (by omega) (by omega) (by omega) (by omega) ?_
  refine wp_conseq (wp_lasetZ (ok.inj.sub (by omega) (by omega))) fun _ νa ha => ?_
  have lok : UngqOK .Rowwise (A.sub j (j + ib) j A.n) (tau.sub j (j + ib)) work := by
    refine ⟨qrOK_sub ok (by omega) (le_refl _) (by omega), ?_, ?_⟩
    · simp [MatV.sub, VecV.sub]; omega
    · exact le_trans (ungqWorksize_monoR (by simp [MatV.sub]; omega) (by simp [MatV.sub])) hw1
  refine wp_conseq (wp_ungq_panelR lok (q := A.n - j) (ib := ib) (by simp [MatV.sub]) (by simp [MatV.sub]) (by simp [VecV.sub])
    (by omega) (by omega)) fun _ ν2 hpan => ?_
  rw [wp_pure]
  have tp : TailPost .Forward .Rowwise A.tr (tau.sub j (j + ib)) work j (A.n - j) j ib ν1 ν2 := by
    refine tailPost_of (qrOK_subT ok.tr (by omega)) (by simp [VecV.sub]) (show _ ≤ A.n by omega) (show _ ≤ A.m by omega)
      (Or.inl ⟨rfl, rfl, em⟩) (Or.inl ⟨lasetZ_tr ha, ?_⟩)
    rw [em]; exact hpan
  refine h.block ok.tr hn hk (i := j) (ib := ib) (by omega) (by simp) (by simp) par ?_ ?_ tp.pan tp.zero tp.fr
  · rw [em, en]; exact hrest
  · rw [em, en]; exact fr1

theorem wp_ungrqStep {isReal : Bool} (hreal : isReal = true → ∀ z : 𝕜, star z = z) {A TT : MatV L} {tau work w1 : VecV L}
    (ok : QrOK A tau work) (hn : A.m ≤ A.n) (hk : tau.n ≤ A.m) {nb j ib : Nat} (cx : UngCtx A.m tau.n work nb TT w1)
    (hw1 : ungqWorksize .Rowwise (A.sub 0 nb 0 A.n) ≤ work.n)
    (hw2 : nb < A.m → nb * nb + ((A.m - tau.n) + (tau.n - 1) / nb * nb) * nb ≤ work.n)
    (hj : j < tau.n) (hib : ib = min nb (tau.n - j)) (hjb : ∃ b, j = b * nb) {μ ν : Store L 𝕜}
    (h : UState .Backward .Rowwise A.tr tau work μ j ν) :
    wp (ungrqStep isReal A tau work TT w1 nb j) ν (fun r ν' => r = none ∧ UState .Backward .Rowwise A.tr tau work μ (j + ib) ν') := by
  have hnb0 := cx.nb0
  have hnbk := cx.nbk
  have hjl : j ≤ (tau.n - 1) / nb * nb := by
    obtain ⟨b, rfl⟩ := hjb
    exact Nat.mul_le_mul_right _ ((Nat.le_div_iff_mul_le hnb0).2 (by omega))
  have hj0 : j = 0 ∨ nb ≤ j := by
    obtain ⟨b, rfl⟩ := hjb
    rcases Nat.eq_zero_or_pos b with h | h
    · left; rw [h, Nat.zero_mul]
    · right; exact Nat.le_mul_of_pos_left _ h
  unfold ungrqStep
  simp only [wp_bind, ← hib]
  refine wp_vslice (by omega) (by omega) ?_
  refine wp_slice (by omega) (by omega) (by omega) (by omega) ?_
  have par : UngBlkPar .Backward A.n A.m tau.n j ib 0 (A.n - tau.n + j + ib) (A.m - tau.n + j) 0 (A.m - tau.n + j) :=
    ⟨rfl, by simp, rfl, rfl, by simp⟩
  have U := wp_ungqUpdR (c := A.m - tau.n + j > 0) (nb := nb) (TT := TT) (w1 := w1) hreal (ν := ν) ok hn hk (by omega) par Iff.rfl
    (fun h => cx.T (by omega)) (by omega) (fun h => by
      have h1 := hw2 (by omega)
      have h2 : (A.m - tau.n + j) * ib ≤ ((A.m - tau.n) + (tau.n - 1) / nb * nb) * nb := Nat.mul_le_mul (by omega) (by omega)
      omega)
  rw [Nat.zero_add, Nat.zero_add] at U
  refine wp_conseq U ?_
  rintro _ ν1 ⟨hrest, fr1⟩
  refine wp_slice (by omega) (by omega) (by omega) (by omega) ?_
  have lok : UngqOK .Rowwise (A.sub (A.m - tau.n + j) (A.m - tau.n + j + ib) 0 (A.n - tau.n + j + ib)) (tau.sub j (j + ib)) work := by
    refine ⟨qrOK_sub ok (by omega) (by omega) (by omega), ?_, ?_⟩
    · simp [MatV.sub, VecV.sub]
    · exact le_trans (ungqWorksize_monoR (by simp [MatV.sub]; omega) (by simp [MatV.sub]; omega)) hw1
  refine wp_conseq (wp_ungq_panelR lok (q := A.n - tau.n + j + ib) (ib := ib) (by simp [MatV.sub]) (by simp [MatV.sub]) (by simp [VecV.sub])
    (by omega) (by omega)) fun _ νa hpan => ?_
  refine wp_conseq (wp_lasetZ (ok.inj.sub (by omega) (by omega))) fun _ ν2 ha => ?_
  rw [wp_pure]
  refine ⟨rfl, ?_⟩
  have tp : TailPost .Backward .Rowwise A.tr (tau.sub j (j + ib)) work 0 (A.n - tau.n + j + ib) (A.m - tau.n + j) ib ν1 ν2 := by
    refine tailPost_of (qrOK_subT ok.tr (by omega)) (by simp [VecV.sub]) (show _ ≤ A.n by omega) (show _ ≤ A.m by omega)
      (z0 := A.n - tau.n + j + ib) (z1 := A.n) (Or.inr ⟨by omega, rfl, rfl⟩) (Or.inr ⟨?_, lasetZ_tr ha⟩)
    rw [Nat.zero_add]; exact hpan
  refine h.block ok.tr hn hk (i := j) (ib := ib) (by omega) (by simp) (by simp) par ?_ ?_ tp.pan tp.zero tp.fr
  · rw [Nat.zero_add, Nat.zero_add]; exact hrest
  · rw [Nat.zero_add, Nat.zero_add]; exact fr1

end TLA
