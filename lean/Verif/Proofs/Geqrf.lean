import Verif.Proofs.Embed
import Verif.Proofs.BlockApply
import Verif.Proofs.HouseFinal
import Verif.Proofs.Potf2
import Verif.Props.Workspace
set_option linter.unusedTactic false
set_option linter.unusedVariables false
set_option linter.unreachableTactic false
set_option linter.unusedSectionVars false

/-! # geqrf, gelqf, geqlf, gerqf -/

namespace TLA
open Finset
variable {L 𝕜 : Type} [DecidableEq L] [RCLike 𝕜] [DecidableEq 𝕜] {p : HhPar}

/-- The slice parameters of a block of steps. -/
structure BlkPar (dir : Direction) (m n k s ib r0 q c0 t0 d0 nr : Nat) : Prop where
  q : q = m - s
  nr : nr = n - s - ib
  r0 : r0 = if dir = .Forward then s else 0
  c0 : c0 = if dir = .Forward then s else n - s - ib
  t0 : t0 = if dir = .Forward then s else k - s - ib
  d0 : d0 = if dir = .Forward then s + ib else 0

theorem QrState.block {dir : Direction} {store : StoreV} {B : MatV L} {tau work : VecV L} {k s ib : Nat}
    {μ ν ν1 ν2 : Store L 𝕜} {r0 q c0 t0 d0 nr : Nat} (h : QrState dir store B tau work k μ s ν)
    (ok : QrOK B tau work) (hs : s + ib ≤ k) (hm : k ≤ B.m) (hn : k ≤ B.n) (hk : k ≤ tau.n)
    (hp : BlkPar dir B.m B.n k s ib r0 q c0 t0 d0 nr)
    (loc : QrState dir store (B.sub r0 (r0 + q) c0 (c0 + ib)) (tau.sub t0 (t0 + ib)) work ib ν ib ν1)
    (hrest : mat q nr (LG store ν2 (B.sub r0 (r0 + q) d0 (d0 + nr))) =
      (houseP dir .Columnwise q ib (LG store ν1 (B.sub r0 (r0 + q) c0 (c0 + ib)))
        (ventry ν1 (tau.sub t0 (t0 + ib)))).conjTranspose * mat q nr (LG store ν1 (B.sub r0 (r0 + q) d0 (d0 + nr))))
    (fr : ∀ l, ¬ (B.sub r0 (r0 + q) d0 (d0 + nr)).Owns l → ¬ work.Owns l → ν2 l = ν1 l) :
    QrState dir store B tau work k μ (s + ib) ν2 := by
  obtain ⟨hq, hnr, hr0, hc0, ht0, hd0⟩ := hp
  have hrq : r0 + q ≤ B.m := by rw [hr0]; split <;> omega
  have hci : c0 + ib ≤ B.n := by rw [hc0]; split <;> omega
  have hdn : d0 + nr ≤ B.n := by rw [hd0]; split <;> omega
  have hti : t0 + ib ≤ k := by rw [ht0]; split <;> omega
  have hcd : c0 + ib ≤ d0 ∨ d0 + nr ≤ c0 := by rw [hc0, hd0]; cases dir <;> simp <;> omega
  have htB : ∀ j, j < tau.n → ¬ B.Owns (tau.cell j) := by
    rintro j hj ⟨r, c', hr, hc', e⟩
    exact ok.At r c' hr hc' ⟨j, hj, e.symm⟩
  have hsub : ∀ {a b : Nat}, b ≤ B.n → ∀ {l}, ¬ B.Owns l → ¬ (B.sub r0 (r0 + q) a b).Owns l :=
    fun hb l hl ho => hl (ho.sub hrq hb)
  have hBw : ∀ r c, r < B.m → c < B.n → ¬ work.Owns (B.cell r c) := fun r c hr hc => ok.Aw r c hr hc
  have hBt : ∀ r c, r < B.m → c < B.n → ¬ ((tau.sub t0 (t0 + ib)).sub 0 ib).Owns (B.cell r c) := by
    rintro r c hr hc ⟨j, hj, e⟩
    refine ok.At r c hr hc ⟨t0 + (0 + j), by simp [VecV.sub] at hj; omega, by simpa [VecV.sub] using e⟩
  -- cells of B outside a block of columns
  have hout : ∀ a b r c, b ≤ B.n → r < B.m → c < B.n → (r < r0 ∨ r0 + q ≤ r ∨ c < a ∨ b ≤ c) →
      ¬ (B.sub r0 (r0 + q) a b).Owns (B.cell r c) := by
    rintro a b r c hb hr hc hd ⟨i, j, hi, hj, e⟩
    simp only [MatV.sub] at hi hj e
    have := ok.inj _ _ _ _ (by omega) (by omega) hr hc e
    omega
  have h21 : ∀ r c, r < B.m → c < B.n → (r < r0 ∨ r0 + q ≤ r ∨ c < d0 ∨ d0 + nr ≤ c) → ν2 (B.cell r c) = ν1 (B.cell r c) :=
    fun r c hr hc hd => fr _ (hout _ _ r c hdn hr hc hd) (hBw r c hr hc)
  have h10 : ∀ r c, r < B.m → c < B.n → (r < r0 ∨ r0 + q ≤ r ∨ c < c0 ∨ c0 + ib ≤ c) → ν1 (B.cell r c) = ν (B.cell r c) :=
    fun r c hr hc hd => loc.frame _ (hout _ _ r c hci hr hc hd) (hBt r c hr hc) (hBw r c hr hc)
  have ht2 : ∀ i, i < tau.n → ν2 (tau.cell i) = ν1 (tau.cell i) := fun i hi =>
    fr _ (hsub hdn (htB i hi)) (ok.tw i hi)
  refine ⟨?_, fun l h1 h2 h3 => ?_⟩
  · have lg21 : ∀ i j, i < q → j < ib → sh r0 c0 (LG store ν2 B) i j = LG store ν1 (B.sub r0 (r0 + q) c0 (c0 + ib)) i j := by
      intro i j hi hj
      show cj store (ν2 (B.cell _ _)) = cj store (ν1 (B.cell _ _))
      rw [h21 _ _ (by omega) (by omega) (by omega)]
    have lt21 : ∀ i, i < ib → ventry ν2 tau (t0 + i) = ventry ν1 (tau.sub t0 (t0 + ib)) i := fun i hi => ht2 _ (by omega)
    refine h.inv.block hs hm hn hq hnr hr0 hc0 ht0 hd0 ?_ ?_ ?_ ?_
    · have inv := loc.inv
      simp only [MatV.sub_m, MatV.sub_n, Nat.add_sub_cancel_left] at inv
      exact inv.congr (le_refl _) (by omega) (le_refl _) lg21 lt21
    · have e : houseP dir .Columnwise q ib (sh r0 c0 (LG store ν2 B)) (fun i => ventry ν2 tau (t0 + i)) =
          houseP dir .Columnwise q ib (LG store ν1 (B.sub r0 (r0 + q) c0 (c0 + ib))) (ventry ν1 (tau.sub t0 (t0 + ib))) := by
        unfold houseP
        congr 1
        refine List.map_congr_left fun i hi => ?_
        rw [List.mem_range] at hi
        have hqi : qidx dir ib i < ib := by unfold qidx; split <;> omega
        unfold houseH
        beta_reduce
        rw [lt21 _ hqi, mat_ext_iff]
        intro r c hr hc
        unfold reflF
        have : ∀ r, r < q → houseVec dir .Columnwise q ib (sh r0 c0 (LG store ν2 B)) (qidx dir ib i) r =
            houseVec dir .Columnwise q ib (LG store ν1 (B.sub r0 (r0 + q) c0 (c0 + ib))) (qidx dir ib i) r := by
          intro r hr
          unfold houseVec
          simp only [lg21 r _ hr hqi]
        rw [this r hr, this c hc]
      rw [e]
      refine Eq.trans hrest ?_
      congr 1
      rw [mat_ext_iff]
      intro i j hi hj
      show cj store (ν1 (B.cell _ _)) = cj store (ν (B.cell _ _))
      rw [h10 _ _ (by omega) (by omega) (by omega)]
    · intro r c hr hc hd
      show cj store (ν2 (B.cell _ _)) = cj store (ν (B.cell _ _))
      rw [h21 r c hr hc (by omega), h10 r c hr hc (by omega)]
    · intro i hi hd
      show ν2 (tau.cell i) = ν (tau.cell i)
      rw [ht2 i (by omega)]
      refine loc.frame _ (hsub hci (htB i (by omega))) ?_ (ok.tw i (by omega))
      rintro ⟨j, hj, e⟩
      simp only [VecV.sub] at hj e
      have := ok.tinj _ _ (by omega) (by omega) e
      omega
  · rw [fr l (hsub hdn h1) h3, loc.frame l (hsub hci h1) ?_ h3, h.frame l h1 h2 h3]
    rintro ⟨j, hj, e⟩
    simp only [VecV.sub] at hj e
    exact h2 ⟨t0 + (0 + j), by simp [VecV.sub]; omega, by simpa [VecV.sub] using e⟩

/-- The panel of the next block is within the range of Blue's algorithm. -/
theorem QRInv.panel {dir : Direction} {store : StoreV} {B : MatV L} {g : Nat → 𝕜} {k s ib : Nat}
    {μ ν : Store L 𝕜} {r0 q c0 t0 d0 nr : Nat} (h : QRInv dir B.m B.n k (LG store μ B) s (LG store ν B) g)
    (hs : s + ib ≤ k) (hm : k ≤ B.m) (hn : k ≤ B.n)
    (hp : BlkPar dir B.m B.n k s ib r0 q c0 t0 d0 nr) (hb : ColBound p store μ B) :
    ColBound p store ν (B.sub r0 (r0 + q) c0 (c0 + ib)) := by
  obtain ⟨hq, hnr, hr0, hc0, ht0, hd0⟩ := hp
  have hrq : r0 + q ≤ B.m := by rw [hr0]; split <;> omega
  have hci : c0 + ib ≤ B.n := by rw [hc0]; split <;> omega
  intro c hc
  simp only [MatV.sub_m, MatV.sub_n, Nat.add_sub_cancel_left] at hc ⊢
  refine le_trans ?_ ((h.norm (c := c0 + c) (by omega)).le.trans (hb (c0 + c) (by omega)))
  have hz : ∀ r, qR dir B.m B.n s (LG store ν B) r (c0 + c) = LG store ν B r (c0 + c) := by
    intro r
    refine qR_not ?_
    unfold qz
    rw [hc0]
    cases dir <;> simp <;> omega
  simp only [hz]
  have : ∑ r ∈ range q, ‖LG store ν (B.sub r0 (r0 + q) c0 (c0 + ib)) r c‖ ^ 2 =
      ∑ r ∈ Ico r0 (r0 + q), ‖LG store ν B r (c0 + c)‖ ^ 2 := by
    rw [Finset.sum_Ico_eq_sum_range, Nat.add_sub_cancel_left]
    rfl
  rw [this]
  refine Finset.sum_le_sum_of_subset_of_nonneg (fun x hx => ?_) (fun _ _ _ => by positivity)
  rw [mem_Ico] at hx
  rw [mem_range]
  omega

theorem QrState.panel {dir : Direction} {store : StoreV} {B : MatV L} {tau work : VecV L} {k s ib : Nat}
    {μ ν : Store L 𝕜} {r0 q c0 t0 d0 nr : Nat} (h : QrState dir store B tau work k μ s ν)
    (hs : s + ib ≤ k) (hm : k ≤ B.m) (hn : k ≤ B.n)
    (hp : BlkPar dir B.m B.n k s ib r0 q c0 t0 d0 nr) (hb : ColBound p store μ B) :
    ColBound p store ν (B.sub r0 (r0 + q) c0 (c0 + ib)) := h.inv.panel hs hm hn hp hb

/-- No columns are left: nothing to apply. -/
theorem QrState.blockLast {dir : Direction} {store : StoreV} {B : MatV L} {tau work : VecV L} {k s ib : Nat}
    {μ ν ν1 : Store L 𝕜} {r0 q c0 t0 d0 nr : Nat} (h : QrState dir store B tau work k μ s ν)
    (ok : QrOK B tau work) (hs : s + ib ≤ k) (hm : k ≤ B.m) (hn : k ≤ B.n) (hk : k ≤ tau.n)
    (hp : BlkPar dir B.m B.n k s ib r0 q c0 t0 d0 nr)
    (loc : QrState dir store (B.sub r0 (r0 + q) c0 (c0 + ib)) (tau.sub t0 (t0 + ib)) work ib ν ib ν1) (h0 : nr = 0) :
    QrState dir store B tau work k μ (s + ib) ν1 := by
  refine h.block ok hs hm hn hk hp loc ?_ (fun _ _ _ => rfl)
  subst h0
  funext i j
  exact absurd j.2 (by omega)

theorem blkOK_of {side : Side} {store : StoreV} {V C : MatV L} {tau work : VecV L} {nb : Nat}
    (hside : side = .Left ∨ side = .Right) (inj : C.Inj) (winj : work.Inj) (VC : V.Disj C) (Vw : V.DisjV work)
    (tw : tau.Disj work) (Cw : C.DisjV work) (kn : tau.n ≤ nb) (Vk : vcnt store V = tau.n)
    (Vq : vlen store V = if side = .Left then C.m else C.n) (kq : tau.n ≤ vlen store V)
    (wn : nb * nb + (larfbWorksize side C.m C.n tau.n).size ≤ work.n) :
    BlkOK side store V tau (wview work nb nb) C (work.sub (nb * nb) work.n) := by
  have hle : nb * nb ≤ work.n := by omega
  have hs : ∀ {l}, (work.sub (nb * nb) work.n).Owns l → work.Owns l := fun ho => ho.sub (le_refl _)
  refine ⟨hside, inj, winj.sub (le_refl _), wview_inj winj hle, VC, fun i j hi hj ho => Vw i j hi hj (hs ho),
    wview_disj hle Vw, fun i hi ho => tw i hi (wview_owns hle ho), ?_, ?_, fun i j hi hj ho => Cw i j hi hj (hs ho),
    kn, kn, Vk, Vq, kq, by simp only [VecV.sub]; omega⟩
  · rintro i j hi hj ⟨i', j', hi', hj', e⟩
    exact Cw i' j' hi' hj' ⟨_, lt_of_lt_of_le (wview_lt hi hj) hle, e.symm⟩
  · rintro i j hi hj ⟨s, hsn, e⟩
    simp only [VecV.sub] at hsn e
    have e2 : nb * nb + s = i + j * nb := winj _ _ (by omega) (lt_of_lt_of_le (wview_lt hi hj) hle) e
    have e3 : i + j * nb < nb * nb := wview_lt (m := nb) (n := nb) hi hj
    omega

theorem vec_sub_disj {tau work : VecV L} (h : tau.Disj work) {a b : Nat} (hb : b ≤ tau.n) : (tau.sub a b).Disj work := by
  intro i hi
  simp only [VecV.sub] at hi ⊢
  exact h (a + i) (by omega)

/-- The reflectors of the panel applied to the rest, Columnwise. -/
theorem wp_blockStepC {isReal : Bool} (hreal : isReal = true → ∀ z : 𝕜, star z = z) {dir : Direction} {A : MatV L}
    {tau work : VecV L} {k s ib nb : Nat}
    {μ ν ν1 : Store L 𝕜} {r0 q c0 t0 d0 nr : Nat} (h : QrState dir .Columnwise A tau work k μ s ν)
    (ok : QrOK A tau work) (hs : s + ib ≤ k) (hm : k ≤ A.m) (hn : k ≤ A.n) (hk : k ≤ tau.n)
    (hp : BlkPar dir A.m A.n k s ib r0 q c0 t0 d0 nr)
    (loc : QrState dir .Columnwise (A.sub r0 (r0 + q) c0 (c0 + ib)) (tau.sub t0 (t0 + ib)) work ib ν ib ν1)
    (hib : ib ≤ nb) (wn : nb * nb + ib * nr ≤ work.n) :
    wp (blockApply isReal .Left .ConjTrans dir .Columnwise (A.sub r0 (r0 + q) c0 (c0 + ib)) (tau.sub t0 (t0 + ib))
      (wview work nb nb) (A.sub r0 (r0 + q) d0 (d0 + nr)) (work.sub (nb * nb) work.n)) ν1
      (fun _ ν2 => QrState dir .Columnwise A tau work k μ (s + ib) ν2) := by
  have hrq : r0 + q ≤ A.m := by rw [hp.r0, hp.q]; split <;> omega
  have hci : c0 + ib ≤ A.n := by rw [hp.c0]; split <;> omega
  have hdn : d0 + nr ≤ A.n := by rw [hp.d0, hp.nr]; split <;> omega
  have hti : t0 + ib ≤ k := by rw [hp.t0]; split <;> omega
  have hq := hp.q
  have hcd : c0 + ib ≤ d0 ∨ d0 + nr ≤ c0 := by rw [hp.c0, hp.d0, hp.nr]; cases dir <;> simp <;> omega
  have bok : BlkOK .Left .Columnwise (A.sub r0 (r0 + q) c0 (c0 + ib)) (tau.sub t0 (t0 + ib)) (wview work nb nb)
      (A.sub r0 (r0 + q) d0 (d0 + nr)) (work.sub (nb * nb) work.n) := by
    refine blkOK_of (Or.inl rfl) (ok.inj.sub hrq hdn) ok.winj (ok.inj.disj_sub hrq hci hrq hdn (by omega))
      (ok.Aw.rows hrq hci) (vec_sub_disj ok.tw (by omega)) (ok.Aw.rows hrq hdn) ?_ ?_ ?_ ?_ ?_
    · simp [VecV.sub]; omega
    · simp [vcnt, MatV.sub, VecV.sub]
    · simp [vlen, MatV.sub]
    · simp [vlen, MatV.sub, VecV.sub]; omega
    · simp [larfbWorksize, WorkInfo.size, WorkInfo.ofMat, MatV.sub, VecV.sub]; exact wn
  refine wp_conseq (wp_blockApplyD bok (Or.inr (Or.inl rfl)) hreal (m := q) (n := nr) (k := ib) (by simp [MatV.sub]) (by simp [MatV.sub]) (by simp [VecV.sub]) ν1) fun _ ν2 ⟨e, fr⟩ => ?_
  have hle : nb * nb ≤ work.n := by omega
  refine h.block ok hs hm hn hk hp loc ?_ (fun l h1 h2 => fr l h1 (fun ho => h2 (ho.sub (le_refl _))) (fun ho => h2 (wview_owns hle ho)))
  simp only [if_true] at e
  exact e

/-- The reflectors of the panel applied to the rest, Rowwise. -/
theorem wp_blockStepR {isReal : Bool} (hreal : isReal = true → ∀ z : 𝕜, star z = z) {dir : Direction} {A : MatV L}
    {tau work : VecV L} {k s ib nb : Nat}
    {μ ν ν1 : Store L 𝕜} {r0 q c0 t0 d0 nr : Nat} (h : QrState dir .Rowwise A.tr tau work k μ s ν)
    (ok : QrOK A tau work) (hs : s + ib ≤ k) (hm : k ≤ A.m) (hn : k ≤ A.n) (hk : k ≤ tau.n)
    (hp : BlkPar dir A.n A.m k s ib r0 q c0 t0 d0 nr)
    (loc : QrState dir .Rowwise (A.sub c0 (c0 + ib) r0 (r0 + q)).tr (tau.sub t0 (t0 + ib)) work ib ν ib ν1)
    (hib : ib ≤ nb) (wn : nb * nb + nr * ib ≤ work.n) :
    wp (blockApply isReal .Right .NoTrans dir .Rowwise (A.sub c0 (c0 + ib) r0 (r0 + q)) (tau.sub t0 (t0 + ib))
      (wview work nb nb) (A.sub d0 (d0 + nr) r0 (r0 + q)) (work.sub (nb * nb) work.n)) ν1
      (fun _ ν2 => QrState dir .Rowwise A.tr tau work k μ (s + ib) ν2) := by
  have hrq : r0 + q ≤ A.n := by rw [hp.r0, hp.q]; split <;> omega
  have hci : c0 + ib ≤ A.m := by rw [hp.c0]; split <;> omega
  have hdn : d0 + nr ≤ A.m := by rw [hp.d0, hp.nr]; split <;> omega
  have hti : t0 + ib ≤ k := by rw [hp.t0]; split <;> omega
  have hq := hp.q
  have hcd : c0 + ib ≤ d0 ∨ d0 + nr ≤ c0 := by rw [hp.c0, hp.d0, hp.nr]; cases dir <;> simp <;> omega
  have bok : BlkOK .Right .Rowwise (A.sub c0 (c0 + ib) r0 (r0 + q)) (tau.sub t0 (t0 + ib)) (wview work nb nb)
      (A.sub d0 (d0 + nr) r0 (r0 + q)) (work.sub (nb * nb) work.n) := by
    refine blkOK_of (Or.inr rfl) (ok.inj.sub hdn hrq) ok.winj (ok.inj.disj_sub hci hrq hdn hrq (by omega))
      (ok.Aw.rows hci hrq) (vec_sub_disj ok.tw (by omega)) (ok.Aw.rows hdn hrq) ?_ ?_ ?_ ?_ ?_
    · simp [VecV.sub]; omega
    · simp [vcnt, MatV.sub, VecV.sub]
    · simp [vlen, MatV.sub]
    · simp [vlen, MatV.sub, VecV.sub]; omega
    · simp [larfbWorksize, WorkInfo.size, WorkInfo.ofMat, MatV.sub, VecV.sub]; exact wn
  refine wp_conseq (wp_blockApplyD bok (Or.inl rfl) hreal (m := nr) (n := q) (k := ib) (by simp [MatV.sub]) (by simp [MatV.sub]) (by simp [VecV.sub]) ν1) fun _ ν2 ⟨e, fr⟩ => ?_
  have hle : nb * nb ≤ work.n := by omega
  refine h.block (r0 := r0) (q := q) (c0 := c0) (t0 := t0) (d0 := d0) (nr := nr) ok.tr hs hn hm hk hp loc ?_
    (fun l h1 h2 => fr l (fun ho => h1 ?_) (fun ho => h2 (ho.sub (le_refl _))) (fun ho => h2 (wview_owns hle ho)))
  · simp only [MatV.sub_m, MatV.sub_n, VecV.sub, Nat.add_sub_cancel_left, if_false, reduceCtorEq] at e
    have e' := congrArg Matrix.conjTranspose e
    rw [Matrix.conjTranspose_mul, mat_conjTranspose, mat_conjTranspose] at e'
    exact e'
  · obtain ⟨i, j, hi, hj, e⟩ := ho
    exact ⟨j, i, hj, hi, e⟩

theorem wp_blockWork {work : VecV L} {nb : Nat} {c : Prop} [Decidable c] (h : nb * nb * (if c then 1 else 0) ≤ work.n) {μ : Store L 𝕜}
    {Q : MatV L × VecV L → Store L 𝕜 → Prop} {E}
    (hQ : Q (if c then (wview work nb nb, work.sub (nb * nb) work.n) else (wview work 0 0, work.sub (0 * 0) work.n)) μ) :
    wp (blockWork (decide c) work nb) μ Q E := by
  unfold blockWork
  by_cases hc : c
  · simp only [hc, decide_true, if_true, mul_one] at h hQ ⊢
    exact wp_reshapeWM h hQ
  · simp only [hc, decide_false, Bool.false_eq_true, if_false] at hQ ⊢
    exact wp_reshapeWM (by omega) hQ

theorem geqr2Worksize_mono {A B : MatV L} (hm : A.m ≤ B.m) (hn : A.n ≤ B.n) : geqr2Worksize A ≤ geqr2Worksize B := by
  unfold geqr2Worksize
  split
  · rw [if_pos (by omega)]; exact larfWorksize_left hm (by omega)
  · omega
theorem geql2Worksize_mono {A B : MatV L} (hm : A.m ≤ B.m) (hn : A.n ≤ B.n) : geql2Worksize A ≤ geql2Worksize B :=
  geqr2Worksize_mono hm hn
theorem gelq2Worksize_mono {A B : MatV L} (hm : A.m ≤ B.m) (hn : A.n ≤ B.n) : gelq2Worksize A ≤ gelq2Worksize B := by
  unfold gelq2Worksize
  split
  · rw [if_pos (by omega)]; exact larfWorksize_right (by omega) hn
  · omega
theorem gerq2Worksize_mono {A B : MatV L} (hm : A.m ≤ B.m) (hn : A.n ≤ B.n) : gerq2Worksize A ≤ gerq2Worksize B :=
  gelq2Worksize_mono hm hn

theorem ws_size {w : Nat} {side : Side} {m n k nb : Nat} :
    max w (larfbWorksize side m n k).size + nb * nb ≤
      (((WorkInfo.ofSize w).minMax (larfbWorksize side m n k)).add (.ofMat nb nb)).size := by
  have hv : ∀ (w1 : WorkInfo), w1.Valid → ((WorkInfo.ofSize w).minMax w1).Valid := fun w1 h1 =>
    (C05_valid (WorkInfo.ofSize w) w1 (C05_valid w1 w1 h1 h1 w 0 0).1 h1 0 0 0).2.2.1
  have hl : (larfbWorksize side m n k).Valid := by
    unfold larfbWorksize; split <;> simp [WorkInfo.Valid, WorkInfo.ofMat]
  rw [C05_add_size _ _ (hv _ hl) (by simp [WorkInfo.Valid, WorkInfo.ofMat])]
  obtain ⟨h1, h2⟩ := C05_minMax_size (WorkInfo.ofSize w) (larfbWorksize side m n k)
  have h3 : (WorkInfo.ofSize w).size = w := by simp [WorkInfo.size, WorkInfo.ofSize]
  have h4 : (WorkInfo.ofMat nb nb).size = nb * nb := rfl
  omega

theorem geqrfWorksize_le {A : MatV L} {nb0 w : Nat} (h : (geqrfWorksize A nb0).size ≤ w) :
    geqr2Worksize (A.sub 0 A.m 0 (min nb0 (min A.m A.n))) ≤ w ∧ (A.n > min nb0 (min A.m A.n) →
      min nb0 (min A.m A.n) * min nb0 (min A.m A.n) + min nb0 (min A.m A.n) * (A.n - min nb0 (min A.m A.n)) ≤ w) := by
  unfold geqrfWorksize at h
  by_cases hc : A.n > min nb0 (min A.m A.n)
  · simp only [hc, if_true] at h
    have := le_trans ws_size h
    simp only [larfbWorksize, if_true, WorkInfo.size, WorkInfo.ofMat] at this
    exact ⟨by omega, fun _ => by omega⟩
  · simp only [hc, if_false] at h
    simp only [WorkInfo.size, WorkInfo.ofSize, Nat.mul_one] at h
    exact ⟨h, fun h' => absurd h' hc⟩

theorem geqlfWorksize_le {A : MatV L} {nb0 w : Nat} (h : (geqlfWorksize A nb0).size ≤ w) :
    geql2Worksize (A.sub 0 A.m 0 (min nb0 (min A.m A.n))) ≤ w ∧ (A.n > min nb0 (min A.m A.n) →
      min nb0 (min A.m A.n) * min nb0 (min A.m A.n) + min nb0 (min A.m A.n) * (A.n - min nb0 (min A.m A.n)) ≤ w) := by
  unfold geqlfWorksize at h
  by_cases hc : A.n > min nb0 (min A.m A.n)
  · simp only [hc, if_true] at h
    have := le_trans ws_size h
    simp only [larfbWorksize, if_true, WorkInfo.size, WorkInfo.ofMat] at this
    exact ⟨by omega, fun _ => by omega⟩
  · simp only [hc, if_false] at h
    simp only [WorkInfo.size, WorkInfo.ofSize, Nat.mul_one] at h
    exact ⟨h, fun h' => absurd h' hc⟩

theorem gelqfWorksize_le {A : MatV L} {nb0 w : Nat} (h : (gelqfWorksize A nb0).size ≤ w) :
    gelq2Worksize (A.sub 0 (min nb0 (min A.m A.n)) 0 A.n) ≤ w ∧ (A.m > min nb0 (min A.m A.n) →
      min nb0 (min A.m A.n) * min nb0 (min A.m A.n) + (A.m - min nb0 (min A.m A.n)) * min nb0 (min A.m A.n) ≤ w) := by
  unfold gelqfWorksize at h
  by_cases hc : A.m > min nb0 (min A.m A.n)
  · simp only [hc, if_true] at h
    have := le_trans ws_size h
    simp only [larfbWorksize, reduceCtorEq, if_false, WorkInfo.size, WorkInfo.ofMat] at this
    exact ⟨by omega, fun _ => by omega⟩
  · simp only [hc, if_false] at h
    simp only [WorkInfo.size, WorkInfo.ofSize, Nat.mul_one] at h
    exact ⟨h, fun h' => absurd h' hc⟩

theorem gerqfWorksize_le {A : MatV L} {nb0 w : Nat} (h : (gerqfWorksize A nb0).size ≤ w) :
    gerq2Worksize (A.sub 0 (min nb0 (min A.m A.n)) 0 A.n) ≤ w ∧ (A.m > min nb0 (min A.m A.n) →
      min nb0 (min A.m A.n) * min nb0 (min A.m A.n) + (A.m - min nb0 (min A.m A.n)) * min nb0 (min A.m A.n) ≤ w) := by
  unfold gerqfWorksize at h
  by_cases hc : A.m > min nb0 (min A.m A.n)
  · simp only [hc, if_true] at h
    have := le_trans ws_size h
    simp only [larfbWorksize, reduceCtorEq, if_false, WorkInfo.size, WorkInfo.ofMat] at this
    exact ⟨by omega, fun _ => by omega⟩
  · simp only [hc, if_false] at h
    simp only [WorkInfo.size, WorkInfo.ofSize, Nat.mul_one] at h
    exact ⟨h, fun h' => absurd h' hc⟩

theorem qrOK_sub {A : MatV L} {tau work : VecV L} (ok : QrOK A tau work) {r0 r1 c0 c1 a b : Nat} (hr : r1 ≤ A.m) (hc : c1 ≤ A.n)
    (hb : b ≤ tau.n) : QrOK (A.sub r0 r1 c0 c1) (tau.sub a b) work := by
  refine ⟨ok.inj.sub hr hc, ok.tinj.sub hb, ok.winj, ?_, ok.Aw.rows hr hc, vec_sub_disj ok.tw hb⟩
  intro i j hi hj ho
  simp only [MatV.sub] at hi hj ho
  exact ok.At (r0 + i) (c0 + j) (by omega) (by omega) (ho.sub hb)

set_option maxHeartbeats 1000000 in
theorem wp_geqrf (hl : HhLaws 𝕜 p) (hreal : (hhOps (𝕜 := 𝕜) p).isReal = true → ∀ z : 𝕜, star z = z) {A : MatV L} {tau work : VecV L}
    (ok : QrOK A tau work) {nb0 : Nat} (hnb : 0 < nb0)
    (ht : min A.m A.n ≤ tau.n) (hw : (geqrfWorksize A nb0).size ≤ work.n) {μ : Store L 𝕜}
    (hb : ColBound p .Columnwise μ A) :
    wp (geqrf (hhOps p) nb0 A tau work) μ (fun r ν => r = 0 ∧
      QrState .Forward .Columnwise A tau work (min A.m A.n) μ (min A.m A.n) ν) := by
  unfold geqrf
  obtain ⟨hw1, hw2⟩ := geqrfWorksize_le hw
  generalize hk : min A.m A.n = k at ht hw1 hw2 ⊢
  simp only [wp_bind, wp_check]
  rw [if_pos (by simpa using ht)]
  generalize hnbe : min nb0 k = nb at hw1 hw2 ⊢
  have hws : nb * nb * (if A.n > nb then 1 else 0) ≤ work.n := by
    split
    · rename_i h; have := hw2 h; omega
    · omega
  refine wp_blockWork hws ?_
  by_cases hk0 : k = 0
  · rw [hk0, forStep, dif_neg (by omega), wp_pure, wp_pure]
    exact ⟨rfl, QrState.start⟩
  refine wp_forStep (fun j ν => QrState .Forward .Columnwise A tau work k μ (min j k) ν ∧ ∃ b, j = b * nb) (by omega) ?_ ?_ 0 μ
    ⟨by rw [Nat.zero_min]; exact QrState.start, 0, by simp⟩
  · rintro j ν hj ⟨hν, b, hb'⟩
    rw [show min j k = j by omega] at hν
    generalize hib : min nb (k - j) = ib
    have hj0 : j = 0 ∨ nb ≤ j := by
      rcases Nat.eq_zero_or_pos b with h | h
      · left; rw [hb', h, Nat.zero_mul]
      · right; rw [hb']; exact Nat.le_mul_of_pos_left _ h
    have hnext : min (j + nb) k = j + ib := by omega
    have hnextb : ∃ b, j + nb = b * nb := ⟨b + 1, by rw [hb']; ring⟩
    unfold geqrfStep
    simp only [wp_bind, hib]
    have par : BlkPar .Forward A.m A.n k j ib j (A.m - j) j j (j + ib) (A.n - j - ib) := ⟨rfl, rfl, rfl, rfl, rfl, rfl⟩
    refine wp_slice (by omega) (le_refl _) (by omega) (by omega) ?_
    refine wp_vslice (by omega) (by omega) ?_
    have hpan := hν.panel (p := p) (by omega) (by omega) (by omega) par hb
    have hmin : min (A.sub j A.m j (j + ib)).m (A.sub j A.m j (j + ib)).n = ib := by simp [MatV.sub]; omega
    have lok : QrOK (A.sub j A.m j (j + ib)) (tau.sub j (j + ib)) work := qrOK_sub ok (le_refl _) (by omega) (by omega)
    have hlw : geqr2Worksize (A.sub j A.m j (j + ib)) ≤ work.n :=
      le_trans (geqr2Worksize_mono (by simp [MatV.sub]) (by simp [MatV.sub]; omega)) hw1
    have loc := wp_geqr2 hl lok (by rw [hmin]; simp [VecV.sub]) hlw (μ := ν)
      (by rw [show A.m = j + (A.m - j) by omega]; exact hpan)
    rw [hmin] at loc
    refine wp_conseq loc fun _ ν1 ⟨_, hloc⟩ => ?_
    rw [show A.sub j A.m j (j + ib) = A.sub j (j + (A.m - j)) j (j + ib) by rw [show j + (A.m - j) = A.m by omega]] at hloc ⊢
    by_cases hc : j + ib < A.n
    · rw [if_pos hc]
      simp only [wp_bind]
      refine wp_slice (by omega) (le_refl _) (by omega) (by omega) ?_
      have hcn : A.n > nb := by omega
      simp only [if_pos hcn]
      rw [show A.sub j A.m (j + ib) A.n = A.sub j (j + (A.m - j)) (j + ib) (j + ib + (A.n - j - ib)) by
        rw [show j + (A.m - j) = A.m by omega, show j + ib + (A.n - j - ib) = A.n by omega]]
      refine wp_conseq (wp_blockStepC hreal hν ok (by omega) (by omega) (by omega) ht par hloc (by omega) ?_) fun _ ν2 h2 => ?_
      · have h1 := hw2 hcn
        have h2 : ib * (A.n - j - ib) ≤ nb * (A.n - nb) := Nat.mul_le_mul (by omega) (by omega)
        omega
      · rw [← hnext] at h2
        exact ⟨h2, hnextb⟩
    · rw [if_neg hc, wp_pure]
      have h3 := QrState.blockLast (nr := A.n - j - ib) hν ok (by omega) (by omega) (by omega) ht par hloc (by omega)
      rw [← hnext] at h3
      exact ⟨h3, hnextb⟩
  · rintro j ν hj ⟨hν, -⟩
    rw [show min j k = k by omega] at hν
    exact ⟨rfl, hν⟩
set_option maxHeartbeats 1000000 in
theorem wp_geqlf (hl : HhLaws 𝕜 p) (hreal : (hhOps (𝕜 := 𝕜) p).isReal = true → ∀ z : 𝕜, star z = z) {A : MatV L} {tau work : VecV L}
    (ok : QrOK A tau work) {nb0 : Nat} (hnb : 0 < nb0)
    (ht : min A.m A.n ≤ tau.n) (hw : (geqlfWorksize A nb0).size ≤ work.n) {μ : Store L 𝕜}
    (hb : ColBound p .Columnwise μ A) :
    wp (geqlf (hhOps p) nb0 A tau work) μ (fun r ν => r = 0 ∧
      QrState .Backward .Columnwise A tau work (min A.m A.n) μ (min A.m A.n) ν) := by
  unfold geqlf
  obtain ⟨hw1, hw2⟩ := geqlfWorksize_le hw
  generalize hk : min A.m A.n = k at ht hw1 hw2 ⊢
  simp only [wp_bind, wp_check]
  rw [if_pos (by simpa using ht)]
  generalize hnbe : min nb0 k = nb at hw1 hw2 ⊢
  have hws : nb * nb * (if A.n > nb then 1 else 0) ≤ work.n := by
    split
    · rename_i h; have := hw2 h; omega
    · omega
  refine wp_blockWork hws ?_
  by_cases hk0 : k = 0
  · rw [hk0, forStep, dif_neg (by omega), wp_pure, wp_pure]
    exact ⟨rfl, QrState.start⟩
  refine wp_forStep (fun j ν => QrState .Backward .Columnwise A tau work k μ (min j k) ν ∧ ∃ b, j = b * nb) (by omega) ?_ ?_ 0 μ
    ⟨by rw [Nat.zero_min]; exact QrState.start, 0, by simp⟩
  · rintro j ν hj ⟨hν, b, hb'⟩
    rw [show min j k = j by omega] at hν
    generalize hib : min nb (k - j) = ib
    have hj0 : j = 0 ∨ nb ≤ j := by
      rcases Nat.eq_zero_or_pos b with h | h
      · left; rw [hb', h, Nat.zero_mul]
      · right; rw [hb']; exact Nat.le_mul_of_pos_left _ h
    have hnext : min (j + nb) k = j + ib := by omega
    have hnextb : ∃ b, j + nb = b * nb := ⟨b + 1, by rw [hb']; ring⟩
    unfold geqlfStep
    simp only [wp_bind, hib]
    have par : BlkPar .Backward A.m A.n k j ib 0 (A.m - j) (A.n - j - ib) (k - j - ib) 0 (A.n - j - ib) := ⟨rfl, rfl, rfl, rfl, rfl, rfl⟩
    have ejj : A.n - (A.n - j) = j := by omega
    rw [ejj]
    refine wp_slice (by omega) (by omega) (by omega) (by omega) ?_
    refine wp_vslice (by omega) (by omega) ?_
    have hpan := hν.panel (p := p) (by omega) (by omega) (by omega) par hb
    have eA : A.sub 0 (A.m - j) (A.n - j - ib) (A.n - j) = A.sub 0 (0 + (A.m - j)) (A.n - j - ib) (A.n - j - ib + ib) := by
      rw [Nat.zero_add, show A.n - j - ib + ib = A.n - j by omega]
    have et : tau.sub (k - j - ib) (k - j) = tau.sub (k - j - ib) (k - j - ib + ib) := by
      rw [show k - j - ib + ib = k - j by omega]
    rw [eA, et]
    have hmin : min (A.sub 0 (0 + (A.m - j)) (A.n - j - ib) (A.n - j - ib + ib)).m
        (A.sub 0 (0 + (A.m - j)) (A.n - j - ib) (A.n - j - ib + ib)).n = ib := by simp [MatV.sub]; omega
    have lok : QrOK (A.sub 0 (0 + (A.m - j)) (A.n - j - ib) (A.n - j - ib + ib)) (tau.sub (k - j - ib) (k - j - ib + ib)) work :=
      qrOK_sub ok (by omega) (by omega) (by omega)
    have hlw : geql2Worksize (A.sub 0 (0 + (A.m - j)) (A.n - j - ib) (A.n - j - ib + ib)) ≤ work.n :=
      le_trans (geql2Worksize_mono (by simp [MatV.sub]) (by simp [MatV.sub]; omega)) hw1
    have loc := wp_geql2 hl lok (by rw [hmin]; simp [VecV.sub]) hlw (μ := ν) hpan
    rw [hmin] at loc
    refine wp_conseq loc fun _ ν1 ⟨_, hloc⟩ => ?_
    by_cases hc : A.n - j > ib
    · rw [if_pos hc]
      simp only [wp_bind]
      refine wp_slice (by omega) (by omega) (by omega) (by omega) ?_
      have hcn : A.n > nb := by omega
      simp only [if_pos hcn]
      rw [show A.sub 0 (A.m - j) 0 (A.n - j - ib) = A.sub 0 (0 + (A.m - j)) 0 (0 + (A.n - j - ib)) by
        rw [Nat.zero_add, Nat.zero_add]]
      refine wp_conseq (wp_blockStepC hreal hν ok (by omega) (by omega) (by omega) ht par hloc (by omega) ?_) fun _ ν2 h2 => ?_
      · have h1 := hw2 hcn
        have h2 : ib * (A.n - j - ib) ≤ nb * (A.n - nb) := Nat.mul_le_mul (by omega) (by omega)
        omega
      · rw [← hnext] at h2
        exact ⟨h2, hnextb⟩
    · rw [if_neg hc, wp_pure]
      have h3 := QrState.blockLast (nr := A.n - j - ib) hν ok (by omega) (by omega) (by omega) ht par hloc (by omega)
      rw [← hnext] at h3
      exact ⟨h3, hnextb⟩
  · rintro j ν hj ⟨hν, -⟩
    rw [show min j k = k by omega] at hν
    exact ⟨rfl, hν⟩
set_option maxHeartbeats 1000000 in
theorem wp_gelqf (hl : HhLaws 𝕜 p) (hreal : (hhOps (𝕜 := 𝕜) p).isReal = true → ∀ z : 𝕜, star z = z) {A : MatV L} {tau work : VecV L}
    (ok : QrOK A tau work) {nb0 : Nat} (hnb : 0 < nb0)
    (ht : min A.m A.n ≤ tau.n) (hw : (gelqfWorksize A nb0).size ≤ work.n) {μ : Store L 𝕜}
    (hb : ColBound p .Rowwise μ A.tr) :
    wp (gelqf (hhOps p) nb0 A tau work) μ (fun r ν => r = 0 ∧
      QrState .Forward .Rowwise A.tr tau work (min A.m A.n) μ (min A.m A.n) ν) := by
  unfold gelqf
  obtain ⟨hw1, hw2⟩ := gelqfWorksize_le hw
  generalize hk : min A.m A.n = k at ht hw1 hw2 ⊢
  simp only [wp_bind, wp_check]
  rw [if_pos (by simpa using ht)]
  generalize hnbe : min nb0 k = nb at hw1 hw2 ⊢
  have hws : nb * nb * (if A.m > nb then 1 else 0) ≤ work.n := by
    split
    · rename_i h; have := hw2 h; omega
    · omega
  refine wp_blockWork hws ?_
  by_cases hk0 : k = 0
  · rw [hk0, forStep, dif_neg (by omega), wp_pure, wp_pure]
    exact ⟨rfl, QrState.start⟩
  refine wp_forStep (fun j ν => QrState .Forward .Rowwise A.tr tau work k μ (min j k) ν ∧ ∃ b, j = b * nb) (by omega) ?_ ?_ 0 μ
    ⟨by rw [Nat.zero_min]; exact QrState.start, 0, by simp⟩
  · rintro j ν hj ⟨hν, b, hb'⟩
    rw [show min j k = j by omega] at hν
    generalize hib : min nb (k - j) = ib
    have hj0 : j = 0 ∨ nb ≤ j := by
      rcases Nat.eq_zero_or_pos b with h | h
      · left; rw [hb', h, Nat.zero_mul]
      · right; rw [hb']; exact Nat.le_mul_of_pos_left _ h
    have hnext : min (j + nb) k = j + ib := by omega
    have hnextb : ∃ b, j + nb = b * nb := ⟨b + 1, by rw [hb']; ring⟩
    unfold gelqfStep
    simp only [wp_bind, hib]
    have par : BlkPar .Forward A.n A.m k j ib j (A.n - j) j j (j + ib) (A.m - j - ib) := ⟨rfl, rfl, rfl, rfl, rfl, rfl⟩
    refine wp_slice (by omega) (by omega) (by omega) (by omega) ?_
    refine wp_vslice (by omega) (by omega) ?_
    have hpan : ColBound p .Rowwise ν (A.sub j (j + ib) j (j + (A.n - j))).tr := QrState.panel (B := A.tr) (p := p) hν (by omega) (show k ≤ A.n by omega) (show k ≤ A.m by omega) par hb
    have eA : A.sub j (j + ib) j A.n = A.sub j (j + ib) j (j + (A.n - j)) := by
      rw [show j + (A.n - j) = A.n by omega]
    rw [eA]
    have hmin : min (A.sub j (j + ib) j (j + (A.n - j))).m (A.sub j (j + ib) j (j + (A.n - j))).n = ib := by simp [MatV.sub]; omega
    have lok : QrOK (A.sub j (j + ib) j (j + (A.n - j))) (tau.sub j (j + ib)) work :=
      qrOK_sub ok (by omega) (by omega) (by omega)
    have hlw : gelq2Worksize (A.sub j (j + ib) j (j + (A.n - j))) ≤ work.n :=
      le_trans (gelq2Worksize_mono (by simp [MatV.sub]; omega) (by simp [MatV.sub])) hw1
    have loc := wp_gelq2 hl lok (by rw [hmin]; simp [VecV.sub]) hlw (μ := ν) hpan
    rw [hmin] at loc
    refine wp_conseq loc fun _ ν1 ⟨_, hloc⟩ => ?_
    by_cases hc : j + ib < A.m
    · rw [if_pos hc]
      simp only [wp_bind]
      refine wp_slice (by omega) (by omega) (by omega) (by omega) ?_
      have hcn : A.m > nb := by omega
      simp only [if_pos hcn]
      rw [show A.sub (j + ib) A.m j A.n = A.sub (j + ib) ((j + ib) + (A.m - j - ib)) j (j + (A.n - j)) by
        congr 1 <;> omega]
      refine wp_conseq (wp_blockStepR hreal hν ok (by omega) (by omega) (by omega) ht par hloc (by omega) ?_) fun _ ν2 h2 => ?_
      · have h1 := hw2 hcn
        have h2 : (A.m - j - ib) * ib ≤ (A.m - nb) * nb := Nat.mul_le_mul (by omega) (by omega)
        omega
      · rw [← hnext] at h2
        exact ⟨h2, hnextb⟩
    · rw [if_neg hc, wp_pure]
      have h3 := QrState.blockLast (B := A.tr) (r0 := j) (q := A.n - j) (c0 := j) (t0 := j) (d0 := (j + ib)) (nr := A.m - j - ib) hν ok.tr (by omega)
        (show k ≤ A.n by omega) (show k ≤ A.m by omega) ht par hloc (by omega)
      rw [← hnext] at h3
      exact ⟨h3, hnextb⟩
  · rintro j ν hj ⟨hν, -⟩
    rw [show min j k = k by omega] at hν
    exact ⟨rfl, hν⟩
set_option maxHeartbeats 1000000 in
theorem wp_gerqf (hl : HhLaws 𝕜 p) (hreal : (hhOps (𝕜 := 𝕜) p).isReal = true → ∀ z : 𝕜, star z = z) {A : MatV L} {tau work : VecV L}
    (ok : QrOK A tau work) {nb0 : Nat} (hnb : 0 < nb0)
    (ht : min A.m A.n ≤ tau.n) (hw : (gerqfWorksize A nb0).size ≤ work.n) {μ : Store L 𝕜}
    (hb : ColBound p .Rowwise μ A.tr) :
    wp (gerqf (hhOps p) nb0 A tau work) μ (fun r ν => r = 0 ∧
      QrState .Backward .Rowwise A.tr tau work (min A.m A.n) μ (min A.m A.n) ν) := by
  unfold gerqf
  obtain ⟨hw1, hw2⟩ := gerqfWorksize_le hw
  generalize hk : min A.m A.n = k at ht hw1 hw2 ⊢
  simp only [wp_bind, wp_check]
  rw [if_pos (by simpa using ht)]
  generalize hnbe : min nb0 k = nb at hw1 hw2 ⊢
  have hws : nb * nb * (if A.m > nb then 1 else 0) ≤ work.n := by
    split
    · rename_i h; have := hw2 h; omega
    · omega
  refine wp_blockWork hws ?_
  by_cases hk0 : k = 0
  · rw [hk0, forStep, dif_neg (by omega), wp_pure, wp_pure]
    exact ⟨rfl, QrState.start⟩
  refine wp_forStep (fun j ν => QrState .Backward .Rowwise A.tr tau work k μ (min j k) ν ∧ ∃ b, j = b * nb) (by omega) ?_ ?_ 0 μ
    ⟨by rw [Nat.zero_min]; exact QrState.start, 0, by simp⟩
  · rintro j ν hj ⟨hν, b, hb'⟩
    rw [show min j k = j by omega] at hν
    generalize hib : min nb (k - j) = ib
    have hj0 : j = 0 ∨ nb ≤ j := by
      rcases Nat.eq_zero_or_pos b with h | h
      · left; rw [hb', h, Nat.zero_mul]
      · right; rw [hb']; exact Nat.le_mul_of_pos_left _ h
    have hnext : min (j + nb) k = j + ib := by omega
    have hnextb : ∃ b, j + nb = b * nb := ⟨b + 1, by rw [hb']; ring⟩
    unfold gerqfStep
    simp only [wp_bind, hib]
    have par : BlkPar .Backward A.n A.m k j ib 0 (A.n - j) (A.m - j - ib) (k - j - ib) 0 (A.m - j - ib) := ⟨rfl, rfl, rfl, rfl, rfl, rfl⟩
    refine wp_slice (by omega) (by omega) (by omega) (by omega) ?_
    refine wp_vslice (by omega) (by omega) ?_
    have hpan : ColBound p .Rowwise ν (A.sub (A.m - j - ib) ((A.m - j - ib) + ib) 0 (0 + (A.n - j))).tr := QrState.panel (B := A.tr) (p := p) hν (by omega) (show k ≤ A.n by omega) (show k ≤ A.m by omega) par hb
    have eA : A.sub (A.m - j - ib) (A.m - j - ib + ib) 0 (A.n - j) = A.sub (A.m - j - ib) ((A.m - j - ib) + ib) 0 (0 + (A.n - j)) := by
      rw [show 0 + (A.n - j) = A.n - j by omega]
    rw [eA]
    have et : tau.sub (k - j - ib) (k - j) = tau.sub (k - j - ib) ((k - j - ib) + ib) := by
      rw [show k - j - ib + ib = k - j by omega]
    rw [et]
    have hmin : min (A.sub (A.m - j - ib) ((A.m - j - ib) + ib) 0 (0 + (A.n - j))).m (A.sub (A.m - j - ib) ((A.m - j - ib) + ib) 0 (0 + (A.n - j))).n = ib := by simp [MatV.sub]; omega
    have lok : QrOK (A.sub (A.m - j - ib) ((A.m - j - ib) + ib) 0 (0 + (A.n - j))) (tau.sub (k - j - ib) ((k - j - ib) + ib)) work :=
      qrOK_sub ok (by omega) (by omega) (by omega)
    have hlw : gerq2Worksize (A.sub (A.m - j - ib) ((A.m - j - ib) + ib) 0 (0 + (A.n - j))) ≤ work.n :=
      le_trans (gerq2Worksize_mono (by simp [MatV.sub]; omega) (by simp [MatV.sub])) hw1
    have loc := wp_gerq2 hl lok (by rw [hmin]; simp [VecV.sub]) hlw (μ := ν) hpan
    rw [hmin] at loc
    refine wp_conseq loc fun _ ν1 ⟨_, hloc⟩ => ?_
    by_cases hc : A.m - j - ib > 0
    · rw [if_pos hc]
      simp only [wp_bind]
      refine wp_slice (by omega) (by omega) (by omega) (by omega) ?_
      have hcn : A.m > nb := by omega
      simp only [if_pos hcn]
      rw [show A.sub 0 (A.m - j - ib) 0 (A.n - j) = A.sub 0 (0 + (A.m - j - ib)) 0 (0 + (A.n - j)) by
        congr 1 <;> omega]
      refine wp_conseq (wp_blockStepR hreal hν ok (by omega) (by omega) (by omega) ht par hloc (by omega) ?_) fun _ ν2 h2 => ?_
      · have h1 := hw2 hcn
        have h2 : (A.m - j - ib) * ib ≤ (A.m - nb) * nb := Nat.mul_le_mul (by omega) (by omega)
        omega
      · rw [← hnext] at h2
        exact ⟨h2, hnextb⟩
    · rw [if_neg hc, wp_pure]
      have h3 := QrState.blockLast (B := A.tr) (r0 := 0) (q := A.n - j) (c0 := (A.m - j - ib)) (t0 := (k - j - ib)) (d0 := 0) (nr := A.m - j - ib) hν ok.tr (by omega)
        (show k ≤ A.n by omega) (show k ≤ A.m by omega) ht par hloc (by omega)
      rw [← hnext] at h3
      exact ⟨h3, hnextb⟩
  · rintro j ν hj ⟨hν, -⟩
    rw [show min j k = k by omega] at hν
    exact ⟨rfl, hν⟩

end TLA
