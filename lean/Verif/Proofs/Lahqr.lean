import Verif.Proofs.LahqrAlg
import Verif.Proofs.Raise
import Verif.Proofs.Qr
import Verif.Proofs.KernelSchur

/-! lahqr: the deflation scan, the search for small subdiagonals, the steps of a sweep. -/

set_option linter.unusedTactic false
set_option linter.unusedSectionVars false
set_option linter.unusedVariables false
set_option linter.unreachableTactic false
set_option linter.unusedSimpArgs false

namespace TLA
open Matrix Finset

section step
variable {L T : Type} [DecidableEq L] [Field T] [StarRing T] [DecidableEq T]

theorem wp_hqrPairs {X : MatV L} (hX : X.Inj) {μ0 ν : Store L T} {G : Nat → Nat → T} (h : MState X μ0 G ν)
    {i lo hi : Nat} (hi1 : i + 1 < X.m) (hhi : hi ≤ X.n) (hle : lo ≤ hi) (c s : T) :
    wp (hqrPairs X c s i lo hi) ν (fun _ ν' =>
      MState X μ0 (fun r j => if lo ≤ j ∧ j < hi then colMap (pairRot i (i + 1) c s) G r j else G r j) ν') := by
  unfold hqrPairs
  refine wp_forUp_ (fun j ν' => MState X μ0 (fun r k => if lo ≤ k ∧ k < j then
    colMap (pairRot i (i + 1) c s) G r k else G r k) ν') hle ?_ ?_ (fun _ h => h)
  · exact h.congr fun r k hr hk => by rw [if_neg (by omega)]
  · intro j ν1 hj1 hj2 h1
    have v1 := h1.val i j (by omega) (by omega)
    have v2 := h1.val (i + 1) j (by omega) (by omega)
    rw [if_neg (by omega)] at v1 v2
    simp only [wp_bind, wp_get, wp_set, v1, v2]
    refine ⟨⟨by omega, by omega⟩, ⟨by omega, by omega⟩, ⟨by omega, by omega⟩, ⟨by omega, by omega⟩, ?_⟩
    have a1 := h1.upd (G' := fun r k => if r = i + 1 ∧ k = j then -star s * G i j + c * G (i + 1) j else
      if lo ≤ k ∧ k < j then colMap (pairRot i (i + 1) c s) G r k else G r k)
      (v := -star s * G i j + c * G (i + 1) j) hX hi1 (by omega : j < X.n) (fun _ _ _ _ => rfl)
    refine a1.upd hX (by omega) (by omega) fun r k hr hk => ?_
    by_cases hk : k = j
    · subst hk
      rw [if_pos (by omega)]
      unfold colMap pairRot
      by_cases e1 : r = i
      · simp [e1]
      · by_cases e2 : r = i + 1
        · simp [e2]
        · simp [e1, e2]
    · rw [if_neg (fun h => hk h.2 : ¬ (r = i ∧ k = j)), if_neg (fun h => hk h.2 : ¬ (r = i + 1 ∧ k = j))]
      by_cases hh : lo ≤ k ∧ k < j
      · rw [if_pos hh, if_pos (by omega)]
      · rw [if_neg hh, if_neg (by omega)]

theorem rsView_right (A : MatV L) : rsView .Right A = A.tr := by
  simp [rsView, MatV.tr]

theorem MState.tr {A : MatV L} {μ0 ν : Store L T} {G : Nat → Nat → T} :
    MState A.tr μ0 (fun r c => G c r) ν ↔ MState A μ0 G ν :=
  ⟨fun h => ⟨fun i j hi hj => h.val j i hj hi, fun l hl => h.frame l fun h' => hl (MatV.tr_owns.1 h')⟩,
   fun h => ⟨fun i j hi hj => h.val j i hj hi, fun l hl => h.frame l fun h' => hl (MatV.tr_owns.2 h')⟩⟩

theorem wp_hqrPairsR {X : MatV L} (hX : X.Inj) {μ0 ν : Store L T} {G : Nat → Nat → T} (h : MState X μ0 G ν)
    {i lo hi : Nat} (hi1 : i + 1 < X.n) (hhi : hi ≤ X.m) (hle : lo ≤ hi) (c s : T) :
    wp (hqrPairs (rsView .Right X) c s i lo hi) ν (fun _ ν' =>
      MState X μ0 (fun r j => if lo ≤ r ∧ r < hi then rowMap (pairRot i (i + 1) c s) G r j else G r j) ν') := by
  rw [rsView_right]
  refine wp_conseq (wp_hqrPairs hX.tr (MState.tr.2 h) hi1 hhi hle c s) ?_
  intro _ ν' h'
  exact MState.tr.1 h'

/-- What is in memory during lahqr. -/
structure HqMem (wantt wantz : Bool) (K : Nat → Prop) (A : MatV L) (w : VecV L) (Z : MatV L) (μ : Store L T)
    (FA FZ : Nat → Nat → T) (ν : Store L T) : Prop where
  a : ∀ r c, r < A.n → c < A.n → HqP wantt K r c → ν (A.cell r c) = FA r c
  z : wantz = true → ∀ r c, r < A.n → c < A.n → ν (Z.cell r c) = FZ r c
  frame : ∀ l, ¬ A.Owns l → ¬ w.Owns l → ¬ (wantz = true ∧ Z.Owns l) → ν l = μ l

variable {wantt wantz : Bool} {K : Nat → Prop} {A Z : MatV L} {w : VecV L} {μ ν ν' : Store L T}
  {FA FZ F : Nat → Nat → T} {ilo ihi : Nat}

theorem HqMem.setA (ok : HqrOK wantz ilo ihi A w Z) (h : HqMem wantt wantz K A w Z μ FA FZ ν) {G : Nat → Nat → T}
    (g : MState A ν G ν') {K' : Nat → Prop} (e : ∀ r c, r < A.n → c < A.n → HqP wantt K' r c → G r c = F r c) :
    HqMem wantt wantz K' A w Z μ F FZ ν' :=
  ⟨fun r c hr hc hP => (g.val r c (by rw [ok.Am]; exact hr) hc).trans (e r c hr hc hP),
    fun w r c hr hc => (g.read (ok.AZ w).sy (by rw [ok.Zm w]; exact hr) (by rw [ok.Zn w]; exact hc)).trans
      (h.z w r c hr hc),
    fun l h1 h2 h3 => (g.frame l h1).trans (h.frame l h1 h2 h3)⟩

theorem HqMem.setZ (ok : HqrOK wantz ilo ihi A w Z) (wz : wantz = true) (h : HqMem wantt wantz K A w Z μ FA FZ ν)
    (g : MState Z ν F ν') : HqMem wantt wantz K A w Z μ FA F ν' :=
  ⟨fun r c hr hc hP => (g.read (ok.AZ wz) (by rw [ok.Am]; exact hr) hc).trans (h.a r c hr hc hP),
    fun _ r c hr hc => g.val r c (by rw [ok.Zm wz]; exact hr) (by rw [ok.Zn wz]; exact hc),
    fun l h1 h2 h3 => (g.frame l (fun h => h3 ⟨wz, h⟩)).trans (h.frame l h1 h2 h3)⟩

theorem HqMem.setW (ok : HqrOK wantz ilo ihi A w Z) (h : HqMem wantt wantz K A w Z μ FA FZ ν) {i : Nat}
    (hi : i < w.n) (v : T) : HqMem wantt wantz K A w Z μ FA FZ (upd ν (w.cell i) v) := by
  have fr : ∀ l, l ≠ w.cell i → upd ν (w.cell i) v l = ν l := fun l hl => by unfold upd; rw [if_neg hl]
  refine ⟨fun r c hr hc hP => ?_, fun wz r c hr hc => ?_, fun l h1 h2 h3 => ?_⟩
  · rw [fr _ fun e => ok.wA i hi ⟨r, c, by rw [ok.Am]; exact hr, hc, e⟩, h.a r c hr hc hP]
  · rw [fr _ fun e => ok.wZ wz i hi ⟨r, c, by rw [ok.Zm wz]; exact hr, by rw [ok.Zn wz]; exact hc, e⟩, h.z wz r c hr hc]
  · rw [fr _ fun e => h2 ⟨i, hi, e.symm⟩, h.frame l h1 h2 h3]

theorem HqMem.self (h : HqMem wantt wantz K A w Z μ FA FZ ν) :
    MState A ν (fun r c => ν (A.cell r c)) ν := ⟨fun _ _ _ _ => rfl, fun _ _ => rfl⟩

/-- Memory reads. -/
theorem HqMem.rd (ok : HqrOK wantz ilo ihi A w Z) (h : HqMem wantt wantz K A w Z μ FA FZ ν) {r c : Nat} {Q E}
    (hr : r < A.n) (hc : c < A.n) (hP : HqP wantt K r c) (hQ : Q (FA r c) ν) : wp (A.get r c) ν Q E :=
  wp_getE ⟨by rw [ok.Am]; exact hr, hc⟩ (by rw [h.a r c hr hc hP]; exact hQ)

variable {o : RotOps T} {istart istart2 istop i istartM istopM : Nat} {s1 : T}

set_option maxHeartbeats 1000000 in
/-- One step of a sweep. -/
theorem wp_hqrStep (ho : RotLaws o) (ok : HqrOK wantz ilo ihi A w Z)
    (hK : ∀ κ, K κ → κ ≤ istart ∨ istop ≤ κ) (kst : K istart) (ksp : K istop) (klo : K ilo)
    (h : HqMem wantt wantz K A w Z μ FA FZ ν) (z : HqZ A.n ilo ihi K FA (if i = istart2 then 0 else i))
    (g0 : ilo ≤ istart) (g1 : istart ≤ istart2) (g1' : istart2 ≤ i) (g2 : i + 1 < istop) (g3 : istop ≤ ihi)
    (hlo : istartM ≤ istart ∧ (wantt = true → istartM = 0)) (hhi : istopM = if wantt then A.n else istop) :
    wp (hqrStep o wantz A Z s1 istart istart2 istop istartM istopM i) ν (fun _ ν' =>
      ∃ c s, IsRot c s ∧ (i = istart2 → ∃ r z, o.gen (FA i i - s1) (FA (i + 1) i) = some (r, z, c, s)) ∧
        (i ≠ istart2 → c * FA (i + 1) (i - 1) = star s * FA i (i - 1)) ∧
        HqMem wantt wantz K A w Z μ (hqNext i c s FA) (rowMap (pairRot i (i + 1) c (star s)) FZ) ν' ∧
        ∀ j, j < w.n → ν' (w.cell j) = ν (w.cell j)) := by
  have k1 := ok.Am
  have k2 := ok.hi
  have hb : (if i = istart2 then 0 else i) = 0 ∨ (if i = istart2 then 0 else i) = i := by split <;> simp
  have hsM : istartM ≤ istart := hlo.1
  have htM : istop ≤ istopM := by rw [hhi]; split <;> omega
  have htM' : istopM ≤ A.n := by rw [hhi]; split <;> omega
  unfold hqrStep
  rw [wp_bind]
  -- the prologue
  have pro : wp (if i = istart2 then do
      let a ← A.get i i
      let h10 ← A.get (i + 1) i
      let (_, cs, sn) ← hqrRotg o (a - s1) h10
      (if istart < i then do
        let x ← A.get i (i - 1)
        A.set i (i - 1) (x * cs)
      else pure () : M L T Unit)
      pure (cs, sn)
    else do
      let h00 ← A.get i (i - 1)
      let h10 ← A.get (i + 1) (i - 1)
      let (r, cs, sn) ← hqrRotg o h00 h10
      A.set i (i - 1) r
      A.set (i + 1) (i - 1) 0
      pure (cs, sn) : M L T (T × T)) ν (fun q ν' => IsRot q.1 q.2 ∧
        (i = istart2 → ∃ r z, o.gen (FA i i - s1) (FA (i + 1) i) = some (r, z, q.1, q.2)) ∧
        (i ≠ istart2 → q.1 * FA (i + 1) (i - 1) = star q.2 * FA i (i - 1)) ∧
        ∃ M, MState A ν M ν' ∧
          (∀ r k, r < A.n → k < A.n → k + 1 ≠ i ∨ (r ≠ i ∧ r ≠ i + 1) → HqP wantt K r k → M r k = FA r k) ∧
          (∀ k, k + 1 = i → M i k = q.1 * FA i k + q.2 * FA (i + 1) k) ∧ (∀ k, k + 1 = i → M (i + 1) k = 0)) := by
    have blk : ∀ r k, istart ≤ r → r < istop → istart ≤ k → k < istop → HqP wantt K r k := fun r k a b c d =>
      HqP.blk hK a b c d
    rw [wp_ite]
    split
    · next ei =>
      simp only [wp_bind]
      refine h.rd ok (by omega) (by omega) (blk _ _ (by omega) (by omega) (by omega) (by omega)) ?_
      refine h.rd ok (by omega) (by omega) (blk _ _ (by omega) (by omega) (by omega) (by omega)) ?_
      obtain ⟨r, zz, c, s, e, h1, h2, h3⟩ := ho (FA i i - s1) (FA (i + 1) i)
      simp only [hqrRotg, e, wp_pure]
      rw [if_pos ei] at z
      have f0 : ∀ k, k + 1 = i → FA (i + 1) k = 0 := by
        intro k hk
        by_cases hl : ilo ≤ k
        · exact z.hess _ _ hl (by omega) (by omega) (by omega)
        · exact z.cut ilo klo _ _ (by omega) (by omega) (by omega)
      rw [wp_ite]
      split
      · next hlt =>
        simp only [wp_bind]
        refine h.rd ok (by omega) (by omega) (blk _ _ (by omega) (by omega) (by omega) (by omega)) ?_
        refine wp_setE ⟨by omega, by omega⟩ ?_
        refine ⟨h1, fun _ => ⟨r, zz, rfl⟩, fun h => absurd ei h, _, h.self.upd ok.injA (by omega) (by omega)
          (fun _ _ _ _ => rfl), ?_, ?_, ?_⟩
        · intro r' k' hr hk hne hP
          rw [if_neg (by omega)]; exact h.a r' k' hr hk hP
        · intro k hk
          rw [if_pos ⟨rfl, by omega⟩, f0 k hk, mul_zero, add_zero, mul_comm, show i - 1 = k by omega]
        · intro k hk
          rw [if_neg (by omega), h.a _ _ (by omega) (by omega) (.inr (.inl (by omega))), f0 k hk]
      · next hlt =>
        rw [wp_pure]
        refine ⟨h1, fun _ => ⟨r, zz, rfl⟩, fun h => absurd ei h, _, h.self, ?_, ?_, ?_⟩
        · intro r' k' hr hk hne hP
          exact h.a r' k' hr hk hP
        · intro k hk
          rw [f0 k hk, h.a _ _ (by omega) (by omega) (.inr (.inl (by omega))),
            z.cut istart kst i k (by omega) (by omega) (by omega)]
          simp
        · intro k hk
          rw [h.a _ _ (by omega) (by omega) (.inr (.inl (by omega))), f0 k hk]
    · next ei =>
      simp only [wp_bind]
      refine h.rd ok (by omega) (by omega) (.inr (.inl (by omega))) ?_
      refine h.rd ok (by omega) (by omega) (.inr (.inl (by omega))) ?_
      obtain ⟨r, zz, c, s, e, h1, h2, h3⟩ := ho (FA i (i - 1)) (FA (i + 1) (i - 1))
      simp only [hqrRotg, e, wp_pure]
      refine wp_setE ⟨by omega, by omega⟩ ?_
      refine wp_setE ⟨by omega, by omega⟩ ?_
      have a1 := h.self.upd (G' := fun r' k' => if r' = i ∧ k' = i - 1 then r else ν (A.cell r' k')) (v := r)
        ok.injA (by omega : i < A.m) (by omega : i - 1 < A.n) (fun _ _ _ _ => rfl)
      refine ⟨h1, fun h => absurd h ei, fun _ => h3, _, a1.upd ok.injA (by omega) (by omega)
          (fun _ _ _ _ => rfl), ?_, ?_, ?_⟩
      · intro r' k' hr hk hne hP
        rw [if_neg (by omega), if_neg (by omega)]; exact h.a r' k' hr hk hP
      · intro k hk
        rw [if_neg (by omega), if_pos ⟨rfl, by omega⟩, ← h2, show i - 1 = k by omega]
      · intro k hk
        rw [if_pos ⟨rfl, by omega⟩]
  refine wp_conseq pro ?_
  rintro ⟨c, s⟩ ν1 ⟨q1, q2, q3, M, m1, m2, m3, m4⟩
  simp only [wp_bind]
  refine wp_conseq (wp_hqrPairs ok.injA m1 (by omega) htM' (by omega) c s) ?_
  intro _ ν2 h2
  refine wp_conseq (wp_hqrPairsR ok.injA h2 (by omega) (by omega) (by omega) c (star s)) ?_
  intro _ ν3 h3
  have e3 := hqMem_agree (c := c) (s := s) hK kst ksp klo z hb g0 (by omega) g2 g3 ok.hi hlo hhi m2 m3 m4
  have h4 : HqMem wantt wantz K A w Z μ (hqNext i c s FA) FZ ν3 := h.setA ok h3 (fun r k hr hk hP => by
    rw [← e3 r k hr hk hP]; rfl)
  have w3 : ∀ j, j < w.n → ν3 (w.cell j) = ν (w.cell j) := fun j hj => h3.frame _ (ok.wA j hj)
  rw [wp_ite]
  split
  · next wz =>
    have bZ : MState Z ν3 FZ ν3 := ⟨fun r c hr hc => h4.z wz r c (by rw [← ok.Zm wz]; exact hr)
      (by rw [← ok.Zn wz]; exact hc), fun _ _ => rfl⟩
    have := ok.Zm wz
    have := ok.Zn wz
    refine wp_conseq (wp_hqrPairsR (ok.injZ wz) bZ (by omega) (by omega) (by omega) c (star s)) ?_
    intro _ ν5 h5
    refine ⟨c, s, q1, q2, q3, h4.setZ ok wz (h5.congr fun r q hr hq => by rw [if_pos (by omega)]), fun j hj => ?_⟩
    exact (h5.frame _ (ok.wZ wz j hj)).trans (w3 j hj)
  · next wz =>
    rw [wp_pure]
    exact ⟨c, s, q1, q2, q3, ⟨h4.a, fun h => absurd h wz, h4.frame⟩, w3⟩

end step

end TLA

namespace TLA
open Matrix Finset
variable {L 𝕜 : Type} [DecidableEq L] [RCLike 𝕜] [DecidableEq 𝕜]

theorem wp_if {α : Type} {c : Prop} [Decidable c] {x y : M L 𝕜 α} {μ : Store L 𝕜} {Q E} (h1 : c → wp x μ Q E)
    (h2 : ¬ c → wp y μ Q E) : wp (if c then x else y) μ Q E := by
  split
  · next h => exact h1 h
  · next h => exact h2 h

/-- What is assumed of `abs1`, `abs` and the machine constants. -/
structure HqLaws (p : HqrPar 𝕜) : Prop where
  lo : ∀ x, ‖x‖ ≤ p.abs1 x
  hi : ∀ x, p.abs1 x ≤ 3 / 2 * ‖x‖
  abs : ∀ x, p.abs x = ‖x‖
  eps : 0 ≤ p.eps
  small : 0 ≤ p.small

/-- Everything that holds between two passes. -/
structure HqI (wantt wantz : Bool) (A0 Z0 : Nat → Nat → 𝕜) (ilo ihi istop : Nat) (A : MatV L) (w : VecV L) (Z : MatV L)
    (μ : Store L 𝕜) (K : Nat → Prop) (FA FZ : Nat → Nat → 𝕜) (ε : ℝ) (ν : Store L 𝕜) : Prop where
  mem : HqMem wantt wantz K A w Z μ FA FZ ν
  pat : HqZ A.n ilo ihi K FA 0
  err : SwErr wantz A.n A0 Z0 FA FZ ε
  fro : frobM (mat A.n A.n FA) ≤ frobM (mat A.n A.n A0)
  klo : K ilo
  kdn : ∀ κ, istop ≤ κ → κ ≤ ihi → K κ
  wdn : ∀ i, istop ≤ i → i < ihi → ν (w.cell i) = FA i i

/-- The size of a single perturbation. -/
noncomputable def hqDel (p : HqrPar 𝕜) (n : Nat) (A0 : Nat → Nat → 𝕜) : ℝ :=
  max p.small (3 * p.eps * frobM (mat n n A0))

variable {p : HqrPar 𝕜} {wantt wantz : Bool} {A0 Z0 : Nat → Nat → 𝕜} {ilo ihi istop istart : Nat} {A Z : MatV L} {w : VecV L}
  {μ ν : Store L 𝕜} {K : Nat → Prop} {FA FZ : Nat → Nat → 𝕜} {ε : ℝ}

theorem HqI.ent (h : HqI wantt wantz A0 Z0 ilo ihi istop A w Z μ K FA FZ ε ν) {r c : Nat} (hr : r < A.n) (hc : c < A.n) :
    ‖FA r c‖ ≤ frobM (mat A.n A.n A0) :=
  le_trans (frobM_entry (mat A.n A.n FA) ⟨r, hr⟩ ⟨c, hc⟩) h.fro

theorem HqLaws.two (hp : HqLaws p) {x y : 𝕜} {F : ℝ} (hx : ‖x‖ ≤ F) (hy : ‖y‖ ≤ F) : p.abs1 x + p.abs1 y ≤ 3 * F := by
  have := hp.hi x
  have := hp.hi y
  linarith

theorem hqDel_nonneg (hp : HqLaws p) (n : Nat) (A0 : Nat → Nat → 𝕜) : 0 ≤ hqDel p n A0 :=
  le_trans hp.small (le_max_left _ _)

theorem hqDel_eps (hp : HqLaws p) {n : Nat} {A0 : Nat → Nat → 𝕜} {t : ℝ} (ht : t ≤ 3 * frobM (mat n n A0)) :
    p.eps * t ≤ hqDel p n A0 := by
  refine le_trans (mul_le_mul_of_nonneg_left ht hp.eps) (le_trans (le_of_eq ?_) (le_max_right _ _))
  ring

set_option maxHeartbeats 1000000 in
theorem wp_hqrDefl (hp : HqLaws p) (ok : HqrOK wantz ilo ihi A w Z)
    (h : HqI wantt wantz A0 Z0 ilo ihi istop A w Z μ K FA FZ ε ν) {i : Nat} (g0 : ilo < i) (g1 : i < istop)
    (g2 : istop ≤ ihi) (hK : ∀ κ, i < κ → κ < istop → ¬ K κ) :
    wp (hqrDefl p A ilo ihi i) ν (fun b ν' =>
      (b = true ∧ ν' = upd ν (A.cell i (i - 1)) 0 ∧ ‖FA i (i - 1)‖ ≤ hqDel p A.n A0) ∨
      (b = false ∧ ν' = ν ∧ FA i (i - 1) ≠ 0)) (fun e _ => e = .ub ∧ ihi = A.n) := by
  have k1 := ok.Am
  have k2 := ok.hi
  have low : HqP wantt K i (i - 1) := .inr (.inl (by omega))
  have ff := hqDel_nonneg hp A.n A0
  unfold hqrDefl
  rw [wp_bind]
  refine h.mem.rd ok (by omega) (by omega) low ?_
  rw [wp_ite]
  split
  · next hs =>
    rw [wp_bind]
    refine wp_setE ⟨by omega, by omega⟩ ?_
    rw [wp_pure]
    exact .inl ⟨rfl, rfl, le_trans (hp.lo _) (le_trans hs (le_max_left _ _))⟩
  · next hs =>
    have hne : FA i (i - 1) ≠ 0 := by
      intro e
      have := hp.hi (FA i (i - 1))
      rw [e, norm_zero, mul_zero] at this
      rw [e] at hs
      exact hs (le_trans this hp.small)
    have pos : 0 < p.abs1 (FA i (i - 1)) := lt_of_le_of_lt hp.small (not_le.1 hs)
    -- the diagonal entries
    have dg : ∀ r, HqP wantt K r r := fun r => .inr (.inr fun _ _ => Iff.rfl)
    simp only [wp_bind]
    refine h.mem.rd ok (by omega) (by omega) (dg _) ?_
    refine h.mem.rd ok (by omega) (by omega) (dg _) ?_
    have s1 : wp (if p.abs1 (FA (i - 1) (i - 1)) + p.abs1 (FA i i) = 0 then do
        let t1 ← (if ilo + 2 ≤ i then do
          let x ← A.get (i - 1) (i - 2)
          pure (p.abs1 (FA (i - 1) (i - 1)) + p.abs1 (FA i i) + p.abs x)
        else pure (p.abs1 (FA (i - 1) (i - 1)) + p.abs1 (FA i i)) : M L 𝕜 ℝ)
        if i < ihi then do
          let x ← A.get (i + 1) i
          pure (t1 + p.abs x)
        else pure t1
      else pure (p.abs1 (FA (i - 1) (i - 1)) + p.abs1 (FA i i)) : M L 𝕜 ℝ) ν
        (fun t ν' => ν' = ν ∧ t ≤ 3 * frobM (mat A.n A.n A0)) (fun e _ => e = .ub ∧ ihi = A.n) := by
      rw [wp_ite]
      split
      · next h0 =>
        rw [wp_bind]
        rw [h0]
        have f0 := frobM_nonneg (mat A.n A.n A0)
        have s2 : wp (if ilo + 2 ≤ i then do
              let x ← A.get (i - 1) (i - 2)
              pure (0 + p.abs x)
            else pure 0 : M L 𝕜 ℝ) ν
            (fun t ν' => ν' = ν ∧ t ≤ frobM (mat A.n A.n A0)) (fun e _ => e = .ub ∧ ihi = A.n) := by
          rw [wp_ite]
          split
          · rw [wp_bind]
            refine h.mem.rd ok (by omega) (by omega) (.inr (.inl (by omega))) ?_
            rw [wp_pure]
            refine ⟨rfl, ?_⟩
            rw [hp.abs, zero_add]
            exact h.ent (by omega) (by omega)
          · rw [wp_pure]
            exact ⟨rfl, f0⟩
        refine wp_mono s2 ?_ (fun _ _ h => h)
        rintro t _ ⟨rfl, ht⟩
        rw [wp_ite]
        split
        · rw [wp_bind]
          by_cases hb : i + 1 < A.n
          · refine h.mem.rd ok (by omega) (by omega) (.inr (.inl (by omega))) ?_
            rw [wp_pure]
            refine ⟨rfl, ?_⟩
            rw [hp.abs]
            have := h.ent (r := i + 1) (c := i) (by omega) (by omega)
            linarith
          · unfold wp MatV.get
            rw [if_neg (by omega)]
            exact ⟨rfl, by omega⟩
        · rw [wp_pure]
          exact ⟨rfl, by linarith⟩
      · rw [wp_pure]
        exact ⟨rfl, hp.two (h.ent (by omega) (by omega)) (h.ent (by omega) (by omega))⟩
    refine wp_mono s1 ?_ (fun _ _ h => h)
    rintro t _ ⟨rfl, ht⟩
    rw [wp_ite]
    split
    · next he =>
      have bnd : ‖FA i (i - 1)‖ ≤ hqDel p A.n A0 := le_trans (hp.lo _) (le_trans he (hqDel_eps hp ht))
      rw [wp_bind]
      refine wp_getE ⟨by omega, by omega⟩ ?_
      beta_reduce
      have sp : ∀ sup, 0 < max (p.abs1 (FA i i)) (p.abs1 (FA i i - FA (i - 1) (i - 1))) +
          (if p.abs1 (FA i (i - 1)) > p.abs1 sup then p.abs1 (FA i (i - 1)) else p.abs1 sup) := by
        intro sup
        have a1 : 0 ≤ p.abs1 (FA i i) := le_trans (norm_nonneg _) (hp.lo _)
        have a2 := le_max_left (p.abs1 (FA i i)) (p.abs1 (FA i i - FA (i - 1) (i - 1)))
        have a3 : 0 < (if p.abs1 (FA i (i - 1)) > p.abs1 sup then p.abs1 (FA i (i - 1)) else p.abs1 sup) := by
          split
          · exact pos
          · next hh => exact lt_of_lt_of_le pos (not_lt.1 hh)
        linarith
      rw [wp_ite, if_neg (ne_of_gt (sp _))]
      refine wp_if (fun _ => ?_) fun _ => ?_
      · rw [wp_bind]
        refine wp_setE ⟨by omega, by omega⟩ ?_
        rw [wp_pure]
        exact .inl ⟨rfl, rfl, bnd⟩
      · rw [wp_pure]
        exact .inr ⟨rfl, rfl, hne⟩
    · rw [wp_pure]
      exact .inr ⟨rfl, rfl, hne⟩

/-- Setting a negligible subdiagonal entry to zero: a new cut. -/
theorem HqI.cut (ok : HqrOK wantz ilo ihi A w Z) (h : HqI wantt wantz A0 Z0 ilo ihi istop A w Z μ K FA FZ ε ν) {i : Nat}
    (g0 : ilo < i) (g1 : i < istop) (g2 : istop ≤ ihi) {δ : ℝ} (hd : ‖FA i (i - 1)‖ ≤ δ) :
    HqI wantt wantz A0 Z0 ilo ihi istop A w Z μ (fun κ => K κ ∨ κ = i)
      (fun r c => if r = i ∧ c = i - 1 then 0 else FA r c) FZ (ε + δ) (upd ν (A.cell i (i - 1)) 0) := by
  have k1 := ok.Am
  have k2 := ok.hi
  have up := h.mem.self.upd (G' := fun r c => if r = i ∧ c = i - 1 then 0 else ν (A.cell r c)) (v := (0 : 𝕜)) ok.injA
    (by omega : i < A.m) (by omega : i - 1 < A.n) (fun _ _ _ _ => rfl)
  have ze := zeroEntry (n := A.n) (FA := FA) (FA' := fun r c => if r = i ∧ c = i - 1 then 0 else FA r c) (a := i)
    (b := i - 1) (fun _ _ _ _ => rfl)
  refine ⟨?_, ⟨?_, ?_⟩, h.err.pert (ze.1.trans hd), ze.2.trans h.fro, .inl h.klo, fun κ a b => .inl (h.kdn κ a b), ?_⟩
  · refine h.mem.setA ok up fun r c hr hc hP => ?_
    have hP' : HqP wantt K r c := by
      rcases hP with h | h | h
      · exact .inl h
      · exact .inr (.inl h)
      · exact .inr (.inr fun κ hκ => h κ (.inl hκ))
    rw [h.mem.a r c hr hc hP']
  · intro κ hκ r c hr h1 h2
    split
    · rfl
    next hne =>
    rcases hκ with hκ | rfl
    · exact h.pat.cut κ hκ r c hr h1 h2
    · by_cases hs : istop ≤ r
      · exact h.pat.cut istop (h.kdn istop le_rfl g2) r c hr hs (by omega)
      · by_cases hl : ilo ≤ c
        · exact h.pat.hess r c hl (by omega) (by omega) (by omega)
        · exact h.pat.cut ilo h.klo r c hr (by omega) (by omega)
  · intro r c h1 h2 h3 h4
    split
    · rfl
    · exact h.pat.hess r c h1 h2 h3 h4
  · intro j h1 h2
    rw [if_neg (by omega), ← h.wdn j h1 h2]
    exact up.frame _ (ok.wA j (by rw [ok.wn]; omega))

theorem HqI.mono (h : HqI wantt wantz A0 Z0 ilo ihi istop A w Z μ K FA FZ ε ν) {ε' : ℝ} (he : ε ≤ ε') :
    HqI wantt wantz A0 Z0 ilo ihi istop A w Z μ K FA FZ ε' ν :=
  ⟨h.mem, h.pat, h.err.mono he, h.fro, h.klo, h.kdn, h.wdn⟩

theorem wp_hqrScan (hp : HqLaws p) (ok : HqrOK wantz ilo ihi A w Z) (g0 : ilo ≤ istart)
    (g2 : istop ≤ ihi) : ∀ (j : Nat) (ν : Store L 𝕜) (h : HqI wantt wantz A0 Z0 ilo ihi istop A w Z μ K FA FZ ε ν)
    (kst : K istart) (g1 : istart ≤ j) (g3 : j < istop) (hK : ∀ κ, j < κ → κ < istop → ¬ K κ),
    wp (hqrScan p A ilo ihi istart j) ν (fun r ν' => ∃ K' FA',
      HqI wantt wantz A0 Z0 ilo ihi istop A w Z μ K' FA' FZ (ε + hqDel p A.n A0) ν' ∧ K' r ∧ istart ≤ r ∧ r < istop ∧
        (r = istart ∨ r ≤ j) ∧ ∀ κ, K' κ → κ ≤ r ∨ istop ≤ κ) (fun e _ => e = .ub ∧ ihi = A.n) := by
  have f0 := hqDel_nonneg hp A.n A0
  intro j
  induction j with
  | zero =>
    intro ν h kst g1 g3 hK
    have e0 : istart = 0 := by omega
    rw [hqrScan, wp_pure]
    refine ⟨K, FA, h.mono (by linarith), kst, le_rfl, by omega, .inl rfl, fun κ hκ => ?_⟩
    by_contra hc
    exact hK κ (by omega) (by omega) hκ
  | succ j ih =>
    intro ν h kst g1 g3 hK
    rw [hqrScan, wp_ite]
    split
    · next hlt =>
      rw [wp_bind]
      refine wp_mono (wp_hqrDefl hp ok h (by omega) g3 g2 hK) ?_ (fun _ _ h => h)
      rintro b ν1 (⟨rfl, rfl, hd⟩ | ⟨rfl, rfl, hne⟩)
      · rw [wp_ite, if_pos rfl, wp_pure]
        refine ⟨_, _, h.cut ok (by omega) g3 g2 hd, .inr rfl, by omega, g3, .inr le_rfl, fun κ hκ => ?_⟩
        rcases hκ with hκ | rfl
        · by_contra hc
          exact hK κ (by omega) (by omega) hκ
        · exact .inl le_rfl
      · rw [wp_ite, if_neg (by simp)]
        refine wp_mono (ih ν1 h kst (by omega) (by omega) fun κ h1 h2 hκ => ?_) ?_ (fun _ _ h => h)
        · by_cases e : κ = j + 1
          · subst e
            have := ok.hi
            exact hne (h.pat.cut (j + 1) hκ (j + 1) j (by omega) le_rfl (by omega))
          · exact hK κ (by omega) h2 hκ
        · rintro r ν2 ⟨K', FA', a, b, c, d, e, f⟩
          exact ⟨K', FA', a, b, c, d, by omega, f⟩
    · next hlt =>
      have e0 : istart = j + 1 := by omega
      rw [wp_pure]
      refine ⟨K, FA, h.mono (by linarith), kst, le_rfl, by omega, .inl rfl, fun κ hκ => ?_⟩
      by_contra hc
      exact hK κ (by omega) (by omega) hκ

theorem wp_hqrFind {o : RotOps 𝕜} (ho : RotLaws o) (hp : HqLaws p) (ok : HqrOK wantz ilo ihi A w Z)
    (h : HqI wantt wantz A0 Z0 ilo ihi istop A w Z μ K FA FZ ε ν) (g0 : ilo ≤ istart) (g2 : istop ≤ ihi)
    (hK : ∀ κ, K κ → κ ≤ istart ∨ istop ≤ κ) (s1 : 𝕜) : ∀ (j : Nat) (g1 : istart ≤ j) (g3 : j + 1 < istop),
    wp (hqrFind o p A s1 istart j) ν (fun r ν' => ν' = ν ∧ istart ≤ r ∧ r + 1 < istop ∧ (r = istart ∨ istart < r ∧
      ∃ a z c s, o.gen (FA r r - s1) (FA (r + 1) r) = some (a, z, c, s) ∧
        ‖star s * FA r (r - 1)‖ ≤ hqDel p A.n A0)) (fun _ _ => False) := by
  have k1 := ok.Am
  have k2 := ok.hi
  intro j
  induction j with
  | zero =>
    intro g1 g3
    rw [hqrFind, wp_pure]
    exact ⟨rfl, le_rfl, by omega, .inl rfl⟩
  | succ j ih =>
    intro g1 g3
    rw [hqrFind, wp_ite]
    split
    · next hlt =>
      have blk : ∀ r k, istart ≤ r → r < istop → istart ≤ k → k < istop → HqP wantt K r k := fun r k a b c d =>
        HqP.blk hK a b c d
      simp only [wp_bind]
      refine h.mem.rd ok (by omega) (by omega) (blk _ _ (by omega) (by omega) (by omega) (by omega)) ?_
      refine h.mem.rd ok (by omega) (by omega) (blk _ _ (by omega) (by omega) (by omega) (by omega)) ?_
      obtain ⟨r, zz, c, s, e, -, -, -⟩ := ho (FA (j + 1) (j + 1) - s1) (FA (j + 2) (j + 1))
      simp only [hqrRotg, e, wp_pure]
      refine h.mem.rd ok (by omega) (by omega) (blk _ _ (by omega) (by omega) (by omega) (by omega)) ?_
      refine h.mem.rd ok (by omega) (by omega) (blk _ _ (by omega) (by omega) (by omega) (by omega)) ?_
      rw [wp_ite]
      split
      · next hc =>
        rw [wp_pure]
        refine ⟨rfl, by omega, by omega, .inr ⟨hlt, r, zz, c, s, e, ?_⟩⟩
        refine le_trans (hp.lo _) (le_trans hc (hqDel_eps hp (hp.two (h.ent ?_ ?_) (h.ent ?_ ?_)))) <;> omega
      · exact ih (by omega) (by omega)
    · rw [wp_pure]
      exact ⟨rfl, le_rfl, by omega, .inl rfl⟩

end TLA

namespace TLA
open Matrix Finset
section sweep
variable {L 𝕜 : Type} [DecidableEq L] [RCLike 𝕜] [DecidableEq 𝕜]
variable {p : HqrPar 𝕜} {o : RotOps 𝕜} {wantt wantz : Bool} {A0 Z0 : Nat → Nat → 𝕜}
  {ilo ihi istop istart istart2 istartM istopM : Nat} {A Z : MatV L} {w : VecV L}
  {μ ν : Store L 𝕜} {K : Nat → Prop} {FA FZ : Nat → Nat → 𝕜} {ε : ℝ} {s1 : 𝕜}

set_option maxHeartbeats 1000000 in
theorem wp_hqrSweep (ho : RotLaws o) (hp : HqLaws p) (ok : HqrOK wantz ilo ihi A w Z)
    (h : HqI wantt wantz A0 Z0 ilo ihi istop A w Z μ K FA FZ ε ν)
    (hK : ∀ κ, K κ → κ ≤ istart ∨ istop ≤ κ) (kst : K istart)
    (g0 : ilo ≤ istart) (g1 : istart ≤ istart2) (g2 : istart2 + 1 < istop) (g3 : istop ≤ ihi)
    (hf : istart2 = istart ∨ istart < istart2 ∧
      ∃ a z c s, o.gen (FA istart2 istart2 - s1) (FA (istart2 + 1) istart2) = some (a, z, c, s) ∧
        ‖star s * FA istart2 (istart2 - 1)‖ ≤ hqDel p A.n A0)
    (hlo : istartM ≤ istart ∧ (wantt = true → istartM = 0)) (hhi : istopM = if wantt then A.n else istop) :
    wp (forUp_ istart2 (istop - 1) fun i => hqrStep o wantz A Z s1 istart istart2 istop istartM istopM i) ν
      (fun _ ν' => ∃ FA' FZ', HqI wantt wantz A0 Z0 ilo ihi istop A w Z μ K FA' FZ' (ε + hqDel p A.n A0) ν') := by
  have k2 := ok.hi
  have k1 := ok.Am
  have f0 := hqDel_nonneg hp A.n A0
  have ksp := h.kdn istop le_rfl g3
  refine wp_forUp_ (fun i ν' => ∃ FA' FZ', HqMem wantt wantz K A w Z μ FA' FZ' ν' ∧
    HqZ A.n ilo ihi K FA' (if i = istart2 then 0 else i) ∧
    SwErr wantz A.n A0 Z0 FA' FZ' (if i = istart2 then ε else ε + hqDel p A.n A0) ∧
    frobM (mat A.n A.n FA') ≤ frobM (mat A.n A.n A0) ∧
    (∀ j, istop ≤ j → j < ihi → ν' (w.cell j) = FA' j j) ∧ (i = istart2 → FA' = FA)) (by omega) ?_ ?_ ?_
  · refine ⟨FA, FZ, h.mem, ?_, ?_, h.fro, h.wdn, fun _ => rfl⟩
    · rw [if_pos rfl]; exact h.pat
    · rw [if_pos rfl]; exact h.err
  · rintro i ν1 hi1 hi2 ⟨F, FQ, m, zz, er, fr, wd, eq⟩
    refine wp_conseq (wp_hqrStep ho ok hK kst ksp h.klo m zz g0 g1 hi1 (by omega) g3 hlo hhi) ?_
    rintro _ ν2 ⟨c, s, rot, e1, e2, m2, wf⟩
    have hb : (if i = istart2 then 0 else i) = 0 ∨ (if i = istart2 then 0 else i) = i := by split <;> simp
    have ze : ∀ k, k + 1 = i → _ := fun k hk => zeroEntry (n := A.n) (FA := simRot i (i + 1) c s F) (FA' := hqNext i c s F)
      (a := i + 1) (b := k) (fun r c' _ _ => by
        unfold hqNext
        have : (c' + 1 = i) ↔ (c' = k) := by omega
        simp only [this])
    have fr1 := frobM_simRot (n := A.n) (by omega : i < A.n) (by omega : i + 1 < A.n) (by omega) rot F
    have er1 := er.rot (by omega : i < A.n) (by omega : i + 1 < A.n) (by omega) rot
    refine ⟨_, _, m2, ?_, ?_, ?_, ?_, fun h => by omega⟩
    · rw [if_neg (by omega)]
      exact zz.next hK ksp h.klo hb g0 (by omega) (by omega) g3 ok.hi
    · rw [if_neg (by omega)]
      rcases Nat.eq_zero_or_pos i with i0 | i0
      · have e : ∀ r c', r < A.n → c' < A.n → simRot i (i + 1) c s F r c' = hqNext i c s F r c' := by
          intro r c' _ _
          unfold hqNext
          rw [if_neg (by omega)]
        refine (er1.congr e fun _ _ _ _ _ => rfl).mono ?_
        split <;> linarith
      obtain ⟨k, rfl⟩ : ∃ k, i = k + 1 := ⟨i - 1, by omega⟩
      obtain ⟨z1, z2⟩ := ze k rfl
      -- the entry dropped
      have val : simRot (k + 1) (k + 2) c s F (k + 2) k = -star s * F (k + 1) k + c * F (k + 2) k := by
        simp [simRot, rowMap, colMap, pairRot, show ¬ k = k + 1 by omega, show ¬ k = k + 2 by omega]
      rw [show k + 1 + 1 = k + 2 from rfl] at z1
      rw [val] at z1
      by_cases ei : k + 1 = istart2
      · rw [if_pos ei] at er1 zz
        have f20 : F (k + 2) k = 0 := by
          by_cases hl : ilo ≤ k
          · exact zz.hess _ _ hl (by omega) (by omega) (by omega)
          · exact zz.cut ilo h.klo _ _ (by omega) (by omega) (by omega)
        refine er1.pert (z1.trans ?_)
        rw [f20, mul_zero, add_zero, neg_mul, norm_neg]
        rcases hf with hf | ⟨hf, a, z, c', s', he, hn⟩
        · have : F (k + 1) k = 0 := zz.cut istart kst _ _ (by omega) (by omega) (by omega)
          rw [this, mul_zero, norm_zero]; exact f0
        · obtain ⟨r', z', he'⟩ := e1 ei
          rw [eq ei, ei] at he'
          rw [he] at he'
          simp only [Option.some.injEq, Prod.mk.injEq] at he'
          rw [← he'.2.2.2, eq ei, ei, show k = istart2 - 1 by omega]
          exact hn
      · rw [if_neg ei] at er1
        have d0 : -star s * F (k + 1) k + c * F (k + 2) k = 0 := by
          have := e2 ei
          rw [show k + 1 - 1 = k by omega, show k + 1 + 1 = k + 2 from rfl] at this
          rw [this]; ring
        rw [d0, norm_zero] at z1
        have := er1.pert z1
        rwa [add_zero] at this
    · rcases Nat.eq_zero_or_pos i with i0 | i0
      · have e : mat A.n A.n (hqNext i c s F) = mat A.n A.n (simRot i (i + 1) c s F) := mat_ext_iff.2 fun r c' _ _ => by
          unfold hqNext
          rw [if_neg (by omega)]
        rw [e, fr1]; exact fr
      · exact ((ze (i - 1) (by omega)).2.trans (le_of_eq fr1)).trans fr
    · intro j hj1 hj2
      rw [wf j (by rw [ok.wn]; omega), wd j hj1 hj2]
      unfold hqNext
      rw [if_neg (by omega), simRot_out (by omega) (by omega) (by omega) (by omega)]
  · rintro ν1 ⟨F, FQ, m, zz, er, fr, wd, eq⟩
    rw [if_neg (by omega)] at zz er
    refine ⟨F, FQ, m, ⟨zz.cut, fun r c h1 h2 h3 h4 => ?_⟩, er, fr, h.klo, h.kdn, wd⟩
    by_cases hc : r = istop - 1 + 1 ∧ c + 1 = istop - 1
    · exact zz.cut istop ksp r c (by omega) (by omega) (by omega)
    · exact zz.hess r c h1 h2 h3 hc

end sweep

section main
variable {L : Type} [DecidableEq L]
variable {p : HqrPar ℂ} {o : RotOps ℂ} {wantt wantz : Bool} {A0 Z0 : Nat → Nat → ℂ}
  {ilo ihi istop istart : Nat} {A Z : MatV L} {w : VecV L}
  {μ ν : Store L ℂ} {K : Nat → Prop} {FA FZ : Nat → Nat → ℂ} {ε : ℝ}

theorem wp_hqrShift (ok : HqrOK wantz ilo ihi A w Z) (g2 : 2 ≤ istop) (g3 : istop ≤ ihi)
    (kdefl : Nat) : wp (hqrShift p A ilo istop kdefl) ν (fun _ ν' => ν' = ν) := by
  have k1 := ok.Am
  have k2 := ok.hi
  unfold hqrShift
  simp only [wp_bind, wp_get]
  refine ⟨⟨by omega, by omega⟩, ?_⟩
  have s1 : wp (if kdefl % 10 = 0 then do
      let x ← A.get (istop - 1) (istop - 2)
      let s := p.abs x
      let s ← (if ilo + 2 < istop then do
        let y ← A.get (istop - 2) (istop - 3)
        pure (s + p.abs y)
      else pure s : M L ℂ ℝ)
      let a00 := ((0.75 : ℝ) * s : ℝ) + ν (A.cell (istop - 1) (istop - 1))
      pure (a00, (((-0.4375 : ℝ) * s : ℝ) : ℂ), (s : ℂ), a00)
    else do
      let a00 ← A.get (istop - 2) (istop - 2)
      let a10 ← A.get (istop - 1) (istop - 2)
      let a01 ← A.get (istop - 2) (istop - 1)
      pure (a00, a01, a10, ν (A.cell (istop - 1) (istop - 1))) : M L ℂ (ℂ × ℂ × ℂ × ℂ)) ν (fun _ ν' => ν' = ν) := by
    rw [wp_ite]
    split
    · simp only [wp_bind, wp_get]
      refine ⟨⟨by omega, by omega⟩, ?_⟩
      rw [wp_ite]
      split
      · simp only [wp_bind, wp_get, wp_pure]
        exact ⟨⟨by omega, by omega⟩, trivial⟩
      · simp only [wp_pure]
    · simp only [wp_bind, wp_get, wp_pure]
      exact ⟨⟨by omega, by omega⟩, ⟨by omega, by omega⟩, ⟨by omega, by omega⟩, trivial⟩
  refine wp_conseq s1 ?_
  rintro ⟨a00, a01, a10, a11⟩ _ rfl
  obtain ⟨s1, s2, e, -⟩ := Kernel.eig22C_ok a00 a01 a10 a11
  simp only [e, liftO, wp_pure]

/-- The main loop's invariant. -/
def HqLoop (p : HqrPar ℂ) (wantt wantz : Bool) (A0 Z0 : Nat → Nat → ℂ) (ilo ihi : Nat) (A : MatV L) (w : VecV L)
    (Z : MatV L) (μ : Store L ℂ) (iter : Nat) (x : HqrSt) (ν : Store L ℂ) : Prop :=
  ∃ K FA FZ, HqI wantt wantz A0 Z0 ilo ihi x.istop A w Z μ K FA FZ (2 * iter * hqDel p A.n A0) ν ∧
    ilo ≤ x.istart ∧ ilo ≤ x.istop ∧ x.istop ≤ ihi ∧ K x.istart ∧ (x.istart = ilo ∨ x.istart + 2 ≤ x.istop)

/-- The loop's result. -/
def HqEnd (p : HqrPar ℂ) (wantt wantz : Bool) (A0 Z0 : Nat → Nat → ℂ) (ilo ihi : Nat) (A : MatV L) (w : VecV L)
    (Z : MatV L) (μ : Store L ℂ) (itmax : Nat) (r : Nat) (ν : Store L ℂ) : Prop :=
  ∃ i K FA FZ, HqI wantt wantz A0 Z0 ilo ihi i A w Z μ K FA FZ (2 * itmax * hqDel p A.n A0) ν ∧
    ilo ≤ i ∧ i ≤ ihi ∧ (r = i ∨ r = 0 ∧ i = ilo)

theorem HqI.wset (ok : HqrOK wantz ilo ihi A w Z) (h : HqI wantt wantz A0 Z0 ilo ihi istop A w Z μ K FA FZ ε ν)
    (hs : istart + 1 = istop) (g3 : istop ≤ ihi) (hk : K istart) :
    HqI wantt wantz A0 Z0 ilo ihi istart A w Z μ K FA FZ ε (upd ν (w.cell istart) (FA istart istart)) := by
  have := ok.hi
  have := ok.wn
  refine ⟨h.mem.setW ok (by omega) _, h.pat, h.err, h.fro, h.klo, fun κ h1 h2 => ?_, fun i h1 h2 => ?_⟩
  · by_cases e : κ = istart
    · exact e ▸ hk
    · exact h.kdn κ (by omega) h2
  · unfold upd
    by_cases e : i = istart
    · subst e; rw [if_pos rfl]
    · rw [if_neg fun h' => e (ok.injW _ _ (by omega) (by omega) h')]
      exact h.wdn i (by omega) h2

set_option maxHeartbeats 1000000 in
theorem wp_hqrPass (ho : RotLaws o) (hp : HqLaws p) (ok : HqrOK wantz ilo ihi A w Z) {iter itmax : Nat} {x : HqrSt}
    (hit : iter ≤ itmax) (h : HqLoop p wantt wantz A0 Z0 ilo ihi A w Z μ iter x ν) :
    wp (hqrPass o p wantt wantz ilo ihi itmax A w Z iter x) ν (fun r ν' => match r with
      | .inl x' => iter + 1 ≤ itmax ∧ HqLoop p wantt wantz A0 Z0 ilo ihi A w Z μ (iter + 1) x' ν'
      | .inr r => HqEnd p wantt wantz A0 Z0 ilo ihi A w Z μ itmax r ν') (fun e _ => e = .ub ∧ ihi = A.n) := by
  obtain ⟨K, FA, FZ, hI, g0, g1, g2, hk, g4⟩ := h
  have k1 := ok.Am
  have k2 := ok.hi
  have kw := ok.wn
  have f0 := hqDel_nonneg hp A.n A0
  have eb : 2 * (iter : ℝ) * hqDel p A.n A0 ≤ 2 * itmax * hqDel p A.n A0 := by
    have : (iter : ℝ) ≤ itmax := by exact_mod_cast hit
    nlinarith
  have dg : ∀ (K : Nat → Prop) r, HqP wantt K r r := fun _ r => .inr (.inr fun _ _ => Iff.rfl)
  unfold hqrPass
  rw [wp_ite]
  split
  · rw [wp_pure]
    exact ⟨x.istop, K, FA, FZ, hI.mono eb, g1, g2, .inl rfl⟩
  next hne =>
  rw [wp_ite]
  split
  · next hs =>
    rw [wp_bind, wp_ite]
    split
    · next he =>
      rw [wp_bind]
      refine hI.mem.rd ok (by omega) (by omega) (dg K _) ?_
      refine wp_vsetE (by omega) ?_
      rw [wp_pure]
      exact ⟨x.istart, K, FA, FZ, (hI.wset ok he g2 hk).mono eb, by omega, by omega, .inr ⟨rfl, by omega⟩⟩
    · next he =>
      rw [wp_pure, wp_pure]
      exact ⟨x.istop, K, FA, FZ, hI.mono eb, g1, g2, .inr ⟨rfl, by omega⟩⟩
  next hs =>
  simp only [wp_bind]
  refine wp_mono (wp_hqrScan hp ok g0 g2 (x.istop - 1) ν hI hk (by omega) (by omega) fun κ _ _ _ => by omega) ?_
    (fun _ _ h => h)
  rintro r ν1 ⟨K', FA', h1, hkr, r1, r2, -, hK⟩
  have e1 : 2 * (iter : ℝ) * hqDel p A.n A0 + hqDel p A.n A0 + hqDel p A.n A0 =
      2 * ((iter + 1 : ℕ) : ℝ) * hqDel p A.n A0 := by push_cast; ring
  rw [wp_ite]
  split
  · next hr =>
    rw [wp_bind]
    refine h1.mem.rd ok (by omega) (by omega) (dg K' _) ?_
    rw [wp_bind]
    refine wp_vsetE (by omega) ?_
    rw [wp_pure]
    exact ⟨by omega, K', FA', FZ, (h1.wset ok (by omega) g2 hkr).mono (by linarith), le_rfl, by simp only; omega,
      by simp only; omega, h1.klo, .inl rfl⟩
  · next hr =>
    rw [wp_bind]
    refine wp_conseq (wp_hqrShift ok (by omega) g2 _) ?_
    rintro s1 ν3 rfl
    rw [wp_bind]
    have fnd : wp (if r + 2 < x.istop then hqrFind o p A s1 r (x.istop - 2) else pure r : M L ℂ Nat) ν3 (fun q ν' =>
        ν' = ν3 ∧ r ≤ q ∧ q + 1 < x.istop ∧ (q = r ∨ r < q ∧
          ∃ a z c s, o.gen (FA' q q - s1) (FA' (q + 1) q) = some (a, z, c, s) ∧
          ‖star s * FA' q (q - 1)‖ ≤ hqDel p A.n A0)) := by
      rw [wp_ite]
      split
      · exact wp_hqrFind ho hp ok h1 (by omega) g2 hK s1 (x.istop - 2) (by omega) (by omega)
      · rw [wp_pure]
        exact ⟨rfl, le_rfl, by omega, .inl rfl⟩
    refine wp_conseq fnd ?_
    rintro q _ ⟨rfl, q1, q2, q3⟩
    rw [wp_bind]
    have hM := wp_hqrSweep (istart := r) (istart2 := q) (s1 := s1) (istartM := if wantt then 0 else x.istart)
      (istopM := if wantt then A.n else x.istop)
      ho hp ok h1 hK hkr (by omega) q1 q2 g2 q3 (by cases wantt <;> simp [r1]) rfl
    refine wp_conseq hM ?_
    rintro _ ν2 ⟨FA2, FZ2, h2⟩
    rw [wp_pure]
    rw [e1] at h2
    exact ⟨by omega, K', FA2, FZ2, h2, by simp only; omega, g1, g2, hkr, .inr (by simp only; omega)⟩

/-- The whole of lahqr (complex). -/
theorem wp_lahqrC (ho : RotLaws o) (hp : HqLaws p) (ok : HqrOK wantz ilo ihi A w Z)
    (ha : ∀ r c, r < A.n → c < A.n → ν (A.cell r c) = A0 r c)
    (hz : wantz = true → ∀ r c, r < A.n → c < A.n → ν (Z.cell r c) = Z0 r c)
    (z1 : ∀ r c, r < A.n → ilo ≤ r → c < ilo → A0 r c = 0) (z2 : ∀ r c, r < A.n → ihi ≤ r → c < ihi → A0 r c = 0)
    (z3 : ∀ r c, ilo ≤ c → r < ihi → c + 1 < r → A0 r c = 0) :
    wp (lahqrC o p wantt wantz ilo ihi A w Z) ν (fun r ν' =>
      HqEnd p wantt wantz A0 Z0 ilo ihi A w Z ν (30 * max 10 (ihi - ilo)) r ν') (fun e _ => e = .ub ∧ ihi = A.n) := by
  have k1 := ok.Am
  have k2 := ok.hi
  have k3 := ok.lo
  have kw := ok.wn
  have f0 := hqDel_nonneg hp A.n A0
  have base : HqI wantt wantz A0 Z0 ilo ihi ihi A w Z ν (fun κ => κ = ilo ∨ κ = ihi) A0 Z0 0 ν :=
    ⟨⟨fun r c hr hc _ => ha r c hr hc, hz, fun _ _ _ _ => rfl⟩,
      ⟨fun κ hκ r c hr h1 h2 => by
        rcases hκ with rfl | rfl
        · exact z1 r c hr h1 h2
        · exact z2 r c hr h1 h2, fun r c h1 h2 h3 _ => z3 r c h1 h2 h3⟩, SwErr.start, le_rfl, .inl rfl,
      fun κ h1 h2 => .inr (by omega), fun i h1 h2 => by omega⟩
  unfold lahqrC
  simp only [wp_bind]
  rw [wp_check, if_pos (by simp [k1]), wp_check, if_pos (by simp [kw])]
  have chk : wp (if wantz then check (!(decide (A.n ≠ Z.n) || decide (A.n ≠ Z.m))) else pure () : M L ℂ Unit) ν
      (fun _ ν' => ν' = ν) := by
    rw [wp_ite]
    split
    · next wz =>
      simp [wp_check, ok.Zm wz, ok.Zn wz]
    · simp
  refine wp_conseq chk ?_
  rintro _ ν rfl
  rw [wp_ite]
  split
  · rw [wp_pure]
    exact ⟨ihi, _, A0, Z0, base.mono (by positivity), by omega, le_rfl, .inr ⟨rfl, by omega⟩⟩
  next hn =>
  rw [wp_bind]
  have s1 : wp (if ihi - ilo = 1 then do
      let d ← A.get ilo ilo
      w.set ilo d
    else pure () : M L ℂ Unit) ν (fun _ ν' =>
      HqI wantt wantz A0 Z0 ilo ihi ihi A w Z ν (fun κ => κ = ilo ∨ κ = ihi) A0 Z0 0 ν') := by
    rw [wp_ite]
    split
    · next h1 =>
      simp only [wp_bind, wp_get, wp_vset]
      refine ⟨⟨by omega, by omega⟩, by omega, ?_⟩
      rw [ha ilo ilo (by omega) (by omega)]
      exact ⟨base.mem.setW ok (by omega) _, base.pat, base.err, base.fro, base.klo, base.kdn, fun i h1 h2 => by omega⟩
    · rw [wp_pure]; exact base
  refine wp_conseq s1 ?_
  rintro _ ν1 h1
  rw [wp_bind]
  refine wp_mono (wp_forRet (Q := fun r ν' => match r with
      | .inl _ => False
      | .inr r => HqEnd p wantt wantz A0 Z0 ilo ihi A w Z ν (30 * max 10 (ihi - ilo)) r ν')
    (fun iter x ν' => iter ≤ 30 * max 10 (ihi - ilo) ∧ HqLoop p wantt wantz A0 Z0 ilo ihi A w Z ν iter x ν')
    (Nat.zero_le _) ?_ ?_ ?_) ?_ (fun _ _ h => h)
  · refine ⟨Nat.zero_le _, _, A0, Z0, h1.mono (by simp), le_rfl, k3, le_rfl, .inl rfl, .inl rfl⟩
  · rintro iter x ν2 - hi2 ⟨h2, h3⟩
    refine wp_mono (wp_hqrPass ho hp ok h2 h3) ?_ (fun _ _ h => h)
    rintro (x' | r) ν3 h4
    · exact h4
    · exact h4
  · rintro x ν2 ⟨h2, -⟩
    omega
  · rintro (x | r) ν2 h2
    · exact h2.elim
    · simp only [wp_pure]
      exact h2

end main

end TLA
