import Verif.Proofs.HouseApply
import Verif.Props.Region

/-! ungq_level2: generation of Q. -/

set_option linter.unusedSectionVars false
set_option linter.unusedTactic false
set_option linter.unreachableTactic false

namespace TLA
open Finset
variable {L 𝕜 : Type} [DecidableEq L] [RCLike 𝕜] [DecidableEq 𝕜]

/-- One step of ungq. -/
structure UngStep (m n P r0 r1 c c0 c1 : Nat) (t : 𝕜) (G G' : Nat → Nat → 𝕜) : Prop where
  col : ∀ r, r < m → G' r c = (if r = P then 1 else 0) - t * colU P r0 r1 c G r
  rest : ∀ r c', r < m → c0 ≤ c' → c' < c1 → G' r c' = applyL m t (colU P r0 r1 c G) G r c'
  same : ∀ r c', r < m → c' < n → c' ≠ c → ¬ (c0 ≤ c' ∧ c' < c1) → G' r c' = G r c'

/-- Columns finished when `j` is the next reflector (Forward: going down; Backward: going up). -/
def ungDone (dir : Direction) (n k j c : Nat) : Prop := if dir = .Forward then j ≤ c else c + k < n + j

/-- The reflectors applied so far. -/
def ungList (dir : Direction) (k j : Nat) : List Nat :=
  if dir = .Forward then List.range' j (k - j) else (List.range j).reverse

structure UInv (dir : Direction) (m n k : Nat) (H : Nat → Matrix (Fin m) (Fin m) 𝕜) (G0 : Nat → Nat → 𝕜) (j : Nat)
    (G : Nat → Nat → 𝕜) : Prop where
  old : ∀ r c, r < m → c < n → ¬ ungDone dir n k j c → G r c = G0 r c
  new : ∃ F : Nat → Nat → 𝕜, mat m n F = ((ungList dir k j).map H).prod * mat m n (eyeF dir m n) ∧
    (∀ r c, r < m → c < n → ungDone dir n k j c → G r c = F r c) ∧
    (∀ r c, r < m → c < n → ¬ ungDone dir n k j c → F r c = eyeF dir m n r c)

/-- Slice parameters for reflector `j`. -/
structure UngPar (dir : Direction) (m n k j P r0 r1 c c0 c1 : Nat) : Prop where
  P : P = hpiv dir m k j
  r0 : r0 = if dir = .Forward then j else 0
  r1 : r1 = if dir = .Forward then m else m - k + j + 1
  c : c = qcol dir n k j
  c0 : c0 = if dir = .Forward then j + 1 else 0
  c1 : c1 = if dir = .Forward then n else n - k + j

theorem UInv.step {dir : Direction} {m n k j jold jnew : Nat} {H : Nat → Matrix (Fin m) (Fin m) 𝕜} {G0 G G' : Nat → Nat → 𝕜}
    {t : 𝕜} {P r0 r1 c c0 c1 : Nat} (hn : n ≤ m) (hk : k ≤ n) (hj : j < k)
    (hold : jold = if dir = .Forward then j + 1 else j) (hnew : jnew = if dir = .Forward then j else j + 1)
    (hp : UngPar dir m n k j P r0 r1 c c0 c1)
    (hH : H j = mat m m (reflF t (houseVec dir .Columnwise m k (fun r i => G0 r (qcol dir n k i)) j)))
    (h : UInv dir m n k H G0 jold G) (hs : UngStep m n P r0 r1 c c0 c1 t G G') : UInv dir m n k H G0 jnew G' := by
  obtain ⟨F, hF, hd, hnd⟩ := h.new
  have hcn : c < n := by rw [hp.c]; unfold qcol; split <;> omega
  -- column c is still the input
  have hcold : ∀ r, r < m → G r c = G0 r c := fun r hr => h.old r c hr hcn (by
    unfold ungDone; rw [hold, hp.c]; unfold qcol; cases dir <;> simp <;> omega)
  have hu : ∀ r, r < m → colU P r0 r1 c G r =
      houseVec dir .Columnwise m k (fun r i => G0 r (qcol dir n k i)) j r := by
    intro r hr
    unfold colU houseVec
    rw [hcold r hr]
    beta_reduce
    simp only []
    rw [← hp.c, ← hp.P]
    by_cases e : r = P
    · rw [if_pos e, if_pos e]
    · rw [if_neg e, if_neg e]
      have hPP := hp.P
      unfold hpiv at hPP
      have e0 := hp.r0
      have e1 := hp.r1
      cases dir with
      | Forward =>
        simp only [if_true] at hPP e0 e1 ⊢
        by_cases h2 : r < P
        · rw [if_pos h2, if_neg (by omega)]
        · rw [if_neg h2, if_pos (by omega)]
      | Backward =>
        simp only [reduceCtorEq, if_false] at hPP e0 e1 ⊢
        by_cases h2 : P < r
        · rw [if_pos h2, if_neg (by omega)]
        · rw [if_neg h2, if_pos (by omega)]
  obtain ⟨u, hud⟩ : ∃ u, u = houseVec dir .Columnwise m k (fun r i => G0 r (qcol dir n k i)) j := ⟨_, rfl⟩
  rw [← hud] at hu hH
  have hu0 : ∀ r, r < m → (if dir = .Forward then r < j else m - k + j < r) → u r = 0 := by
    intro r hr h2
    rw [hud]; unfold houseVec hpiv
    cases dir <;> simp only [reduceCtorEq, if_true, if_false] at h2 ⊢ <;> rw [if_neg (by omega), if_pos h2]
  refine ⟨fun r c' hr hc' h2 => ?_, applyL m t u F, ?_, fun r c' hr hc' h2 => ?_, fun r c' hr hc' h2 => ?_⟩
  · have e0 := hp.c; have e1 := hp.c0; have e2 := hp.c1
    unfold ungDone at h2
    unfold qcol at e0
    rw [hnew] at h2
    rw [hs.same r c' hr hc' (by cases dir <;> simp at e0 h2 ⊢ <;> omega) (by cases dir <;> simp at e1 e2 h2 ⊢ <;> omega)]
    refine h.old r c' hr hc' ?_
    unfold ungDone; rw [hold]; cases dir <;> simp at h2 ⊢ <;> omega
  · rw [mat_applyL, hF, ← hH, ← Matrix.mul_assoc]
    congr 1
    unfold ungList
    rw [hold, hnew]
    cases dir with
    | Forward =>
      simp only [if_true]
      rw [show k - j = (k - (j + 1)) + 1 by omega, List.range'_succ]
      simp
    | Backward =>
      simp only [reduceCtorEq, if_false]
      rw [List.range_succ]
      simp
  · by_cases e : c' = c
    · subst e
      rw [hs.col r hr, hu r hr]
      unfold applyL
      have hE : ∀ q, q < m → F q c' = if q = P then 1 else 0 := by
        intro q hq
        rw [hnd q c' hq hc' (by unfold ungDone; rw [hold, hp.c]; unfold qcol; cases dir <;> simp <;> omega)]
        unfold eyeF
        refine if_congr ?_ rfl rfl
        rw [hp.c, hp.P]; unfold qcol hpiv
        cases dir <;> simp <;> omega
      have hPm : P < m := by rw [hp.P]; unfold hpiv; split <;> omega
      rw [hE r hr, Finset.sum_congr rfl (fun q hq => by rw [hE q (mem_range.1 hq)])]
      simp only [mul_ite, mul_one, mul_zero]
      rw [Finset.sum_ite_eq', if_pos (mem_range.2 hPm)]
      have : u P = 1 := by rw [hud, hp.P]; unfold houseVec; rw [if_pos rfl]
      rw [this, star_one, mul_one]
    · have e0 := hp.c; have e1 := hp.c0; have e2 := hp.c1
      unfold qcol at e0
      unfold ungDone at h2
      rw [hnew] at h2
      rw [hs.rest r c' hr (by cases dir <;> simp at e0 e1 e2 h2 <;> omega) (by cases dir <;> simp at e0 e1 e2 h2 <;> omega)]
      have hG : ∀ q, q < m → G q c' = F q c' := fun q hq => hd q c' hq hc' (by
        unfold ungDone; rw [hold]; cases dir <;> simp at e0 e1 e2 h2 ⊢ <;> omega)
      unfold applyL
      rw [hG r hr, hu r hr]
      refine congrArg₂ _ rfl (congrArg₂ _ rfl (Finset.sum_congr rfl fun q hq => ?_))
      rw [hG q (mem_range.1 hq), hu q (mem_range.1 hq)]
  · have hE : ∀ q, q < m → F q c' = eyeF dir m n q c' := fun q hq => hnd q c' hq hc' (by
      unfold ungDone at h2 ⊢; rw [hnew] at h2; rw [hold]; cases dir <;> simp at h2 ⊢ <;> omega)
    unfold applyL
    rw [hE r hr, Finset.sum_eq_zero, mul_zero, sub_zero]
    intro q hq
    have hq := mem_range.1 hq
    rw [hE q hq]
    unfold ungDone at h2
    rw [hnew] at h2
    unfold eyeF
    by_cases e : (if dir = .Forward then q = c' else q + n = c' + m)
    · rw [hu0 q hq (by cases dir <;> simp at e h2 ⊢ <;> omega), star_zero, zero_mul]
    · rw [if_neg e, mul_zero]

/-! ### The program -/

theorem wp_ungTail {B : MatV L} (hB : B.Inj) {m P r0 r1 c z0 z1 : Nat} (hm : m = B.m) (h1 : r1 ≤ m) (hc : c < B.n) (hP : r0 ≤ P ∧ P < r1)
    (hz : (z0 = 0 ∧ z1 = r0 ∧ r1 = m) ∨ (z0 = r1 ∧ z1 = m ∧ r0 = 0)) {t : 𝕜} {ν : Store L 𝕜} :
    wp (do
      scal (-t) (B.colv r0 r1 c)
      B.set P c (1 - t)
      forUp_ z0 z1 fun i => B.set i c 0) ν (fun _ ν' => MState B ν (fun r c' => if c' = c then
        (if r = P then 1 - t else if r0 ≤ r ∧ r < r1 then entry ν B r c * (-t) else 0) else entry ν B r c') ν') := by
  subst hm
  simp only [wp_bind]
  refine wp_conseq (wp_scal (hB.colv h1 hc) (VState.start _ ν)) ?_
  intro _ ν1 hν1
  have s1 := (MState.start B ν).liftCol hB h1 hc hν1
  refine wp_setE ⟨by omega, hc⟩ ?_
  have s2 := s1.upd hB (i := P) (j := c) (v := 1 - t) (by omega) hc (fun _ _ _ _ => rfl)
  refine wp_conseq (wp_colLoop (j := c) (fun _ => 0) s2 hB hc (by omega) (by omega) ?_) ?_
  · intro i ν' h2 h3 _
    rw [wp_set]
    exact ⟨⟨by omega, hc⟩, rfl⟩
  · intro _ ν' h'
    refine h'.congr (fun r c' hr hc' => ?_)
    by_cases e : c' = c
    · subst e
      simp only [true_and, and_true, if_true]
      by_cases e2 : r = P
      · rw [if_pos e2, if_neg (by omega), if_pos e2]
      · rw [if_neg e2]
        by_cases e3 : r0 ≤ r ∧ r < r1
        · rw [if_pos e3, if_neg (by omega), if_neg e2, if_pos e3]
          simp only [ventry, MatV.colv, entry]
          rw [show r0 + (r - r0) = r by omega]
        · rw [if_neg e3, if_pos (by omega)]
    · simp [e]

/-- From the memory effects to the logical step. -/
theorem ungStep_of {store : StoreV} {B : MatV L} {P r0 r1 c c0 c1 : Nat} {t : 𝕜} {ν ν1 ν' : Store L 𝕜}
    (hcn : c < B.n) (h1n : c1 ≤ B.n) (hc : c < c0 ∨ c1 ≤ c) (hP : r0 ≤ P ∧ P < r1)
    (hlarf : ∀ r c', r < B.m → c' < B.n → LG store ν1 B r c' =
      if c0 ≤ c' ∧ c' < c1 then applyL B.m t (colU P r0 r1 c (LG store ν B)) (LG store ν B) r c' else LG store ν B r c')
    (htail : MState B ν1 (fun r c' => if c' = c then
        (if r = P then 1 - cj store t else if r0 ≤ r ∧ r < r1 then entry ν1 B r c * (-cj store t) else 0)
        else entry ν1 B r c') ν') :
    UngStep B.m B.n P r0 r1 c c0 c1 t (LG store ν B) (LG store ν' B) := by
  have hv : ∀ r c', r < B.m → c' < B.n → LG store ν' B r c' = cj store (if c' = c then
        (if r = P then 1 - cj store t else if r0 ≤ r ∧ r < r1 then entry ν1 B r c * (-cj store t) else 0)
        else entry ν1 B r c') := fun r c' hr hc' => by
    unfold LG; exact congrArg _ (htail.val r c' hr hc')
  refine ⟨fun r hr => ?_, fun r c' hr h0 h1 => ?_, fun r c' hr hc' hne hn => ?_⟩
  · have := hlarf r c hr hcn
    rw [if_neg (by omega)] at this
    rw [hv r c hr hcn, if_pos rfl]
    unfold colU
    by_cases e : r = P
    · rw [if_pos e, if_pos e, if_pos e]
      unfold cj; split <;> simp
    · rw [if_neg e, if_neg e, if_neg e]
      by_cases e2 : r0 ≤ r ∧ r < r1
      · rw [if_pos e2, if_pos e2, ← this]
        unfold LG cj
        split
        · ring
        · simp only [star_mul', star_neg, star_star]; ring
      · rw [if_neg e2, if_neg e2]
        unfold cj; split <;> simp
  · rw [hv r c' hr (by omega), if_neg (by omega)]
    have := hlarf r c' hr (by omega)
    rw [if_pos ⟨h0, h1⟩] at this
    exact this
  · rw [hv r c' hr hc', if_neg hne]
    have := hlarf r c' hr hc'
    rw [if_neg hn] at this
    exact this

structure UState (dir : Direction) (store : StoreV) (B : MatV L) (tau work : VecV L) (μ : Store L 𝕜)
    (j : Nat) (ν : Store L 𝕜) : Prop where
  inv : UInv dir B.m B.n tau.n
    (fun i => mat B.m B.m (reflF (ventry μ tau i) (houseVec dir .Columnwise B.m tau.n
      (fun r i => LG store μ B r (qcol dir B.n tau.n i)) i)))
    (LG store μ B) j (LG store ν B)
  frame : ∀ l, ¬ B.Owns l → ¬ work.Owns l → ν l = μ l

theorem UState.next {dir : Direction} {store : StoreV} {B : MatV L} {tau work : VecV L} {μ ν ν1 ν' : Store L 𝕜}
    {j jold jnew P r0 r1 c c0 c1 : Nat} (hn : B.n ≤ B.m) (hk : tau.n ≤ B.n) (hj : j < tau.n)
    (hold : jold = if dir = .Forward then j + 1 else j) (hnew : jnew = if dir = .Forward then j else j + 1)
    (hp : UngPar dir B.m B.n tau.n j P r0 r1 c c0 c1)
    (h : UState dir store B tau work μ jold ν)
    (hlarf : ∀ r c', r < B.m → c' < B.n → LG store ν1 B r c' =
      if c0 ≤ c' ∧ c' < c1 then applyL B.m (ventry μ tau j) (colU P r0 r1 c (LG store ν B)) (LG store ν B) r c' else LG store ν B r c')
    (hfr : ∀ l, ¬ B.Owns l → ¬ work.Owns l → ν1 l = ν l)
    (htail : MState B ν1 (fun r c' => if c' = c then
        (if r = P then 1 - cj store (ventry μ tau j) else if r0 ≤ r ∧ r < r1 then entry ν1 B r c * (-cj store (ventry μ tau j)) else 0)
        else entry ν1 B r c') ν') : UState dir store B tau work μ jnew ν' := by
  refine ⟨UInv.step hn hk hj hold hnew hp rfl h.inv (ungStep_of ?_ ?_ ?_ ?_ hlarf htail), fun l h1 h2 => ?_⟩
  · rw [hp.c]; unfold qcol; split <;> omega
  · rw [hp.c1]; split <;> omega
  · rw [hp.c, hp.c0, hp.c1]; unfold qcol; cases dir <;> simp
  · rw [hp.P, hp.r0, hp.r1]; unfold hpiv; cases dir <;> simp <;> omega
  · rw [htail.frame l h1, hfr l h1 h2, h.frame l h1 h2]

end TLA
