import Verif.Proofs.Larf
import Verif.Proofs.Lauum
import Mathlib.LinearAlgebra.Matrix.NonsingularInverse

/-! Algebra of the unblocked orthogonal factorizations, in the columnwise form. -/

set_option linter.unusedSectionVars false
set_option linter.unusedTactic false
set_option linter.unreachableTactic false

namespace TLA
open Finset
variable {L 𝕜 : Type} [DecidableEq L] [RCLike 𝕜] [DecidableEq 𝕜] {p : HhPar}

theorem sum_embed {T : Type} [AddCommMonoid T] {m r0 r1 : Nat} (h : r1 ≤ m) (f : Nat → T)
    (hf : ∀ s, s < m → s < r0 ∨ r1 ≤ s → f s = 0) :
    ∑ s ∈ range m, f s = ∑ s ∈ range (r1 - r0), f (r0 + s) := by
  rw [← Finset.sum_Ico_eq_sum_range]
  symm
  refine Finset.sum_subset (fun x hx => ?_) (fun x hx hx' => ?_)
  · rw [mem_Ico] at hx; rw [mem_range]; omega
  · rw [mem_range] at hx; rw [mem_Ico] at hx'; exact hf x hx (by omega)

theorem refl_conjTranspose (m : Nat) (t : 𝕜) (u : Nat → 𝕜) :
    (mat m m (reflF t u)).conjTranspose = mat m m (reflF (star t) u) := by
  rw [mat_conjTranspose, mat_ext_iff]
  intro i j _ _
  unfold reflF
  simp only [star_sub, star_mul', star_star, apply_ite star, star_one, star_zero]
  rw [show (if j = i then (1 : 𝕜) else 0) = if i = j then 1 else 0 from by
    by_cases h : i = j
    · subst h; simp
    · rw [if_neg h, if_neg (Ne.symm h)]]
  ring

theorem refl_unitary {m : Nat} {t : 𝕜} {u : Nat → 𝕜}
    (h : t * star t * (∑ i ∈ range m, u i * star (u i)) = t + star t) :
    (mat m m (reflF t u)).conjTranspose * mat m m (reflF t u) = 1 := by
  rw [refl_conjTranspose, ← mat_applyL, ← mat_idF, mat_ext_iff]
  intro i j hi hj
  unfold applyL reflF idF
  simp only [mul_sub, Finset.sum_sub_distrib, mul_ite, mul_one, mul_zero]
  rw [Finset.sum_ite_eq', if_pos (mem_range.2 hj)]
  have : ∑ s ∈ range m, star (u s) * (t * u s * star (u j)) = t * (∑ s ∈ range m, u s * star (u s)) * star (u j) := by
    rw [Finset.mul_sum, Finset.sum_mul]
    exact Finset.sum_congr rfl fun s _ => by ring
  rw [this]
  obtain ⟨S, hS⟩ : ∃ S, S = ∑ i ∈ range m, u i * star (u i) := ⟨_, rfl⟩
  rw [← hS] at h ⊢
  linear_combination (u i * star (u j)) * h

theorem refl_unitary' {m : Nat} {t : 𝕜} {u : Nat → 𝕜}
    (h : t * star t * (∑ i ∈ range m, u i * star (u i)) = t + star t) :
    mat m m (reflF t u) * (mat m m (reflF t u)).conjTranspose = 1 :=
  mul_eq_one_comm.1 (refl_unitary h)

/-- The reflector vector held in column `c`, rows `r0..r1`, pivot `P`. -/
def colU (P r0 r1 c : Nat) (G : Nat → Nat → 𝕜) : Nat → 𝕜 := fun r =>
  if r = P then 1 else if r0 ≤ r ∧ r < r1 then G r c else 0

/-- One step: the reflector annihilating column `c` outside `P` (rows `r0..r1`) is generated and
applied to columns `c0..c1`. -/
structure ColStep (m n P r0 r1 c c0 c1 : Nat) (t : 𝕜) (G G' : Nat → Nat → 𝕜) : Prop where
  same : ∀ r c', r < m → c' < n → ¬ ((r0 ≤ r ∧ r < r1) ∧ (c' = c ∨ (c0 ≤ c' ∧ c' < c1))) → G' r c' = G r c'
  unit : t * star t * (∑ r ∈ range m, colU P r0 r1 c G' r * star (colU P r0 r1 c G' r)) = t + star t
  ann : ∀ r, r < m → G r c - star t * colU P r0 r1 c G' r *
      (∑ s ∈ range m, star (colU P r0 r1 c G' s) * G s c)
    = if r = P then G' P c else if r0 ≤ r ∧ r < r1 then 0 else G r c
  real : star (G' P c) = G' P c
  rest : ∀ r c', r < m → c0 ≤ c' → c' < c1 → G' r c' = applyL m (star t) (colU P r0 r1 c G') G r c'

/-! ### The chain of steps -/

/-- The number of the reflector generated at step `s`. -/
def qidx (dir : Direction) (k s : Nat) : Nat := if dir = .Forward then s else k - 1 - s
/-- The column holding reflector `i`. -/
def qcol (dir : Direction) (n k i : Nat) : Nat := if dir = .Forward then i else n - k + i
/-- Entries known to be zero after `s` steps. -/
def qz (dir : Direction) (m n s r c : Nat) : Prop :=
  if dir = .Forward then c < s ∧ c < r else n ≤ c + s ∧ r + n < c + m

instance (dir : Direction) (m n s r c : Nat) : Decidable (qz dir m n s r c) := by
  unfold qz; infer_instance

/-- The triangular part after `s` steps. -/
def qR (dir : Direction) (m n s : Nat) (G : Nat → Nat → 𝕜) : Nat → Nat → 𝕜 := fun r c =>
  if qz dir m n s r c then 0 else G r c

theorem qR_of {dir : Direction} {m n s : Nat} {G : Nat → Nat → 𝕜} {r c : Nat} (h : qz dir m n s r c) :
    qR dir m n s G r c = 0 := if_pos h
theorem qR_not {dir : Direction} {m n s : Nat} {G : Nat → Nat → 𝕜} {r c : Nat} (h : ¬ qz dir m n s r c) :
    qR dir m n s G r c = G r c := if_neg h
theorem qz_fwd {m n s r c : Nat} : qz .Forward m n s r c ↔ c < s ∧ c < r := Iff.rfl
theorem qz_bwd {m n s r c : Nat} : qz .Backward m n s r c ↔ n ≤ c + s ∧ r + n < c + m := Iff.rfl

/-- Reflector `i` read from the state. -/
def qH (dir : Direction) (m n k : Nat) (G : Nat → Nat → 𝕜) (g : Nat → 𝕜) (i : Nat) : Matrix (Fin m) (Fin m) 𝕜 :=
  houseH dir .Columnwise m k (fun r i => G r (qcol dir n k i)) g i

structure QRInv (dir : Direction) (m n k : Nat) (A0 : Nat → Nat → 𝕜) (s : Nat) (G : Nat → Nat → 𝕜)
    (g : Nat → 𝕜) : Prop where
  prod : ((List.range s).map fun i => qH dir m n k G g (qidx dir k i)).prod * mat m n (qR dir m n s G) = mat m n A0
  unit : ∀ i, i < s → (qH dir m n k G g (qidx dir k i)).conjTranspose * qH dir m n k G g (qidx dir k i) = 1
  real : ∀ i, i < s → star (G (hpiv dir m k (qidx dir k i)) (qcol dir n k (qidx dir k i))) =
    G (hpiv dir m k (qidx dir k i)) (qcol dir n k (qidx dir k i))

theorem QRInv.start (dir : Direction) (m n k : Nat) (A0 : Nat → Nat → 𝕜) (g : Nat → 𝕜) :
    QRInv dir m n k A0 0 A0 g := by
  refine ⟨?_, fun i hi => by omega, fun i hi => by omega⟩
  simp only [List.range_zero, List.map_nil, List.prod_nil]
  rw [Matrix.one_mul, mat_ext_iff]
  intro i j hi hj
  refine qR_not ?_
  unfold qz
  split <;> omega

theorem QRInv.congr {dir : Direction} {m n k s : Nat} {A0 G G' : Nat → Nat → 𝕜} {g g' : Nat → 𝕜}
    (h : QRInv dir m n k A0 s G g) (hs : s ≤ k) (hm : k ≤ m) (hn : k ≤ n)
    (hG : ∀ r c, r < m → c < n → G' r c = G r c) (hg : ∀ i, i < k → g' i = g i) :
    QRInv dir m n k A0 s G' g' := by
  have hH : ∀ i, i < s → qH dir m n k G' g' (qidx dir k i) = qH dir m n k G g (qidx dir k i) := by
    intro i hi
    unfold qH houseH
    rw [mat_ext_iff]
    intro r c hr hc
    have hq : qidx dir k i < k := by unfold qidx; split <;> omega
    have hqc : qcol dir n k (qidx dir k i) < n := by unfold qcol; split <;> omega
    unfold reflF
    rw [hg _ hq]
    have : ∀ r, r < m → houseVec dir .Columnwise m k (fun r i => G' r (qcol dir n k i)) (qidx dir k i) r =
        houseVec dir .Columnwise m k (fun r i => G r (qcol dir n k i)) (qidx dir k i) r := by
      intro r hr
      unfold houseVec
      simp only [hG r _ hr hqc]
    rw [this r hr, this c hc]
  refine ⟨?_, fun i hi => by rw [hH i hi]; exact h.unit i hi, fun i hi => ?_⟩
  · rw [← h.prod]
    congr 1
    · congr 1
      refine List.map_congr_left fun i hi => hH i (List.mem_range.1 hi)
    · rw [mat_ext_iff]
      intro r c hr hc
      unfold qR
      rw [hG r c hr hc]
  · have hq : qidx dir k i < k := by unfold qidx; split <;> omega
    have hqc : qcol dir n k (qidx dir k i) < n := by unfold qcol; split <;> omega
    have hqr : hpiv dir m k (qidx dir k i) < m := by unfold hpiv; split <;> omega
    rw [hG _ _ hqr hqc]
    exact h.real i hi

theorem conj_prod_unitary {ι : Type} {m : Nat} (l : List ι) (H : ι → Matrix (Fin m) (Fin m) 𝕜)
    (h : ∀ i ∈ l, (H i).conjTranspose * H i = 1) :
    ((l.map H).prod).conjTranspose * (l.map H).prod = 1 := by
  induction l with
  | nil => simp
  | cons a l ih =>
    simp only [List.map_cons, List.prod_cons, Matrix.conjTranspose_mul]
    rw [Matrix.mul_assoc, ← Matrix.mul_assoc (H a).conjTranspose, h a (by simp), Matrix.one_mul]
    exact ih fun i hi => h i (by simp [hi])

/-- The step of the chain. -/
theorem QRInv.step {dir : Direction} {m n k s : Nat} {A0 G G' : Nat → Nat → 𝕜} {g : Nat → 𝕜} {t : 𝕜}
    (h : QRInv dir m n k A0 s G g) (hs : s < k) (hm : k ≤ m) (hn : k ≤ n)
    (hc : ColStep m n (if dir = .Forward then s else m - 1 - s) (if dir = .Forward then s else 0)
      (if dir = .Forward then m else m - s) (if dir = .Forward then s else n - 1 - s)
      (if dir = .Forward then s + 1 else 0) (if dir = .Forward then n else n - 1 - s) t G G') :
    QRInv dir m n k A0 (s + 1) G' (Function.update g (qidx dir k s) t) := by
  -- the reflector of this step
  have hU : ∀ r, r < m → houseVec dir .Columnwise m k (fun r i => G' r (qcol dir n k i)) (qidx dir k s) r =
      colU (if dir = .Forward then s else m - 1 - s) (if dir = .Forward then s else 0)
      (if dir = .Forward then m else m - s) (if dir = .Forward then s else n - 1 - s) G' r := by
    intro r hr
    unfold houseVec colU hpiv qidx qcol
    cases dir with
    | Forward =>
      simp only [if_true]
      by_cases h1 : r = s
      · rw [if_pos h1, if_pos h1]
      · rw [if_neg h1, if_neg h1]
        by_cases h2 : r < s
        · rw [if_pos h2, if_neg (by omega)]
        · rw [if_neg h2, if_pos (by omega)]
    | Backward =>
      simp only [reduceCtorEq, if_false]
      rw [show m - k + (k - 1 - s) = m - 1 - s by omega, show n - k + (k - 1 - s) = n - 1 - s by omega]
      by_cases h1 : r = m - 1 - s
      · rw [if_pos h1, if_pos h1]
      · rw [if_neg h1, if_neg h1]
        by_cases h2 : m - 1 - s < r
        · rw [if_pos h2, if_neg (by omega)]
        · rw [if_neg h2, if_pos (by omega)]
  have hnew : qH dir m n k G' (Function.update g (qidx dir k s) t) (qidx dir k s) = mat m m (reflF t
      (colU (if dir = .Forward then s else m - 1 - s) (if dir = .Forward then s else 0)
      (if dir = .Forward then m else m - s) (if dir = .Forward then s else n - 1 - s) G')) := by
    unfold qH houseH
    rw [Function.update_self, mat_ext_iff]
    intro r c hr hc
    unfold reflF
    rw [hU r hr, hU c hc]
  have hold : ∀ i, i < s → qH dir m n k G' (Function.update g (qidx dir k s) t) (qidx dir k i) =
      qH dir m n k G g (qidx dir k i) := by
    intro i hi
    unfold qH houseH
    rw [Function.update_of_ne (by unfold qidx; split <;> omega), mat_ext_iff]
    intro r c hr hcc
    unfold reflF
    have : ∀ r, r < m → houseVec dir .Columnwise m k (fun r i => G' r (qcol dir n k i)) (qidx dir k i) r =
        houseVec dir .Columnwise m k (fun r i => G r (qcol dir n k i)) (qidx dir k i) r := by
      intro r hr
      unfold houseVec
      have : G' r (qcol dir n k (qidx dir k i)) = G r (qcol dir n k (qidx dir k i)) := by
        refine hc.same _ _ hr ?_ ?_
        · unfold qcol qidx; split <;> omega
        · unfold qcol qidx; cases dir <;> simp <;> omega
      simp only [this]
    rw [this r hr, this c hcc]
  have hR : mat m n (qR dir m n (s + 1) G') = (qH dir m n k G' (Function.update g (qidx dir k s) t) (qidx dir k s)).conjTranspose
      * mat m n (qR dir m n s G) := by
    rw [hnew, refl_conjTranspose, ← mat_applyL, mat_ext_iff]
    intro r c hr hcn
    have h1 := hc.same r c hr hcn
    have h2 := hc.ann r hr
    have h3 := hc.rest r c hr
    cases dir with
    | Forward =>
      simp only [if_true] at h1 h2 h3 ⊢
      rcases Nat.lt_trichotomy c s with hlt | rfl | hgt
      · have e : ∀ q, star (colU s s m s G' q) * qR .Forward m n s G q c = 0 := by
          intro q
          by_cases hq : q < s
          · unfold colU
            rw [if_neg (by omega), if_neg (by omega), star_zero, zero_mul]
          · rw [qR_of (qz_fwd.2 (by omega)), mul_zero]
        unfold applyL
        rw [Finset.sum_eq_zero (fun q _ => e q), mul_zero, sub_zero]
        by_cases h4 : c < r
        · rw [qR_of (qz_fwd.2 (by omega)), qR_of (qz_fwd.2 (by omega))]
        · rw [qR_not (fun h => by rw [qz_fwd] at h; omega), qR_not (fun h => by rw [qz_fwd] at h; omega)]
          exact h1 (by omega)
      · have e : ∀ q, qR .Forward m n c G q c = G q c := by
          intro q
          exact qR_not (fun h => by rw [qz_fwd] at h; omega)
        unfold applyL
        simp only [e]
        rw [h2]
        by_cases h5 : r = c
        · rw [if_pos h5, qR_not (fun h => by rw [qz_fwd] at h; omega), h5]
        · rw [if_neg h5]
          by_cases h6 : c < r
          · rw [if_pos (by omega), qR_of (qz_fwd.2 (by omega))]
          · rw [if_neg (by omega), qR_not (fun h => by rw [qz_fwd] at h; omega)]
            exact h1 (by omega)
      · have e : ∀ q, qR .Forward m n s G q c = G q c := by
          intro q
          exact qR_not (fun h => by rw [qz_fwd] at h; omega)
        unfold applyL at h3 ⊢
        simp only [e]
        rw [← h3 (by omega) hcn]
        exact qR_not (fun h => by rw [qz_fwd] at h; omega)
    | Backward =>
      simp only [reduceCtorEq, if_false] at h1 h2 h3 ⊢
      rcases Nat.lt_trichotomy (n - 1 - s) c with hlt | heq | hgt
      · have e : ∀ q, star (colU (m - 1 - s) 0 (m - s) (n - 1 - s) G' q) * qR .Backward m n s G q c = 0 := by
          intro q
          by_cases hq : m - 1 - s < q
          · unfold colU
            rw [if_neg (by omega), if_neg (by omega), star_zero, zero_mul]
          · rw [qR_of (qz_bwd.2 (by omega)), mul_zero]
        unfold applyL
        rw [Finset.sum_eq_zero (fun q _ => e q), mul_zero, sub_zero]
        by_cases h4 : r + n < c + m
        · rw [qR_of (qz_bwd.2 (by omega)), qR_of (qz_bwd.2 (by omega))]
        · rw [qR_not (fun h => by rw [qz_bwd] at h; omega), qR_not (fun h => by rw [qz_bwd] at h; omega)]
          exact h1 (by omega)
      · have e : ∀ q, qR .Backward m n s G q c = G q c := by
          intro q
          exact qR_not (fun h => by rw [qz_bwd] at h; omega)
        unfold applyL
        simp only [e]
        rw [heq] at h2 ⊢
        rw [h2]
        by_cases h5 : r = m - 1 - s
        · rw [if_pos h5, qR_not (fun h => by rw [qz_bwd] at h; omega), h5]
        · rw [if_neg h5]
          by_cases h6 : r + n < c + m
          · rw [if_pos (by omega), qR_of (qz_bwd.2 (by omega))]
          · rw [if_neg (by omega), qR_not (fun h => by rw [qz_bwd] at h; omega)]
            exact h1 (by omega)
      · have e : ∀ q, qR .Backward m n s G q c = G q c := by
          intro q
          exact qR_not (fun h => by rw [qz_bwd] at h; omega)
        unfold applyL at h3 ⊢
        simp only [e]
        rw [← h3 (by omega) (by omega)]
        exact qR_not (fun h => by rw [qz_bwd] at h; omega)
  have hunit : (qH dir m n k G' (Function.update g (qidx dir k s) t) (qidx dir k s)).conjTranspose *
      qH dir m n k G' (Function.update g (qidx dir k s) t) (qidx dir k s) = 1 := by
    rw [hnew]; exact refl_unitary hc.unit
  refine ⟨?_, fun i hi => ?_, fun i hi => ?_⟩
  · rw [List.range_succ, List.map_append, List.prod_append]
    simp only [List.map_cons, List.map_nil, List.prod_singleton]
    rw [hR, Matrix.mul_assoc, ← Matrix.mul_assoc _ _ (mat m n (qR dir m n s G)), mul_eq_one_comm.1 hunit,
      Matrix.one_mul, ← h.prod]
    congr 2
    exact List.map_congr_left fun i hi => hold i (List.mem_range.1 hi)
  · by_cases e : i = s
    · subst e; exact hunit
    · rw [hold i (by omega)]
      exact h.unit i (by omega)
  · by_cases e : i = s
    · subst e
      have := hc.real
      unfold hpiv qcol qidx
      cases dir with
      | Forward => simpa using this
      | Backward =>
        simp only [reduceCtorEq, if_false] at this ⊢
        rw [show m - k + (k - 1 - i) = m - 1 - i by omega, show n - k + (k - 1 - i) = n - 1 - i by omega]
        exact this
    · have : G' (hpiv dir m k (qidx dir k i)) (qcol dir n k (qidx dir k i)) =
          G (hpiv dir m k (qidx dir k i)) (qcol dir n k (qidx dir k i)) := by
        refine hc.same _ _ ?_ ?_ ?_
        · unfold hpiv qidx; split <;> omega
        · unfold qcol qidx; split <;> omega
        · unfold qcol hpiv qidx; cases dir <;> simp <;> omega
      rw [this]
      exact h.real i (by omega)

/-- Columns keep their 2-norm. -/
theorem QRInv.norm {dir : Direction} {m n k s : Nat} {A0 G : Nat → Nat → 𝕜} {g : Nat → 𝕜}
    (h : QRInv dir m n k A0 s G g) {c : Nat} (hc : c < n) :
    ∑ r ∈ range m, ‖qR dir m n s G r c‖ ^ 2 = ∑ r ∈ range m, ‖A0 r c‖ ^ 2 := by
  have hu := conj_prod_unitary (List.range s) (fun i => qH dir m n k G g (qidx dir k i))
    (fun i hi => h.unit i (List.mem_range.1 hi))
  have e : (mat m n A0).conjTranspose * mat m n A0 =
      (mat m n (qR dir m n s G)).conjTranspose * mat m n (qR dir m n s G) := by
    rw [← h.prod, Matrix.conjTranspose_mul, Matrix.mul_assoc, ← Matrix.mul_assoc _ _ (mat m n (qR dir m n s G)), hu,
      Matrix.one_mul]
  rw [← mat_starT, ← mat_starT, mat_mul, mat_mul, mat_ext_iff] at e
  have e1 := e c c hc hc
  have conv : ∀ F : Nat → Nat → 𝕜, ∑ l ∈ range m, starT F c l * F l c = ((∑ r ∈ range m, ‖F r c‖ ^ 2 : ℝ) : 𝕜) := by
    intro F
    push_cast
    refine Finset.sum_congr rfl fun r _ => ?_
    show star (F r c) * F r c = _
    rw [show star (F r c) = (starRingEnd 𝕜) (F r c) from rfl, RCLike.conj_mul]
  rw [conv, conv] at e1
  exact (RCLike.ofReal_inj.1 e1).symm

theorem QRInv.bound {dir : Direction} {m n k s : Nat} {A0 G : Nat → Nat → 𝕜} {g : Nat → 𝕜}
    (h : QRInv dir m n k A0 s G g) {c : Nat} (hc : c < n) {B : ℝ} (hB : 0 ≤ B)
    (hb : ∑ r ∈ range m, ‖A0 r c‖ ^ 2 ≤ B ^ 2) {r : Nat} (hr : r < m) (hz : ¬ qz dir m n s r c) :
    ‖G r c‖ ≤ B := by
  have e : qR dir m n s G r c = G r c := qR_not hz
  rw [← e]
  refine abs_le_of_sq_le_sq' ?_ hB |>.2
  refine le_trans ?_ ((h.norm hc).le.trans hb)
  exact Finset.single_le_sum (f := fun r => ‖qR dir m n s G r c‖ ^ 2) (fun _ _ => by positivity) (mem_range.2 hr)

end TLA
