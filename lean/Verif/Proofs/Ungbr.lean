import Verif.Model.Ungbr
import Verif.Props.BlockRefl
import Verif.Proofs.Unghr
set_option linter.unusedSectionVars false
set_option linter.unusedTactic false
set_option linter.unreachableTactic false
set_option linter.unusedVariables false

/-! # ungbr -/

namespace TLA
open Finset Matrix
variable {L 𝕜 : Type} [DecidableEq L] [RCLike 𝕜] [DecidableEq 𝕜]

/-- The blocked ungq on a square matrix with a full set of reflectors. -/
theorem wp_ungq_sq (isReal : Bool) (hreal : isReal = true → ∀ z : 𝕜, star z = z) (store : StoreV) {A : MatV L}
    {tau work : VecV L} {nb0 q : Nat} (hm : A.m = q) (hn : A.n = q) (hk : tau.n = q)
    (ok : UngqBlkOK nb0 .Forward store A tau work) {μ : Store L 𝕜} :
    wp (ungqBlk isReal nb0 .Forward store A tau work) μ (fun r ν => r = 0 ∧
      mat q q (entry ν A) = houseQ .Forward store q q (entry μ A) (ventry μ tau) ∧
      ∀ l, ¬ A.Owns l → ¬ work.Owns l → ν l = μ l) := by
  have hid : mat q q (eyeF (T := 𝕜) .Forward q q) = 1 := by
    rw [← mat_idF, mat_ext_iff]
    intro i j _ _
    unfold eyeF idF
    by_cases e : i = j
    · rw [if_pos e, if_pos (by simp; omega)]
    · rw [if_neg e, if_neg (by simp; omega)]
  cases store with
  | Columnwise =>
    obtain ⟨ν, e, h1, h2⟩ := C47_ungq_columnwise isReal nb0 .Forward A tau work hreal ok μ
    refine wp_of_eq e ⟨rfl, ?_, h2⟩
    have : ∀ a b c, A.m = a → A.n = b → tau.n = c → mat a b (entry ν A) = houseQ .Forward .Columnwise a c (entry μ A) (ventry μ tau) * mat a b (eyeF .Forward a b) := by
      rintro _ _ _ rfl rfl rfl
      simpa using h1
    rw [this q q q hm hn hk, hid, Matrix.mul_one]
  | Rowwise =>
    obtain ⟨ν, e, h1, h2⟩ := C47_ungq_rowwise isReal nb0 .Forward A tau work hreal ok μ
    refine wp_of_eq e ⟨rfl, ?_, h2⟩
    have : ∀ a b c, A.m = a → A.n = b → tau.n = c → mat a b (entry ν A) = (mat b a (eyeF .Forward b a)).transpose *
        houseQ .Forward .Rowwise b c (entry μ A) (ventry μ tau) := by
      rintro _ _ _ rfl rfl rfl
      simpa using h1
    rw [this q q q hm hn hk, hid, transpose_one, Matrix.one_mul]

/-- The position of the entry of reflector `i` at coordinate `r`. -/
def hpos (store : StoreV) (V : Nat → Nat → 𝕜) (r i : Nat) : 𝕜 := match store with
  | .Columnwise => V r i
  | .Rowwise => V i r

theorem houseQ_fcongr {store : StoreV} {q k : Nat} {V W : Nat → Nat → 𝕜} {t s : Nat → 𝕜}
    (hV : ∀ r i, i < k → i < r → r < q → hpos store V r i = hpos store W r i) (ht : ∀ i, i < k → t i = s i) :
    houseQ .Forward store q k V t = houseQ .Forward store q k W s := by
  have hH : ∀ i, i < k → houseH .Forward store q k V t i = houseH .Forward store q k W s i := by
    intro i hi
    unfold houseH
    have hv : ∀ r, r < q → houseVec .Forward store q k V i r = houseVec .Forward store q k W i r := by
      intro r hr
      unfold houseVec hpiv
      simp only [if_true]
      by_cases e : r = i
      · rw [if_pos e, if_pos e]
      · rw [if_neg e, if_neg e]
        by_cases e2 : r < i
        · rw [if_pos e2, if_pos e2]
        · rw [if_neg e2, if_neg e2]
          have := hV r i hi (by omega) hr
          cases store with
          | Columnwise => exact this
          | Rowwise => exact congrArg star this
    rw [mat_ext_iff, ht i hi]
    intro r c hr hc
    unfold reflF
    rw [hv r hr, hv c hc]
  cases store with
  | Columnwise =>
    unfold houseQ
    simp only []
    congr 1
    refine List.map_congr_left fun i hi => hH i (List.mem_range.1 hi)
  | Rowwise =>
    unfold houseQ
    simp only []
    congr 1
    refine List.map_congr_left fun i hi => ?_
    rw [hH i (List.mem_range.1 (List.mem_reverse.1 hi))]

/-- The factor of gebd2 that comes from columns, embedded. -/
theorem reflCol_emb {m k off : Nat} (hm : off + k ≤ m) (V : Nat → Nat → 𝕜) (t : Nat → 𝕜) :
    reflProd m 0 k t (reflCol off m V) = emb m off (houseQ .Forward .Columnwise (m - off) k (fun r i => V (off + r) i) t) := by
  unfold reflProd houseQ
  simp only []
  rw [emb_list (by omega)]
  congr 1
  refine List.map_congr_left fun i hi => ?_
  rw [List.mem_range] at hi
  unfold houseH
  rw [Nat.zero_add]
  refine emb_refl _ _ _ (fun r hr hr' => ?_) (fun r hr hr' => ?_)
  · unfold reflCol houseVec hpiv
    simp only [if_true]
    by_cases e : r = i
    · rw [if_pos (by omega), if_pos e]
    · rw [if_neg (by omega), if_neg e]
      by_cases e2 : r < i
      · rw [if_neg (by omega), if_pos e2]
      · rw [if_pos (by omega), if_neg e2]
  · unfold reflCol
    rw [if_neg (by omega), if_neg (by omega)]

/-- The factor of gebd2 that comes from rows, embedded. -/
theorem reflRow_emb {m k off : Nat} (hm : off + k ≤ m) (V : Nat → Nat → 𝕜) (t : Nat → 𝕜) :
    (reflProd m 0 k t (reflRow off m V))ᴴ = emb m off (houseQ .Forward .Rowwise (m - off) k (fun i c => V i (off + c)) t) := by
  unfold reflProd houseQ
  simp only []
  rw [emb_list (by omega), conjTranspose_list_prod, List.map_map, ← List.map_reverse]
  congr 1
  refine List.map_congr_left fun i hi => ?_
  rw [List.mem_reverse, List.mem_range] at hi
  rw [emb_conjTranspose]
  show (mat m m _)ᴴ = _
  congr 1
  unfold houseH
  rw [Nat.zero_add]
  refine emb_refl _ _ _ (fun r hr hr' => ?_) (fun r hr hr' => ?_)
  · unfold reflRow houseVec hpiv
    simp only [if_true]
    by_cases e : r = i
    · rw [if_pos (by omega), if_pos e]
    · rw [if_neg (by omega), if_neg e]
      by_cases e2 : r < i
      · rw [if_neg (by omega), if_pos e2]
      · rw [if_pos (by omega), if_neg e2]
  · unfold reflRow
    rw [if_neg (by omega), if_neg (by omega)]

theorem emb_zero {m : Nat} (M : Matrix (Fin m) (Fin m) 𝕜) : emb m 0 M = M := by
  unfold emb
  ext i j
  simp [mat, toF, i.2, j.2]

/-- The trailing call of ungbr. -/
theorem wp_ungbrTail (isReal : Bool) (hreal : isReal = true → ∀ z : 𝕜, star z = z) (nb : Nat) (hnb : 0 < nb) (store : StoreV) {m : Nat} {A : MatV L} {tau work : VecV L}
    (ok : QrOK A tau work) (hm : m ≤ A.m) (hn : m ≤ A.n) (h0 : 0 < m) (ht : m ≤ tau.n + 1)
    (hw : (ungqBlkWorksize .Forward store (A.sub 0 (m - 1) 0 (m - 1)) (m - 1) nb).size ≤ work.n) {μ ν : Store L 𝕜} {F : Nat → Nat → 𝕜}
    (h : MState A μ F ν) (hF0 : ∀ i, i < m → F i 0 = if i = 0 then 1 else 0) (hF1 : ∀ j, 0 < j → j < m → F 0 j = 0) :
    wp (ungbrTail isReal nb store m A tau work) ν (fun r ν' => r = 0 ∧
      mat m m (entry ν' A) = emb m 1 (houseQ .Forward store (m - 1) (m - 1) (fun r c => F (1 + r) (1 + c)) (ventry μ tau)) ∧
      ∀ l, ¬ A.Owns l → ¬ work.Owns l → ν' l = μ l) := by
  unfold ungbrTail
  have out : ∀ {ν'}, (∀ r c, r < m → c < m → r = 0 ∨ c = 0 → entry ν' A r c = F r c) → ∀ M : Matrix (Fin (m - 1)) (Fin (m - 1)) 𝕜,
      (∀ r c, r < m - 1 → c < m - 1 → entry ν' A (1 + r) (1 + c) = toF M r c) → mat m m (entry ν' A) = emb m 1 M := by
    intro ν' g1 M g2
    unfold emb
    rw [mat_ext_iff]
    intro r c hr hc
    by_cases b : (1 ≤ r ∧ r < 1 + (m - 1)) ∧ 1 ≤ c ∧ c < 1 + (m - 1)
    · rw [if_pos b, ← g2 _ _ (by omega) (by omega), show 1 + (r - 1) = r by omega, show 1 + (c - 1) = c by omega]
    · rw [if_neg b, g1 r c hr hc (by omega)]
      by_cases hc0 : c = 0
      · subst hc0; rw [hF0 r hr]
      · have : r = 0 := by omega
        subst this
        rw [hF1 c (by omega) hc, if_neg (by omega)]
  by_cases hq : m > 1
  · rw [if_pos hq]
    simp only [wp_bind]
    refine wp_slice (by omega) (by omega) (by omega) (by omega) ?_
    refine wp_vslice (by omega) (by omega) ?_
    have hw' : (ungqBlkWorksize .Forward store (A.sub 1 m 1 m) (m - 1) nb).size ≤ work.n := by
      have : ungqBlkWorksize .Forward store (A.sub 1 m 1 m) (m - 1) nb = ungqBlkWorksize .Forward store (A.sub 0 (m - 1) 0 (m - 1)) (m - 1) nb := by
        cases store <;> simp [ungqBlkWorksize, ungqWorksize, MatV.sub]
      rw [this]; exact hw
    refine wp_conseq (wp_ungq_sq isReal hreal store (q := m - 1) (by simp [MatV.sub]) (by simp [MatV.sub])
      (by simp [VecV.sub]) ⟨⟨ok.inj.sub (by omega) (by omega), ok.tinj.sub (by omega), ok.winj, ?_, ?_, ?_⟩,
        by simp [MatV.sub, VecV.sub], hnb, Or.inl (by simp [VecV.sub]; omega), fun _ _ => by simpa [VecV.sub] using hw'⟩) ?_
    · rintro i j hi hj ⟨k, hk, e⟩
      simp only [MatV.sub, VecV.sub] at hi hj hk e
      exact ok.At _ _ (by omega) (by omega) ⟨_, (by omega), e⟩
    · rintro i j hi hj ho
      simp only [MatV.sub] at hi hj ho
      exact ok.Aw _ _ (by omega) (by omega) ho
    · rintro i hi ho
      simp only [VecV.sub] at hi ho
      exact ok.tw _ (by omega) ho
    rintro r ν4 ⟨-, hQ, h4⟩
    refine ⟨rfl, ?_, fun l hA hW => ?_⟩
    · refine out (fun r c hr hc hrc => ?_) _ (fun r c hr hc => ?_)
      · refine (h4 _ ?_ (ok.Aw r c (by omega) (by omega))).trans (h.val r c (by omega) (by omega))
        rintro ⟨i, j, hi, hj, e⟩
        simp only [MatV.sub] at hi hj e
        have := ok.inj _ _ _ _ (by omega) (by omega) (by omega) (by omega) e
        omega
      · rw [← houseQ_fcongr (store := store) (V := entry ν (A.sub 1 m 1 m)) (t := ventry ν (tau.sub 0 (m - 1))), ← hQ]
        · rw [toF_mat _ hr hc]; rfl
        · intro r i hi hri hr
          cases store with
          | Columnwise => exact h.val (1 + r) (1 + i) (by omega) (by omega)
          | Rowwise => exact h.val (1 + i) (1 + r) (by omega) (by omega)
        · intro i hi
          show ν (tau.cell (0 + i)) = _
          rw [Nat.zero_add]
          refine h.frame _ ?_
          rintro ⟨r, c, hr, hc, e⟩
          exact ok.At r c hr hc ⟨i, by omega, e.symm⟩
    · rw [h4 l ?_ hW, h.frame l hA]
      rintro ⟨i, j, hi, hj, e⟩
      simp only [MatV.sub] at hi hj e
      exact hA ⟨1 + i, 1 + j, by omega, by omega, e⟩
  · rw [if_neg hq]
    refine ⟨rfl, out (fun r c hr hc _ => h.val r c (by omega) (by omega)) _ (fun r c hr _ => absurd hr (by omega)), fun l hA _ => h.frame l hA⟩

/-! ### The data movement -/

theorem wp_ungbrQShift {A : MatV L} (hA : A.Inj) {j : Nat} (hj : 0 < j) (hj1 : j < A.m) (hn : A.m ≤ A.n)
    {μ0 ν : Store L 𝕜} {G : Nat → Nat → 𝕜} (h : MState A μ0 G ν) :
    wp (ungbrQShift A j) ν (fun _ ν' => MState A μ0 (fun r c => if c = j then (if r = 0 then 0 else if j < r then G r (j - 1) else G r j) else G r c) ν') := by
  unfold ungbrQShift
  simp only [wp_bind]
  rw [wp_set]
  refine ⟨⟨by omega, by omega⟩, ?_⟩
  have h1 : MState A μ0 (fun r c => if r = 0 ∧ c = j then 0 else G r c) (upd ν (A.cell 0 j) 0) :=
    h.upd hA (by omega) (by omega) fun r c hr hc => by
      by_cases e : r = 0 ∧ c = j
      · simp [e]
      · simp [e]
  refine wp_conseq (wp_colLoop (j := j) (fun r => G r (j - 1)) h1 hA (by omega) le_rfl (by omega) ?_) ?_
  · intro i ν2 hi0 hi1 hν
    simp only [wp_bind]
    rw [wp_get]
    refine ⟨⟨by omega, by omega⟩, ?_⟩
    rw [wp_set]
    refine ⟨⟨by omega, by omega⟩, ?_⟩
    rw [hν.val i (j - 1) (by omega) (by omega), if_neg (by omega), if_neg (by omega)]
  intro _ ν3 h3
  refine h3.congr fun r c hr hc => ?_
  by_cases e : c = j
  · subst e
    rw [if_pos rfl]
    by_cases a : r = 0
    · rw [if_pos a, if_neg (by omega), if_pos ⟨a, rfl⟩]
    · rw [if_neg a]
      by_cases b : c < r
      · rw [if_pos b, if_pos (by omega)]
      · rw [if_neg b, if_neg (by omega), if_neg (by omega)]
  · rw [if_neg e, if_neg (by omega), if_neg (by omega)]

theorem wp_ungbrPShift {A : MatV L} (hA : A.Inj) {j : Nat} (hj : 0 < j) (hj1 : j < A.n) (hn : A.n ≤ A.m)
    {μ0 ν : Store L 𝕜} {G : Nat → Nat → 𝕜} (h : MState A μ0 G ν) :
    wp (ungbrPShift A j) ν (fun _ ν' => MState A μ0 (fun r c => if c = j then (if r = 0 then 0 else if r < j then G (r - 1) j else G r j) else G r c) ν') := by
  unfold ungbrPShift
  simp only [wp_bind]
  refine wp_conseq (wp_colLoopD (j := j) (fun r => G (r - 1) j) h hA (by omega) (by omega) (by omega) ?_) ?_
  · intro i ν2 hi0 hi1 hν
    simp only [wp_bind]
    rw [wp_get]
    refine ⟨⟨by omega, by omega⟩, ?_⟩
    rw [wp_set]
    refine ⟨⟨by omega, by omega⟩, ?_⟩
    rw [hν.val (i - 1) j (by omega) (by omega), if_neg (by omega)]
  intro _ ν3 h3
  rw [wp_set]
  refine ⟨⟨by omega, by omega⟩, ?_⟩
  refine h3.upd hA (by omega) (by omega) fun r c hr hc => ?_
  by_cases e : c = j
  · subst e
    rw [if_pos rfl]
    by_cases a : r = 0
    · rw [if_pos a, if_pos ⟨a, rfl⟩]
    · rw [if_neg a, if_neg (show ¬ (r = 0 ∧ c = c) by omega)]
      by_cases b : r < c
      · rw [if_pos b, if_pos (show c = c ∧ 1 ≤ r ∧ r < c by omega)]
      · rw [if_neg b, if_neg (show ¬ (c = c ∧ 1 ≤ r ∧ r < c) by omega)]
  · rw [if_neg e, if_neg (by omega), if_neg (by omega)]

/-- Column 0 becomes that of the identity. -/
theorem wp_ungbrUnit {A : MatV L} (hA : A.Inj) {m : Nat} (h0 : 0 < m) (hm : m ≤ A.m) (hn : 0 < A.n)
    {μ0 ν : Store L 𝕜} {G : Nat → Nat → 𝕜} (h : MState A μ0 G ν) {Q : Store L 𝕜 → Prop}
    (hQ : ∀ ν', MState A μ0 (fun r c => if c = 0 ∧ r < m then (if r = 0 then 1 else 0) else G r c) ν' → Q ν') :
    wp (A.set 0 0 (1 : 𝕜)) ν (fun _ ν1 => wp (forUp_ 1 m fun i => A.set i 0 0) ν1 fun _ ν' => Q ν') := by
  rw [wp_set]
  refine ⟨⟨by omega, by omega⟩, ?_⟩
  have h1 : MState A μ0 (fun r c => if r = 0 ∧ c = 0 then 1 else G r c) (upd ν (A.cell 0 0) 1) :=
    h.upd hA (by omega) (by omega) fun r c hr hc => by
      by_cases e : r = 0 ∧ c = 0
      · simp [e]
      · simp [e]
  refine wp_conseq (wp_colLoop (j := 0) (fun _ => 0) h1 hA (by omega) hm (by omega) ?_) fun _ ν' h' => hQ ν' ?_
  · intro i ν1 _ hi1 _
    rw [wp_set]
    exact ⟨⟨by omega, by omega⟩, rfl⟩
  · refine h'.congr fun r c hr hc => ?_
    by_cases e : c = 0 ∧ r < m
    · rw [if_pos e]
      by_cases a : r = 0
      · rw [if_pos a, if_neg (by omega), if_pos ⟨a, e.1⟩]
      · rw [if_neg a, if_pos (by omega)]
    · rw [if_neg e, if_neg (by omega), if_neg (by omega)]

theorem wp_ungbrQ_lt (isReal : Bool) (hreal : isReal = true → ∀ z : 𝕜, star z = z) (nb : Nat) (hnb : 0 < nb) {k : Nat} {A : MatV L} {tau work : VecV L}
    (ok : QrOK A tau work) (hk : A.m < k) (h0 : 0 < A.m) (hn : A.m ≤ A.n) (ht : A.m ≤ tau.n + 1)
    (hw : (ungbrQWorksize k A tau.n nb).size ≤ work.n) (μ : Store L 𝕜) :
    wp (ungbrQ isReal nb k A tau work) μ (fun r ν => r = 0 ∧
      mat A.m A.m (entry ν A) = reflProd A.m 0 (A.m - 1) (ventry μ tau) (reflCol 1 A.m (entry μ A)) ∧
      ∀ l, ¬ A.Owns l → ¬ work.Owns l → ν l = μ l) := by
  unfold ungbrQ
  unfold ungbrQWorksize at hw
  rw [if_neg (by omega)] at hw
  rw [if_neg (by omega), if_neg (by omega)]
  simp only [wp_bind]
  refine wp_forDown_ (fun k ν => MState A μ (fun r c => if k ≤ c ∧ c < A.m then
      (if r = 0 then 0 else if c < r then entry μ A r (c - 1) else entry μ A r c)
      else entry μ A r c) ν) (by omega) ?_ ?_ ?_
  · exact (MState.start A μ).congr fun r c _ _ => by rw [if_neg (by omega)]
  · intro j ν h0 h1 hν
    refine wp_conseq (wp_ungbrQShift ok.inj (by omega) h1 hn hν) ?_
    intro _ ν' h'
    refine h'.congr fun r c hr hc => ?_
    by_cases e : c = j
    · subst e
      rw [if_pos rfl, if_neg (show ¬ (c + 1 ≤ c - 1 ∧ c - 1 < A.m) by omega), if_neg (show ¬ (c + 1 ≤ c ∧ c < A.m) by omega), if_pos (by omega)]
    · rw [if_neg e]
      by_cases b : j ≤ c ∧ c < A.m
      · rw [if_pos b, if_pos (show j + 1 ≤ c ∧ c < A.m by omega)]
      · rw [if_neg b, if_neg (show ¬ (j + 1 ≤ c ∧ c < A.m) by omega)]
  intro ν1 h1
  refine wp_ungbrUnit ok.inj h0 le_rfl (by omega) h1 fun ν2 h2 => ?_
  refine wp_conseq (wp_ungbrTail isReal hreal nb hnb .Columnwise ok le_rfl hn h0 ht hw h2 ?_ ?_) ?_
  · intro i hi; rw [if_pos ⟨rfl, hi⟩]
  · intro j hj hj1
    rw [if_neg (by omega), if_pos ⟨by omega, hj1⟩, if_pos rfl]
  · rintro r ν ⟨e, hQ, hf⟩
    refine ⟨e, ?_, hf⟩
    rw [hQ, reflCol_emb (by omega)]
    congr 1
    refine houseQ_fcongr (fun r i hi hri hr => ?_) (fun _ _ => rfl)
    show (if 1 + i = 0 ∧ 1 + r < A.m then _ else _) = entry μ A (1 + r) i
    rw [if_neg (by omega), if_pos (by omega), if_neg (by omega), if_pos (by omega), show 1 + i - 1 = i by omega]

theorem wp_ungbrP_ge (isReal : Bool) (hreal : isReal = true → ∀ z : 𝕜, star z = z) (nb : Nat) (hnb : 0 < nb) {k : Nat} {A : MatV L} {tau work : VecV L}
    (ok : QrOK A tau work) (hk : A.n ≤ k) (h0 : 0 < A.n) (hn : A.n ≤ A.m) (ht : A.n ≤ tau.n + 1)
    (hw : (ungbrPWorksize k A tau.n nb).size ≤ work.n) (μ : Store L 𝕜) :
    wp (ungbrP isReal nb k A tau work) μ (fun r ν => r = 0 ∧
      mat A.n A.n (entry ν A) = (reflProd A.n 0 (A.n - 1) (ventry μ tau) (reflRow 1 A.n (entry μ A)))ᴴ ∧
      ∀ l, ¬ A.Owns l → ¬ work.Owns l → ν l = μ l) := by
  unfold ungbrP
  unfold ungbrPWorksize at hw
  rw [if_pos (by omega)] at hw
  rw [if_neg (by omega)]
  simp only [wp_bind]
  refine wp_ungbrUnit ok.inj h0 hn (by omega) (MState.start A μ) fun ν1 h1 => ?_
  refine wp_forUp_ (fun k ν => MState A μ (fun r c => if c = 0 ∧ r < A.n then (if r = 0 then 1 else 0) else if 0 < c ∧ c < k then
      (if r = 0 then 0 else if r < c then entry μ A (r - 1) c else entry μ A r c)
      else entry μ A r c) ν) (by omega) ?_ ?_ ?_
  · exact h1.congr fun r c _ _ => by
      rw [if_neg (show ¬ (0 < c ∧ c < 1) by omega)]
  · intro j ν h0 h1 hν
    refine wp_conseq (wp_ungbrPShift ok.inj (by omega) h1 hn hν) ?_
    intro _ ν' h'
    refine h'.congr fun r c hr hc => ?_
    by_cases e : c = j
    · subst e
      rw [if_pos rfl, if_neg (show ¬ (c = 0 ∧ r - 1 < A.n) by omega), if_neg (show ¬ (0 < c ∧ c < c) by omega),
        if_neg (show ¬ (c = 0 ∧ r < A.n) by omega), if_neg (show ¬ (0 < c ∧ c < c) by omega), if_neg (show ¬ (c = 0 ∧ r < A.n) by omega),
        if_pos (by omega)]
    · rw [if_neg e]
      by_cases b : 0 < c ∧ c < j
      · rw [if_pos b, if_pos (show 0 < c ∧ c < j + 1 by omega)]
      · rw [if_neg b, if_neg (show ¬ (0 < c ∧ c < j + 1) by omega)]
  intro ν2 h2
  refine wp_conseq (wp_ungbrTail isReal hreal nb hnb .Rowwise ok hn le_rfl h0 ht hw h2 ?_ ?_) ?_
  · intro i hi; rw [if_pos ⟨rfl, hi⟩]
  · intro j hj hj1
    rw [if_neg (by omega), if_pos ⟨by omega, hj1⟩, if_pos rfl]
  · rintro r ν ⟨e, hQ, hf⟩
    refine ⟨e, ?_, hf⟩
    rw [hQ, reflRow_emb (by omega)]
    congr 1
    refine houseQ_fcongr (fun r i hi hri hr => ?_) (fun _ _ => rfl)
    show (if 1 + r = 0 ∧ 1 + i < A.n then _ else _) = entry μ A i (1 + r)
    rw [if_neg (by omega), if_pos (by omega), if_neg (by omega), if_pos (by omega), show 1 + i - 1 = i by omega]

end TLA
