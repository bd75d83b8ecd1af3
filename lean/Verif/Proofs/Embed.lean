import Verif.Proofs.QrRoutines
import Verif.Proofs.BlkAlg
set_option linter.unusedTactic false
set_option linter.unusedVariables false
set_option linter.unreachableTactic false
set_option linter.unusedSectionVars false

/-! # Square matrices acting on a range of rows only -/

namespace TLA
open Finset
variable {𝕜 : Type} [RCLike 𝕜]

/-- The entries of a matrix as a function. -/
def toF {a b : Nat} (M : Matrix (Fin a) (Fin b) 𝕜) : Nat → Nat → 𝕜 := fun r c =>
  if h : r < a ∧ c < b then M ⟨r, h.1⟩ ⟨c, h.2⟩ else 0

theorem mat_toF {a b : Nat} (M : Matrix (Fin a) (Fin b) 𝕜) : mat a b (toF M) = M := by
  ext i j
  simp [mat, toF, i.2, j.2]

theorem toF_mat {a b : Nat} (F : Nat → Nat → 𝕜) {r c : Nat} (hr : r < a) (hc : c < b) : toF (mat a b F) r c = F r c := by
  simp [toF, mat, hr, hc]

theorem toF_mul {a b d : Nat} (M : Matrix (Fin a) (Fin b) 𝕜) (N : Matrix (Fin b) (Fin d) 𝕜) {r c : Nat} (hr : r < a) (hc : c < d) :
    toF (M * N) r c = ∑ s ∈ range b, toF M r s * toF N s c := by
  conv_lhs => rw [← mat_toF M, ← mat_toF N, mat_mul]
  exact toF_mat _ hr hc

/-- `M` on the rows `r0..r0+q`, the identity elsewhere. -/
def emb (m r0 : Nat) {q : Nat} (M : Matrix (Fin q) (Fin q) 𝕜) : Matrix (Fin m) (Fin m) 𝕜 :=
  mat m m fun r c => if (r0 ≤ r ∧ r < r0 + q) ∧ r0 ≤ c ∧ c < r0 + q then toF M (r - r0) (c - r0) else if r = c then 1 else 0

/-- The action on a matrix. -/
theorem emb_mul_mat {m n r0 q : Nat} (hq : r0 + q ≤ m) (M : Matrix (Fin q) (Fin q) 𝕜) (X : Nat → Nat → 𝕜) :
    emb m r0 M * mat m n X = mat m n fun r c => if r0 ≤ r ∧ r < r0 + q then ∑ s ∈ range q, toF M (r - r0) s * X (r0 + s) c
      else X r c := by
  unfold emb
  rw [mat_mul, mat_ext_iff]
  intro r c hr hc
  by_cases h : r0 ≤ r ∧ r < r0 + q
  · rw [if_pos h]
    rw [sum_embed (m := m) (r0 := r0) (r1 := r0 + q) hq]
    · rw [show r0 + q - r0 = q by omega]
      refine Finset.sum_congr rfl fun s hs => ?_
      rw [mem_range] at hs
      rw [if_pos ⟨h, by omega, by omega⟩, show r0 + s - r0 = s by omega]
    · intro s hs h'
      rw [if_neg (by omega), if_neg (by omega), zero_mul]
  · rw [if_neg h, Finset.sum_eq_single r]
    · rw [if_neg (by tauto), if_pos rfl, one_mul]
    · intro s hs hne
      rw [if_neg (by tauto), if_neg (by omega), zero_mul]
    · intro h'; exact absurd (mem_range.2 hr) h'

theorem emb_one {m r0 q : Nat} : emb m r0 (1 : Matrix (Fin q) (Fin q) 𝕜) = 1 := by
  rw [← mat_idF, ← mat_idF]
  unfold emb
  rw [mat_ext_iff]
  intro r c hr hc
  unfold idF
  by_cases h : (r0 ≤ r ∧ r < r0 + q) ∧ r0 ≤ c ∧ c < r0 + q
  · rw [if_pos h, toF_mat _ (by omega) (by omega)]
    by_cases e : r = c
    · rw [if_pos e, if_pos (by omega)]
    · rw [if_neg e, if_neg (by omega)]
  · rw [if_neg h]

theorem emb_mul {m r0 q : Nat} (hq : r0 + q ≤ m) (M N : Matrix (Fin q) (Fin q) 𝕜) :
    emb m r0 (M * N) = emb m r0 M * emb m r0 N := by
  conv_rhs => rw [emb.eq_1 m r0 N]
  rw [emb_mul_mat hq]
  conv_lhs => rw [emb]
  rw [mat_ext_iff]
  intro r c hr hc
  beta_reduce
  by_cases h : r0 ≤ r ∧ r < r0 + q
  · rw [if_pos h]
    by_cases h' : r0 ≤ c ∧ c < r0 + q
    · rw [if_pos ⟨h, h'⟩, toF_mul _ _ (by omega) (by omega)]
      refine Finset.sum_congr rfl fun s hs => ?_
      rw [mem_range] at hs
      rw [if_pos (by omega), show r0 + s - r0 = s by omega]
    · rw [if_neg (by tauto), if_neg (by omega)]
      symm
      refine Finset.sum_eq_zero fun s hs => ?_
      rw [mem_range] at hs
      rw [if_neg (by tauto), if_neg (by omega), mul_zero]
  · simp only [h, false_and, if_false]

theorem emb_list {m r0 q : Nat} (hq : r0 + q ≤ m) {ι : Type} (l : List ι) (H : ι → Matrix (Fin q) (Fin q) 𝕜) :
    emb m r0 (l.map H).prod = (l.map fun i => emb m r0 (H i)).prod := by
  induction l with
  | nil => simp [emb_one]
  | cons a l ih => simp [emb_mul hq, ih]

theorem emb_conjTranspose {m r0 q : Nat} (M : Matrix (Fin q) (Fin q) 𝕜) :
    emb m r0 M.conjTranspose = (emb m r0 M).conjTranspose := by
  unfold emb
  rw [mat_conjTranspose, mat_ext_iff]
  intro r c hr hc
  beta_reduce
  by_cases h : (r0 ≤ r ∧ r < r0 + q) ∧ r0 ≤ c ∧ c < r0 + q
  · rw [if_pos h, if_pos ⟨h.2, h.1⟩]
    have h1 : r - r0 < q := by omega
    have h2 : c - r0 < q := by omega
    simp [toF, h1, h2, Matrix.conjTranspose_apply]
  · have h2 : ¬ ((r0 ≤ c ∧ c < r0 + q) ∧ r0 ≤ r ∧ r < r0 + q) := fun h' => h ⟨h'.2, h'.1⟩
    rw [if_neg h, if_neg h2]
    by_cases e : r = c
    · rw [if_pos e, if_pos e.symm, star_one]
    · rw [if_neg e, if_neg (fun h => e h.symm), star_zero]

/-- The embedded reflector. -/
theorem emb_refl {m r0 q : Nat} (t : 𝕜) (u w : Nat → 𝕜) (hin : ∀ i, i < q → r0 + i < m → w (r0 + i) = u i)
    (hout : ∀ r, r < m → r < r0 ∨ r0 + q ≤ r → w r = 0) :
    mat m m (reflF t w) = emb m r0 (mat q q (reflF t u)) := by
  unfold emb
  rw [mat_ext_iff]
  intro r c hr hc
  by_cases h : (r0 ≤ r ∧ r < r0 + q) ∧ r0 ≤ c ∧ c < r0 + q
  · rw [if_pos h, toF_mat _ (by omega) (by omega)]
    unfold reflF
    rw [← hin (r - r0) (by omega) (by omega), ← hin (c - r0) (by omega) (by omega), show r0 + (r - r0) = r by omega,
      show r0 + (c - r0) = c by omega]
    by_cases e : r = c
    · rw [if_pos e, if_pos (by omega)]
    · rw [if_neg e, if_neg (by omega)]
  · rw [if_neg h]
    unfold reflF
    have : t * w r * star (w c) = 0 := by
      by_cases h1 : r0 ≤ r ∧ r < r0 + q
      · rw [hout c hc (by omega), star_zero, mul_zero]
      · rw [hout r hr (by omega), mul_zero, zero_mul]
    rw [this, sub_zero]

end TLA

namespace TLA
open Finset
variable {𝕜 : Type} [RCLike 𝕜] [DecidableEq 𝕜]

/-- A block of steps: the panel is factorized, its reflectors are applied to the rest. -/
theorem QRInv.block {dir : Direction} {m n k s ib : Nat} {A0 G G' : Nat → Nat → 𝕜} {g g' : Nat → 𝕜}
    (h : QRInv dir m n k A0 s G g) (hs : s + ib ≤ k) (hm : k ≤ m) (hn : k ≤ n) {r0 q c0 t0 d0 nr : Nat}
    (hq : q = m - s) (hnr : nr = n - s - ib)
    (hr0 : r0 = if dir = .Forward then s else 0) (hc0 : c0 = if dir = .Forward then s else n - s - ib)
    (ht0 : t0 = if dir = .Forward then s else k - s - ib) (hd0 : d0 = if dir = .Forward then s + ib else 0)
    (hloc : QRInv dir q ib ib (sh r0 c0 G) ib (sh r0 c0 G') (fun i => g' (t0 + i)))
    (hrest : mat q nr (sh r0 d0 G') =
      (houseP dir .Columnwise q ib (sh r0 c0 G') (fun i => g' (t0 + i))).conjTranspose * mat q nr (sh r0 d0 G))
    (hsame : ∀ r c, r < m → c < n → (r < r0 ∨ r0 + q ≤ r ∨ ¬ ((c0 ≤ c ∧ c < c0 + ib) ∨ (d0 ≤ c ∧ c < d0 + nr))) → G' r c = G r c)
    (hg : ∀ i, i < k → ¬ (t0 ≤ i ∧ i < t0 + ib) → g' i = g i) :
    QRInv dir m n k A0 (s + ib) G' g' := by
  have hqm : r0 + q ≤ m := by rw [hr0]; split <;> omega
  -- earlier reflectors
  have hold : ∀ i, i < s → qH dir m n k G' g' (qidx dir k i) = qH dir m n k G g (qidx dir k i) := by
    intro i hi
    unfold qH houseH
    have e1 : g' (qidx dir k i) = g (qidx dir k i) := by
      refine hg _ ?_ ?_
      · unfold qidx; split <;> omega
      · rw [ht0]; unfold qidx; cases dir <;> simp <;> omega
    rw [e1, mat_ext_iff]
    intro r c hr hcc
    unfold reflF
    have : ∀ r, r < m → houseVec dir .Columnwise m k (fun r i => G' r (qcol dir n k i)) (qidx dir k i) r =
        houseVec dir .Columnwise m k (fun r i => G r (qcol dir n k i)) (qidx dir k i) r := by
      intro r hr
      unfold houseVec
      have : G' r (qcol dir n k (qidx dir k i)) = G r (qcol dir n k (qidx dir k i)) := by
        refine hsame _ _ hr ?_ ?_
        · unfold qcol qidx; split <;> omega
        · right; right; rw [hc0, hd0]; unfold qcol qidx; cases dir <;> simp <;> omega
      simp only [this]
    rw [this r hr, this c hcc]
  -- the reflectors of the block
  have hnew : ∀ i, i < ib → qH dir m n k G' g' (qidx dir k (s + i)) =
      emb m r0 (houseH dir .Columnwise q ib (sh r0 c0 G') (fun i => g' (t0 + i)) (qidx dir ib i)) := by
    intro i hi
    unfold qH houseH
    have e1 : t0 + qidx dir ib i = qidx dir k (s + i) := by
      rw [ht0]; unfold qidx; cases dir <;> simp <;> omega
    simp only [e1]
    refine emb_refl _ _ _ (fun r hr hrm => ?_) (fun r hr hr' => ?_)
    · unfold houseVec sh
      have e2 : qcol dir n k (qidx dir k (s + i)) = c0 + qidx dir ib i := by
        rw [hc0]; unfold qcol qidx; cases dir <;> simp <;> omega
      have e3 : hpiv dir m k (qidx dir k (s + i)) = r0 + hpiv dir q ib (qidx dir ib i) := by
        rw [hr0]; unfold hpiv qidx; cases dir <;> simp <;> omega
      simp only [e2, e3, Nat.add_right_inj, Nat.add_lt_add_iff_left]
    · unfold houseVec
      rw [if_neg, if_pos]
      · rw [hr0] at hr'; unfold hpiv qidx; cases dir <;> simp at hr' ⊢ <;> omega
      · rw [hr0] at hr'; unfold hpiv qidx; cases dir <;> simp at hr' ⊢ <;> omega
  obtain ⟨B, hB⟩ : ∃ B, B = houseP dir .Columnwise q ib (sh r0 c0 G') (fun i => g' (t0 + i)) := ⟨_, rfl⟩
  have hlq : houseP dir .Columnwise q ib (sh r0 c0 G') (fun i => g' (t0 + i)) =
      ((List.range ib).map fun i => qH dir q ib ib (sh r0 c0 G') (fun i => g' (t0 + i)) (qidx dir ib i)).prod := by
    unfold houseP qH qcol
    cases dir <;> simp
  have hBu : B.conjTranspose * B = 1 := by
    rw [hB, hlq]
    exact conj_prod_unitary _ _ fun i hi => hloc.unit i (List.mem_range.1 hi)
  have hBpan : B.conjTranspose * mat q ib (sh r0 c0 G) = mat q ib (qR dir q ib ib (sh r0 c0 G')) := by
    rw [← hloc.prod, ← hlq, ← hB, ← Matrix.mul_assoc, hBu, Matrix.one_mul]
  rw [← hB] at hrest
  have hprod : ((List.range (s + ib)).map fun i => qH dir m n k G' g' (qidx dir k i)).prod =
      ((List.range s).map fun i => qH dir m n k G g (qidx dir k i)).prod * emb m r0 B := by
    rw [List.range_add, List.map_append, List.prod_append]
    congr 1
    · congr 1
      exact List.map_congr_left fun i hi => hold i (List.mem_range.1 hi)
    · rw [hB]
      unfold houseP
      rw [emb_list hqm, List.map_map]
      congr 1
      refine List.map_congr_left fun i hi => ?_
      exact hnew i (List.mem_range.1 hi)
  have hR : mat m n (qR dir m n (s + ib) G') = emb m r0 B.conjTranspose * mat m n (qR dir m n s G) := by
    rw [emb_mul_mat hqm, mat_ext_iff]
    intro r c hr hc
    beta_reduce
    have hpan : ∀ i j, i < q → j < ib → ∑ l ∈ range q, toF B.conjTranspose i l * G (r0 + l) (c0 + j) =
        qR dir q ib ib (sh r0 c0 G') i j := by
      intro i j hi hj
      have := congrArg (fun M => toF M i j) hBpan
      simp only [toF_mul _ _ hi hj, toF_mat _ hi hj] at this
      rw [← this]
      exact Finset.sum_congr rfl fun l hl => by rw [toF_mat _ (mem_range.1 hl) hj]; rfl
    have hre : ∀ i j, i < q → j < nr → ∑ l ∈ range q, toF B.conjTranspose i l * G (r0 + l) (d0 + j) =
        G' (r0 + i) (d0 + j) := by
      intro i j hi hj
      have := congrArg (fun M => toF M i j) hrest
      simp only [toF_mul _ _ hi hj, toF_mat _ hi hj] at this
      rw [show G' (r0 + i) (d0 + j) = sh r0 d0 G' i j from rfl, this]
      exact Finset.sum_congr rfl fun l hl => by rw [toF_mat _ (mem_range.1 hl) hj]; rfl
    by_cases h1 : c0 ≤ c ∧ c < c0 + ib
    · have hz : ∀ r, qR dir m n s G r c = G r c := by
        intro r
        refine qR_not ?_
        rw [hc0] at h1
        unfold qz
        cases dir <;> simp at h1 ⊢ <;> omega
      simp only [hz]
      by_cases h2 : r0 ≤ r ∧ r < r0 + q
      · rw [if_pos h2]
        have := hpan (r - r0) (c - c0) (by omega) (by omega)
        rw [show c0 + (c - c0) = c by omega] at this
        rw [this]
        unfold qR sh
        rw [show c0 + (c - c0) = c by omega, show r0 + (r - r0) = r by omega]
        congr 1
        rw [hc0, hr0] at *
        unfold qz
        cases dir <;> simp at h1 h2 ⊢ <;> omega
      · rw [if_neg h2, qR_not, hsame r c hr hc (by omega)]
        rw [hr0] at h2
        rw [hc0] at h1
        unfold qz
        cases dir <;> simp at h1 h2 ⊢ <;> omega
    · by_cases h3 : d0 ≤ c ∧ c < d0 + nr
      · have hz : ∀ r, qR dir m n s G r c = G r c := by
          intro r
          refine qR_not ?_
          rw [hd0, hnr] at h3
          unfold qz
          cases dir <;> simp at h3 ⊢ <;> omega
        simp only [hz]
        rw [qR_not]
        · by_cases h2 : r0 ≤ r ∧ r < r0 + q
          · rw [if_pos h2]
            have := hre (r - r0) (c - d0) (by omega) (by omega)
            rw [show d0 + (c - d0) = c by omega, show r0 + (r - r0) = r by omega] at this
            exact this.symm
          · rw [if_neg h2, hsame r c hr hc (by omega)]
        · rw [hd0, hnr] at h3
          unfold qz
          cases dir <;> simp at h3 ⊢ <;> omega
      · have hcs : if dir = .Forward then c < s else n - s ≤ c := by
          rw [hc0] at h1; rw [hd0, hnr] at h3
          cases dir <;> simp at h1 h3 ⊢ <;> omega
        have e1 : qR dir m n (s + ib) G' r c = qR dir m n s G r c := by
          unfold qR
          rw [hsame r c hr hc (Or.inr (Or.inr (by tauto)))]
          congr 1
          unfold qz
          cases dir <;> simp at hcs ⊢ <;> omega
        rw [e1]
        by_cases h2 : r0 ≤ r ∧ r < r0 + q
        · have hz : ∀ r, r0 ≤ r → r < r0 + q → qR dir m n s G r c = 0 := by
            intro r h4 h5
            refine qR_of ?_
            rw [hr0] at h4 h5
            unfold qz
            cases dir <;> simp at hcs h4 h5 ⊢ <;> omega
          rw [if_pos h2, hz r h2.1 h2.2]
          symm
          refine Finset.sum_eq_zero fun l hl => ?_
          rw [mem_range] at hl
          rw [hz _ (by omega) (by omega), mul_zero]
        · rw [if_neg h2]
  have hBu' : B * B.conjTranspose = 1 := mul_eq_one_comm.1 hBu
  refine ⟨?_, fun i hi => ?_, fun i hi => ?_⟩
  · rw [hprod, hR, Matrix.mul_assoc, ← Matrix.mul_assoc (emb m r0 B), ← emb_mul hqm, hBu', emb_one, Matrix.one_mul, h.prod]
  · by_cases e : i < s
    · rw [hold i e]; exact h.unit i e
    · obtain ⟨j, rfl⟩ : ∃ j, i = s + j := ⟨i - s, by omega⟩
      rw [hnew j (by omega), ← emb_conjTranspose, ← emb_mul hqm]
      have := hloc.unit j (by omega)
      have e2 : qH dir q ib ib (sh r0 c0 G') (fun i => g' (t0 + i)) (qidx dir ib j) =
          houseH dir .Columnwise q ib (sh r0 c0 G') (fun i => g' (t0 + i)) (qidx dir ib j) := by
        unfold qH qcol
        cases dir <;> simp
      rw [e2] at this
      rw [this, emb_one]
  · by_cases e : i < s
    · have : G' (hpiv dir m k (qidx dir k i)) (qcol dir n k (qidx dir k i)) =
          G (hpiv dir m k (qidx dir k i)) (qcol dir n k (qidx dir k i)) := by
        refine hsame _ _ ?_ ?_ (Or.inr (Or.inr ?_))
        · unfold hpiv qidx; split <;> omega
        · unfold qcol qidx; split <;> omega
        · rw [hc0, hd0]; unfold qcol qidx; cases dir <;> simp <;> omega
      rw [this]
      exact h.real i e
    · obtain ⟨j, rfl⟩ : ∃ j, i = s + j := ⟨i - s, by omega⟩
      have := hloc.real j (by omega)
      unfold sh at this
      have e3 : hpiv dir m k (qidx dir k (s + j)) = r0 + hpiv dir q ib (qidx dir ib j) := by
        rw [hr0]; unfold hpiv qidx; cases dir <;> simp <;> omega
      have e2 : qcol dir n k (qidx dir k (s + j)) = c0 + qcol dir ib ib (qidx dir ib j) := by
        rw [hc0]; unfold qcol qidx; cases dir <;> simp <;> omega
      rw [e2, e3]
      exact this

end TLA
