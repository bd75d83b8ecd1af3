import Verif.Proofs.SubView
import Verif.Proofs.Gemv
import Verif.Proofs.Gemm
import Verif.Proofs.RankExact
import Verif.Proofs.Trsm
import Verif.Proofs.Trmm

/-!
Level-3 calls on blocks, in the form used by the blocked and recursive algorithms: what is known
about the entries before and after, and that only the output block changed.
-/

namespace TLA
variable {L T : Type}

/-- Only cells of `B` changed. -/
def Only (B : MatV L) (μ ν : Store L T) : Prop := ∀ l, ¬ B.Owns l → ν l = μ l

/-- Only cells of the vector `x` changed. -/
def OnlyV (x : VecV L) (μ ν : Store L T) : Prop := ∀ l, ¬ x.Owns l → ν l = μ l

theorem Only.refl {B : MatV L} {μ : Store L T} : Only B μ μ := fun _ _ => rfl
theorem Only.trans {B : MatV L} {μ ν ξ : Store L T} (h : Only B μ ν) (h' : Only B ν ξ) :
    Only B μ ξ := fun l hl => (h' l hl).trans (h l hl)

theorem Only.sub {A : MatV L} {μ ν : Store L T} {r0 r1 c0 c1 : Nat}
    (h : Only (A.sub r0 r1 c0 c1) μ ν) (hr : r1 ≤ A.m) (hc : c1 ≤ A.n) : Only A μ ν :=
  fun l hl => h l (fun ho => hl (ho.sub hr hc))

theorem Only.out {A : MatV L} {μ ν : Store L T} {r0 r1 c0 c1 : Nat}
    (h : Only (A.sub r0 r1 c0 c1) μ ν) (hA : A.Inj) (hr : r1 ≤ A.m) (hc : c1 ≤ A.n) {i j : Nat}
    (hi : i < A.m) (hj : j < A.n) (ho : i < r0 ∨ r1 ≤ i ∨ j < c0 ∨ c1 ≤ j) :
    entry ν A i j = entry μ A i j := by
  refine h _ ?_
  rintro ⟨i', j', hi', hj', e⟩
  simp only [MatV.sub] at hi' hj' e
  have := hA _ _ _ _ (by omega) (by omega) hi hj e
  omega

theorem OnlyV.outRow {A : MatV L} {μ ν : Store L T} {r c0 c1 : Nat}
    (h : OnlyV (A.rowv r c0 c1) μ ν) (hA : A.Inj) (hr : r < A.m) (hc : c1 ≤ A.n) {i j : Nat}
    (hi : i < A.m) (hj : j < A.n) (ho : i ≠ r ∨ j < c0 ∨ c1 ≤ j) :
    entry ν A i j = entry μ A i j := by
  refine h _ ?_
  rintro ⟨j', hj', e⟩
  simp only [MatV.rowv] at hj' e
  have := hA _ _ _ _ hr (by omega) hi hj e
  omega

theorem OnlyV.outCol {A : MatV L} {μ ν : Store L T} {r0 r1 c : Nat}
    (h : OnlyV (A.colv r0 r1 c) μ ν) (hA : A.Inj) (hr : r1 ≤ A.m) (hc : c < A.n) {i j : Nat}
    (hi : i < A.m) (hj : j < A.n) (ho : i < r0 ∨ r1 ≤ i ∨ j ≠ c) :
    entry ν A i j = entry μ A i j := by
  refine h _ ?_
  rintro ⟨i', hi', e⟩
  simp only [MatV.colv] at hi' e
  have := hA _ _ _ _ (by omega) hc hi hj e
  omega

/-! ### cells outside a triangle -/

theorem SameOff.refl {A : MatV L} {u : Uplo} {μ : Store L T} : SameOff A u μ μ := fun _ _ => rfl

theorem SameOff.trans {A : MatV L} {u : Uplo} {μ ν ξ : Store L T} (h : SameOff A u μ ν)
    (h' : SameOff A u ν ξ) : SameOff A u μ ξ := fun l hl => (h' l hl).trans (h l hl)

theorem inTri_shift {u : Uplo} (hu : u = .Upper ∨ u = .Lower) (p i j : Nat) :
    inTri u (p + i) (p + j) ↔ inTri u i j := by
  rcases hu with rfl | rfl <;> simp only [inTri] <;> omega

theorem SameOff.sub {A : MatV L} {u : Uplo} {μ ν : Store L T} {p q : Nat}
    (hu : u = .Upper ∨ u = .Lower) (h : SameOff (A.sub p q p q) u μ ν) (hm : q ≤ A.m) (hn : q ≤ A.n) :
    SameOff A u μ ν := by
  intro l hl
  refine h l (fun i j hi hj ht => ?_)
  simp only [MatV.sub] at hi hj ⊢
  exact hl _ _ (by omega) (by omega) ((inTri_shift hu p i j).2 ht)

theorem SameOff.only {A : MatV L} {u : Uplo} {μ ν : Store L T} (h : SameOff A u μ ν) : Only A μ ν :=
  fun l hl => h l (fun i j hi hj _ e => hl ⟨i, j, hi, hj, e⟩)

theorem Only.sameOff {A : MatV L} {u : Uplo} {μ ν : Store L T} {r0 r1 c0 c1 : Nat}
    (h : Only (A.sub r0 r1 c0 c1) μ ν) (hr : r1 ≤ A.m) (hc : c1 ≤ A.n)
    (ht : ∀ i j, r0 ≤ i → i < r1 → c0 ≤ j → j < c1 → inTri u i j) : SameOff A u μ ν := by
  intro l hl
  refine h l ?_
  rintro ⟨i, j, hi, hj, e⟩
  simp only [MatV.sub] at hi hj e
  exact hl _ _ (by omega) (by omega) (ht _ _ (by omega) (by omega) (by omega) (by omega)) e

theorem OnlyV.sameOffRow {A : MatV L} {u : Uplo} {μ ν : Store L T} {r c0 c1 : Nat}
    (h : OnlyV (A.rowv r c0 c1) μ ν) (hr : r < A.m) (hc : c1 ≤ A.n)
    (ht : ∀ j, c0 ≤ j → j < c1 → inTri u r j) : SameOff A u μ ν := by
  intro l hl
  refine h l ?_
  rintro ⟨j, hj, e⟩
  simp only [MatV.rowv] at hj e
  exact hl _ _ hr (by omega) (ht _ (by omega) (by omega)) e

theorem OnlyV.sameOffCol {A : MatV L} {u : Uplo} {μ ν : Store L T} {r0 r1 c : Nat}
    (h : OnlyV (A.colv r0 r1 c) μ ν) (hr : r1 ≤ A.m) (hc : c < A.n)
    (ht : ∀ i, r0 ≤ i → i < r1 → inTri u i c) : SameOff A u μ ν := by
  intro l hl
  refine h l ?_
  rintro ⟨i, hi, e⟩
  simp only [MatV.colv] at hi e
  exact hl _ _ (by omega) hc (ht _ (by omega) (by omega)) e

theorem SameOff.out {A : MatV L} {u : Uplo} {μ ν : Store L T} (h : SameOff A u μ ν) (hA : A.Inj)
    {i j : Nat} (hi : i < A.m) (hj : j < A.n) (ht : ¬ inTri u i j) : entry ν A i j = entry μ A i j := by
  refine h _ (fun i' j' hi' hj' ht' e => ?_)
  obtain ⟨rfl, rfl⟩ := hA _ _ _ _ hi' hj' hi hj e
  exact ht ht'

theorem upd_out [DecidableEq L] {A : MatV L} {μ : Store L T} (hA : A.Inj) {p q i j : Nat} {v : T}
    (hp : p < A.m) (hq : q < A.n) (hi : i < A.m) (hj : j < A.n) (hne : i ≠ p ∨ j ≠ q) :
    entry (upd μ (A.cell p q) v) A i j = entry μ A i j := by
  unfold entry upd
  rw [if_neg]
  intro e
  have := hA _ _ _ _ hi hj hp hq e
  omega

theorem upd_in [DecidableEq L] {A : MatV L} {μ : Store L T} {p q : Nat} {v : T} :
    entry (upd μ (A.cell p q) v) A p q = v := by
  unfold entry upd; simp

theorem upd_sameOff [DecidableEq L] {A : MatV L} {u : Uplo} {μ : Store L T} {p q : Nat} {v : T}
    (hp : p < A.m) (hq : q < A.n) (ht : inTri u p q) : SameOff A u μ (upd μ (A.cell p q) v) := by
  intro l hl
  unfold upd
  rw [if_neg (fun e => hl p q hp hq ht e.symm)]

/-! ### the level-3 routines -/

variable [DecidableEq L]

theorem wp_trsmL [Field T] [StarRing T] {uplo : Uplo} {trans : Op} {diag : Diag} {alpha : T}
    {A B : MatV L} {μ : Store L T}
    (h : TrmOK .Left uplo trans A B)
    (hd : diag = .NonUnit → ∀ i, i < A.m → entry μ A i i ≠ 0) :
    wp (trsm .Left uplo trans diag alpha A B) μ (fun _ ν => Only B μ ν ∧
      ∀ i j, i < B.m → j < B.n →
        ∑ l ∈ Finset.range B.m, opF trans (triF uplo diag (entry μ A)) i l * entry ν B l j =
        alpha * entry μ B i j) := by
  refine wp_conseq (wp_trsm_exact h hd) ?_
  rintro _ ν ⟨X, hX, hE⟩
  refine ⟨hX.frame, fun i j hi hj => ?_⟩
  have := h.AB
  simp only [if_true] at this
  rw [← hE i j hi hj]
  simp only [this]
  refine Finset.sum_congr rfl (fun l hl => ?_)
  rw [entry, hX.val l j (Finset.mem_range.1 hl) hj]

theorem wp_trsmR [Field T] [StarRing T] {uplo : Uplo} {trans : Op} {diag : Diag} {alpha : T}
    {A B : MatV L} {μ : Store L T}
    (h : TrmOK .Right uplo trans A B)
    (hd : diag = .NonUnit → ∀ i, i < A.m → entry μ A i i ≠ 0) :
    wp (trsm .Right uplo trans diag alpha A B) μ (fun _ ν => Only B μ ν ∧
      ∀ i j, i < B.m → j < B.n →
        ∑ l ∈ Finset.range B.n, entry ν B i l * opF trans (triF uplo diag (entry μ A)) l j =
        alpha * entry μ B i j) := by
  refine wp_conseq (wp_trsm_exact h hd) ?_
  rintro _ ν ⟨X, hX, hE⟩
  refine ⟨hX.frame, fun i j hi hj => ?_⟩
  have := h.AB
  simp only [reduceCtorEq, if_false] at this
  rw [← hE i j hi hj]
  simp only [this]
  refine Finset.sum_congr rfl (fun l hl => ?_)
  rw [entry, hX.val i l hi (Finset.mem_range.1 hl)]

theorem wp_trmmL [Field T] [StarRing T] {uplo : Uplo} {trans : Op} {diag : Diag} {alpha : T}
    {A B : MatV L} {μ : Store L T} (h : TrmOK .Left uplo trans A B) :
    wp (trmm .Left uplo trans diag alpha A B) μ (fun _ ν => Only B μ ν ∧
      ∀ i j, i < B.m → j < B.n → entry ν B i j = alpha *
        ∑ l ∈ Finset.range B.m, opF trans (triF uplo diag (entry μ A)) i l * entry μ B l j) := by
  refine wp_conseq (wp_trmm_exact h) ?_
  intro _ ν hX
  refine ⟨hX.frame, fun i j hi hj => ?_⟩
  have := h.AB
  simp only [if_true] at this
  rw [entry, hX.val i j hi hj]
  simp only [this]

theorem wp_trmmR [Field T] [StarRing T] {uplo : Uplo} {trans : Op} {diag : Diag} {alpha : T}
    {A B : MatV L} {μ : Store L T} (h : TrmOK .Right uplo trans A B) :
    wp (trmm .Right uplo trans diag alpha A B) μ (fun _ ν => Only B μ ν ∧
      ∀ i j, i < B.m → j < B.n → entry ν B i j = alpha *
        ∑ l ∈ Finset.range B.n, entry μ B i l * opF trans (triF uplo diag (entry μ A)) l j) := by
  refine wp_conseq (wp_trmm_exact h) ?_
  intro _ ν hX
  refine ⟨hX.frame, fun i j hi hj => ?_⟩
  have := h.AB
  simp only [reduceCtorEq, if_false] at this
  rw [entry, hX.val i j hi hj]
  simp only [this]

theorem wp_gemm_e [Field T] [StarRing T] {transA transB : Op} {alpha : T}
    {A B C : MatV L} {beta : Coef T} {m n k : Nat} {μ : Store L T}
    (h : GemmOK transA transB A B C m n k) :
    wp (gemm transA transB alpha A B beta C) μ (fun _ ν => Only C μ ν ∧
      ∀ i j, i < C.m → j < C.n → entry ν C i j = alpha * (∑ l ∈ Finset.range k,
        opF transA (entry μ A) i l * opF transB (entry μ B) l j) + beta.toVal * entry μ C i j) :=
  wp_conseq (wp_gemm_exact h) (fun _ _ hν => ⟨hν.frame, fun i j hi hj => hν.val i j hi hj⟩)

theorem wp_gemv_e [Field T] [StarRing T] {trans : Op} {alpha : T} {A : MatV L}
    {x y : VecV L} {beta : Coef T} {m n : Nat} {μ : Store L T} (h : GemvOK trans A x y m n)
    (hb : 0 < n ∨ beta.toVal = 1) :
    wp (gemv trans alpha A x beta y) μ (fun _ ν => OnlyV y μ ν ∧ ∀ i, i < y.n →
      ventry ν y i = alpha * (∑ l ∈ Finset.range n, opF trans (entry μ A) i l * ventry μ x l)
        + beta.toVal * ventry μ y i) := by
  by_cases hn : 0 < n
  · exact wp_conseq (wp_gemv_exact h hn) (fun _ _ hν => ⟨hν.frame, fun i hi => hν.val i hi⟩)
  · obtain rfl : n = 0 := by omega
    have hb' : beta.toVal = 1 := hb.resolve_left (by omega)
    refine wp_conseq (wp_gemv h) ?_
    intro _ ν hν
    rw [if_pos (by tauto)] at hν
    subst hν
    refine ⟨fun _ _ => rfl, fun i _ => ?_⟩
    rw [hb']; simp

theorem wp_herk_e [Field T] [StarRing T] [ReIm T] [ExactScalar T] {uplo : Uplo} {trans : Op}
    {alpha : T} {A C : MatV L} {beta : Coef T} {n k : Nat} {μ : Store L T}
    (h : RankOK Op.ConjTrans uplo trans A A C n k) (hu : uplo = .Upper ∨ uplo = .Lower)
    (ha : star alpha = alpha) :
    wp (herk uplo trans alpha A beta C) μ (fun _ ν => SameOff C uplo μ ν ∧
      ∀ i j, i < n → j < n → inTri uplo i j → entry ν C i j =
        alpha * (∑ l ∈ Finset.range k, opF trans (entry μ A) i l * star (opF trans (entry μ A) j l)) +
        beta.toVal * (if i = j then re (entry μ C i i) else entry μ C i j)) := by
  refine wp_conseq (wp_herk h) ?_
  intro _ ν hν
  have hg : uplo ≠ .General := by rcases hu with rfl | rfl <;> decide
  refine ⟨fun l hl => ?_, fun i j hi hj ht => ?_⟩
  · by_cases ho : C.Owns l
    · obtain ⟨i, j, hi, hj, rfl⟩ := ho
      rw [hν.val i j hi hj, rankRes, if_neg hg, if_neg (fun ht => hl i j hi hj ht rfl)]
      rfl
    · exact hν.frame l ho
  · rw [entry, hν.val i j (by rw [h.Cm]; exact hi) (by rw [h.Cn]; exact hj), rankRes, if_neg hg,
      if_pos ht, herkVal_exact _ _ _ _ _ _ h.hop ha]

end TLA
