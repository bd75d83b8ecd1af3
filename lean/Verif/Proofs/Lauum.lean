import Verif.Proofs.BlockMat
import Verif.Proofs.Raise

set_option linter.unusedTactic false
set_option linter.unreachableTactic false

/-! In-place products of a triangle with its conjugate transpose. -/

namespace TLA
variable {L T : Type} [DecidableEq L]
open Finset

/-- Conjugate transpose of an entry function. -/
def starT [Star T] (g : Nat → Nat → T) : Nat → Nat → T := fun i j => star (g j i)

omit [DecidableEq L] in
theorem mat_starT [Star T] (m n : Nat) (g : Nat → Nat → T) :
    mat n m (starT g) = (mat m n g).conjTranspose := rfl

theorem sh_starT [Star T] (r c : Nat) (g : Nat → Nat → T) : sh r c (starT g) = starT (sh c r g) := rfl

omit [DecidableEq L] in
theorem mul_ct_inner [Field T] [StarRing T] (m a b n : Nat) (F G : Nat → Nat → T) :
    mat m (a + b) F * (mat n (a + b) G).conjTranspose =
      mat m a F * (mat n a G).conjTranspose +
        mat m b (sh 0 a F) * (mat n b (sh 0 a G)).conjTranspose := by
  rw [← mat_starT, mat_mul_inner, sh_starT, mat_starT, mat_starT]

section herm
variable [Field T] [StarRing T] [ReIm T] [ExactScalar T]

omit [ExactScalar T] in
theorem hermF_sh {u : Uplo} (hu : u = .Upper ∨ u = .Lower) (p : Nat) (g : Nat → Nat → T) :
    sh p p (hermF u g) = hermF u (sh p p g) := by
  funext i j
  unfold sh hermF
  by_cases h : i = j
  · rw [if_pos h, if_pos (by omega)]
  · rw [if_neg h, if_neg (show ¬ p + i = p + j by omega)]
    exact if_congr (inTri_shift hu p i j) rfl rfl

omit [ExactScalar T] in
theorem hermU_01 (a b : Nat) (g : Nat → Nat → T) :
    mat a b (sh 0 a (hermF .Upper g)) = mat a b (sh 0 a g) := by
  funext i j
  have := i.2
  show (if 0 + (i : Nat) = a + j then _ else _) = _
  rw [if_neg (by omega)]
  exact if_pos (show (0 + (i : Nat) ≤ a + j) by omega)

omit [ExactScalar T] in
theorem hermU_10 (a b : Nat) (g : Nat → Nat → T) :
    mat b a (sh a 0 (hermF .Upper g)) = (mat a b (sh 0 a g)).conjTranspose := by
  funext i j
  have := j.2
  show (if a + (i : Nat) = 0 + j then _ else _) = _
  rw [if_neg (by omega)]
  exact if_neg (show ¬ (a + (i : Nat) ≤ 0 + j) by omega)

omit [ExactScalar T] in
theorem hermL_10 (a b : Nat) (g : Nat → Nat → T) :
    mat b a (sh a 0 (hermF .Lower g)) = mat b a (sh a 0 g) := by
  funext i j
  have := j.2
  show (if a + (i : Nat) = 0 + j then _ else _) = _
  rw [if_neg (by omega)]
  exact if_pos (show (0 + (j : Nat) ≤ a + i) by omega)

omit [ExactScalar T] in
theorem hermL_01 (a b : Nat) (g : Nat → Nat → T) :
    mat a b (sh 0 a (hermF .Lower g)) = (mat b a (sh a 0 g)).conjTranspose := by
  funext i j
  have := i.2
  show (if 0 + (i : Nat) = a + j then _ else _) = _
  rw [if_neg (by omega)]
  exact if_neg (show ¬ (a + (j : Nat) ≤ 0 + i) by omega)

theorem norm_sq_eq (c : T) : re c * re c + im c * im c = c * star c := by
  have h : star (c * star c) = c * star c := by rw [star_mul', star_star, mul_comm]
  rw [← ExactScalar.re_of_star _ h, ExactScalar.re_mul, ExactScalar.re_star, ExactScalar.im_star]
  ring

/-- `C` holds, in the triangle `uplo`, the Hermitian matrix `G`. -/
structure HermRes (uplo : Uplo) (C : MatV L) (n : Nat) (ν : Store L T)
    (G : Matrix (Fin n) (Fin n) T) : Prop where
  diag : ∀ i, i < n → star (entry ν C i i) = entry ν C i i
  eq : mat n n (hermF uplo (entry ν C)) = G

theorem HermRes.entry {uplo : Uplo} {C : MatV L} {n : Nat} {ν : Store L T}
    {G : Matrix (Fin n) (Fin n) T} (h : HermRes uplo C n ν G) (i j : Fin n)
    (ht : inTri uplo i j) : entry ν C i j = G i j := by
  rw [← h.eq]
  show _ = hermF uplo (TLA.entry ν C) i j
  unfold hermF
  by_cases hij : (i : Nat) = j
  · rw [if_pos hij, ← hij, ExactScalar.re_of_star _ (h.diag i i.2)]
  · rw [if_neg hij, if_pos ht]

/-- `C` unchanged on the diagonal block. -/
theorem mat_hermF_congr {u : Uplo} (hu : u = .Upper ∨ u = .Lower) {n : Nat} {g h : Nat → Nat → T}
    (ho : ∀ i j, i < n → j < n → inTri u i j → g i j = h i j) :
    mat n n (hermF u g) = mat n n (hermF u h) := by
  rw [mat_ext_iff]
  intro i j hi hj
  unfold hermF
  by_cases e : i = j
  · rw [if_pos e, if_pos e, ho i i hi hi (by rcases hu with rfl | rfl <;> exact le_refl i)]
  · rw [if_neg e, if_neg e]
    by_cases ht : inTri u i j
    · rw [if_pos ht, if_pos ht, ho i j hi hj ht]
    · rw [if_neg ht, if_neg ht, ho j i hj hi
        (by rcases hu with rfl | rfl <;> exact Nat.le_of_lt (Nat.lt_of_not_le ht))]

/-- Assembling a Hermitian result from its blocks. -/
theorem hermRes_blocks {u : Uplo} (hu : u = .Upper ∨ u = .Lower) {C : MatV L} {a b : Nat}
    {ν : Store L T} {F : Nat → Nat → T} {k : Nat}
    (d : ∀ i, i < a + b → star (entry ν C i i) = entry ν C i i)
    (h00 : mat a a (hermF u (entry ν C)) =
      mat a k F * (mat a k F).conjTranspose)
    (h11 : mat b b (hermF u (sh a a (entry ν C))) =
      mat b k (sh a 0 F) * (mat b k (sh a 0 F)).conjTranspose)
    (ho : if u = .Upper then mat a b (sh 0 a (entry ν C)) =
          mat a k F * (mat b k (sh a 0 F)).conjTranspose
        else mat b a (sh a 0 (entry ν C)) = mat b k (sh a 0 F) * (mat a k F).conjTranspose) :
    HermRes u C (a + b) ν (mat (a + b) k F * (mat (a + b) k F).conjTranspose) := by
  refine ⟨d, ?_⟩
  rw [← mat_starT, mat_mulF]
  refine mat_ext4 ?_ ?_ ?_ ?_
  · rw [h00, ← mat_mulF, mat_starT]
  · rw [mat_mul_block, sh_zero, sh_starT, mat_starT]
    rcases hu with rfl | rfl
    · rw [if_pos rfl] at ho
      rw [hermU_01, ho]
    · rw [if_neg (by decide)] at ho
      rw [hermL_01, ho, Matrix.conjTranspose_mul, Matrix.conjTranspose_conjTranspose]
  · rw [mat_mul_block, sh_starT, sh_zero, mat_starT]
    rcases hu with rfl | rfl
    · rw [if_pos rfl] at ho
      rw [hermU_10, ho, Matrix.conjTranspose_mul, Matrix.conjTranspose_conjTranspose]
    · rw [if_neg (by decide)] at ho
      rw [hermL_10, ho]
  · rw [mat_mul_block, sh_starT, mat_starT, hermF_sh hu, h11]

/-- The `F` with `result = F Fᴴ`: the triangle itself or its conjugate transpose. -/
def facF (uplo : Uplo) (g : Nat → Nat → T) : Nat → Nat → T :=
  if uplo = .Upper then triF .Upper .NonUnit g else starT (triF .Lower .NonUnit g)

/-- lauum_recursive. -/
theorem wp_lauum {uplo : Uplo} (hu : uplo = .Upper ∨ uplo = .Lower) (s : Nat) :
    ∀ (C : MatV L) (μ : Store L T), C.m = s → C.n = s → C.Inj →
      wp (lauum uplo C) μ (fun _ ν => SameOff C uplo μ ν ∧
        HermRes uplo C s ν (mat s s (facF uplo (entry μ C)) *
          (mat s s (facF uplo (entry μ C))).conjTranspose)) := by
  induction s using Nat.strong_induction_on with
  | _ s ih =>
    intro C μ hm hn hC
    rw [lauum]
    simp only [wp_bind]
    refine wp_squareTriChecks hu (by omega) ?_
    by_cases h0 : s = 0
    · subst h0
      rw [if_pos hm]
      exact ⟨SameOff.refl, fun i hi => absurd hi (by omega), by ext i; exact i.elim0⟩
    rw [if_neg (by omega)]
    have htr : ∀ i, inTri uplo i i := by rcases hu with rfl | rfl <;> exact fun i => le_refl i
    by_cases h1 : s = 1
    · subst h1
      rw [dif_pos hm]
      simp only [wp_bind]
      refine wp_getE ⟨by omega, by omega⟩ ?_
      refine wp_conseq (wp_set.2 ⟨⟨by omega, by omega⟩, ?_⟩) (fun _ _ h => h)
      have hv : entry (upd μ (C.cell 0 0) (re (μ (C.cell 0 0)) * re (μ (C.cell 0 0)) +
          im (μ (C.cell 0 0)) * im (μ (C.cell 0 0)))) C 0 0 = entry μ C 0 0 * star (entry μ C 0 0) := by
        rw [upd_in, norm_sq_eq]; rfl
      have hd : star (entry μ C 0 0 * star (entry μ C 0 0)) = entry μ C 0 0 * star (entry μ C 0 0) := by
        rw [star_mul', star_star, mul_comm]
      refine ⟨upd_sameOff (by omega) (by omega) (htr 0), fun i hi => ?_, ?_⟩
      · obtain rfl : i = 0 := by omega
        rw [hv, hd]
      · rw [mat_conjTranspose, mat_mul, mat_ext_iff]
        intro i j hi hj
        obtain rfl : i = 0 := by omega
        obtain rfl : j = 0 := by omega
        rw [Finset.sum_range_one]
        unfold hermF
        rw [if_pos rfl, hv, ExactScalar.re_of_star _ hd]
        unfold facF
        split
        · rfl
        · show _ = star (entry μ C 0 0) * star (star (entry μ C 0 0))
          rw [star_star, mul_comm]
    rw [dif_neg (by omega)]
    simp only [hm]
    obtain ⟨a, ha⟩ : ∃ a, s / 2 = a := ⟨_, rfl⟩
    obtain ⟨b, hb⟩ : ∃ b, s = a + b := ⟨s - a, by omega⟩
    rw [ha]
    have hab : 0 < a ∧ 0 < b := by omega
    clear ha h0 h1
    subst hb
    simp only [wp_bind]
    refine wp_sliceChk (by omega) (by omega) (by omega) (by omega) ?_
    refine wp_sliceChk (by omega) (by omega) (by omega) (by omega) ?_
    refine wp_conseq (ih a (by omega) (C.sub 0 a 0 a) μ (by simp [MatV.sub]) (by simp [MatV.sub])
      (hC.sub (by omega) (by omega))) ?_
    rintro _ ν1 ⟨o1, r1⟩
    have c1 : ∀ i j, i < a + b → j < a + b → (a ≤ i ∨ a ≤ j) → entry ν1 C i j = entry μ C i j :=
      fun i j hi hj ho => o1.only.out hC (by omega) (by omega) (by omega) (by omega) (by omega)
    rcases hu with rfl | rfl
    · simp only [reduceCtorEq, if_false, wp_bind]
      refine wp_slice (by omega) (by omega) (by omega) (by omega) ?_
      refine wp_conseq (wp_herk_m (n := a) (k := b) ⟨Or.inl rfl, Or.inl rfl, rfl, by simp [MatV.sub], rfl,
        rfl, rfl, rfl, hC.sub (by omega) (by omega),
        hC.disj_sub (by omega) (by omega) (by omega) (by omega) (by omega),
        hC.disj_sub (by omega) (by omega) (by omega) (by omega) (by omega)⟩ (Or.inl rfl) (by simp)
        (by simp [Coef.toVal])) ?_
      rintro _ ν2 ⟨o2, d2, e2⟩
      have c2 : ∀ i j, i < a + b → j < a + b → (a ≤ i ∨ a ≤ j) → entry ν2 C i j = entry ν1 C i j :=
        fun i j hi hj ho => o2.only.out hC (by omega) (by omega) (by omega) (by omega) (by omega)
      refine wp_conseq (wp_trmmR_m (m := a) (n := b) (by simp [MatV.sub]) (by simp [MatV.sub])
        ⟨Or.inr rfl, Or.inl rfl, by decide, rfl, rfl, hC.sub (by omega) (by omega),
        hC.disj_sub (by omega) (by omega) (by omega) (by omega) (by omega)⟩) ?_
      rintro _ ν3 ⟨o3, e3⟩
      have c3 : ∀ i j, i < a + b → j < a + b → (a ≤ i ∨ j < a) → entry ν3 C i j = entry ν2 C i j :=
        fun i j hi hj ho => o3.out hC (by omega) (by omega) (by omega) (by omega) (by omega)
      refine wp_conseq (ih b (by omega) (C.sub a (a + b) a (a + b)) ν3 (by simp [MatV.sub])
        (by simp [MatV.sub]) (hC.sub (by omega) (by omega))) ?_
      rintro _ ν4 ⟨o4, r4⟩
      have c4 : ∀ i j, i < a + b → j < a + b → (i < a ∨ j < a) → entry ν4 C i j = entry ν3 C i j :=
        fun i j hi hj ho => o4.only.out hC (by omega) (by omega) (by omega) (by omega) (by omega)
      have so : SameOff C .Upper μ ν4 :=
        (((o1.sub (Or.inl rfl) (by omega) (by omega)).trans (o2.sub (Or.inl rfl) (by omega) (by omega))).trans
          (o3.sameOff (by omega) (by omega) (fun i j _ _ _ _ => show i ≤ j by omega))).trans
          (o4.sub (Or.inl rfl) (by omega) (by omega))
      -- blocks of the input
      have f01 : mat a b (sh 0 a (facF .Upper (entry μ C))) = mat a b (sh 0 a (entry μ C)) :=
        triU_01 .NonUnit a b (entry μ C)
      have f10 : mat b a (sh a 0 (facF .Upper (entry μ C))) = 0 := triU_10 .NonUnit a b (entry μ C)
      have f11 : sh a a (facF .Upper (entry μ C)) = facF .Upper (sh a a (entry μ C)) :=
        triF_sh (Or.inl rfl) .NonUnit a (entry μ C)
      have m01 : mat a b (sh 0 a (entry ν1 C)) = mat a b (sh 0 a (entry μ C)) := by
        rw [mat_ext_iff]; intro i j hi hj; exact c1 _ _ (by omega) (by omega) (by omega)
      have tri : ∀ ξ : Store L T, (∀ i j, i < b → j < b → entry ξ C (a + i) (a + j) =
          entry μ C (a + i) (a + j)) → mat b b (facF .Upper (sh a a (entry ξ C))) =
          mat b b (facF .Upper (sh a a (entry μ C))) := fun ξ hξ => by
        show mat b b (triF .Upper .NonUnit (sh a a (entry ξ C))) =
          mat b b (triF .Upper .NonUnit (sh a a (entry μ C)))
        exact mat_triF_congr (g := sh a a (entry ξ C)) (h := sh a a (entry μ C))
          (fun _ i hi => hξ i i hi hi) (fun i j hi hj _ _ => hξ i j hi hj)
      have m11 := tri ν3 (fun i j hi hj => ((c3 _ _ (by omega) (by omega) (by omega)).trans
          (c2 _ _ (by omega) (by omega) (by omega))).trans (c1 _ _ (by omega) (by omega) (by omega)))
      have m11' := tri ν2 (fun i j hi hj =>
          (c2 _ _ (by omega) (by omega) (by omega)).trans (c1 _ _ (by omega) (by omega) (by omega)))
      refine ⟨so, hermRes_blocks (Or.inl rfl) (fun i hi => ?_) ?_ ?_ ?_⟩
      · by_cases hia : i < a
        · rw [c4 i i hi hi (by omega), c3 i i hi hi (by omega)]
          have := d2 i hia
          rw [sh_entry, sh_zero] at this
          exact this
        · have := r4.diag (i - a) (by omega)
          rw [sh_entry] at this
          simpa [sh, show a + (i - a) = i by omega] using this
      · have hk : mat a a (hermF .Upper (entry ν4 C)) = mat a a (hermF .Upper (entry ν2 C)) :=
          mat_hermF_congr (Or.inl rfl) (fun i j hi hj _ =>
            (c4 i j (by omega) (by omega) (by omega)).trans (c3 i j (by omega) (by omega) (by omega)))
        have e2' := e2
        simp only [sh_entry, sh_zero] at e2'
        rw [hk, e2', mul_ct_inner, f01]
        have r1' := r1.eq
        rw [sh_entry, sh_zero, sh_entry, sh_zero] at r1'
        rw [r1', Coef.toVal, one_smul, one_smul, add_comm]
        congr 1
        show mat a b (sh 0 a (entry ν1 C)) * (mat a b (sh 0 a (entry ν1 C))).conjTranspose = _
        rw [m01]
      · have := r4.eq
        simp only [sh_entry] at this
        rw [this, mul_ct_inner, sh_sh, f10,
          Matrix.zero_mul, zero_add, Nat.add_zero, Nat.zero_add, f11, m11]
      · rw [if_pos rfl, mul_ct_inner, sh_sh, f10, f01,
          Matrix.conjTranspose_zero, Matrix.mul_zero, zero_add, Nat.add_zero, Nat.zero_add, f11]
        have h01 : mat a b (sh 0 a (entry ν4 C)) = mat a b (sh 0 a (entry ν3 C)) := by
          rw [mat_ext_iff]; intro i j hi hj; exact c4 _ _ (by omega) (by omega) (by omega)
        have e3' := e3
        simp only [sh_entry] at e3'
        rw [one_smul] at e3'
        rw [h01, e3']
        have hx : mat a b (sh 0 a (entry ν2 C)) = mat a b (sh 0 a (entry μ C)) := by
          rw [mat_ext_iff]; intro i j hi hj
          exact (c2 _ _ (by omega) (by omega) (by omega)).trans (c1 _ _ (by omega) (by omega) (by omega))
        rw [hx, ← m11']
        rfl
    · simp only [if_true, wp_bind]
      refine wp_slice (by omega) (by omega) (by omega) (by omega) ?_
      refine wp_conseq (wp_herk_m (n := a) (k := b) ⟨Or.inr (Or.inl rfl), Or.inr rfl, by simp [MatV.sub],
        by simp [MatV.sub], rfl, rfl, rfl, rfl, hC.sub (by omega) (by omega),
        hC.disj_sub (by omega) (by omega) (by omega) (by omega) (by omega),
        hC.disj_sub (by omega) (by omega) (by omega) (by omega) (by omega)⟩ (Or.inr rfl) (by simp)
        (by simp [Coef.toVal])) ?_
      rintro _ ν2 ⟨o2, d2, e2⟩
      have c2 : ∀ i j, i < a + b → j < a + b → (a ≤ i ∨ a ≤ j) → entry ν2 C i j = entry ν1 C i j :=
        fun i j hi hj ho => o2.only.out hC (by omega) (by omega) (by omega) (by omega) (by omega)
      refine wp_conseq (wp_trmmL_m (m := b) (n := a) (by simp [MatV.sub]) (by simp [MatV.sub])
        ⟨Or.inl rfl, Or.inr rfl, by decide, rfl, rfl, hC.sub (by omega) (by omega),
        hC.disj_sub (by omega) (by omega) (by omega) (by omega) (by omega)⟩) ?_
      rintro _ ν3 ⟨o3, e3⟩
      have c3 : ∀ i j, i < a + b → j < a + b → (a ≤ j ∨ i < a) → entry ν3 C i j = entry ν2 C i j :=
        fun i j hi hj ho => o3.out hC (by omega) (by omega) (by omega) (by omega) (by omega)
      refine wp_conseq (ih b (by omega) (C.sub a (a + b) a (a + b)) ν3 (by simp [MatV.sub])
        (by simp [MatV.sub]) (hC.sub (by omega) (by omega))) ?_
      rintro _ ν4 ⟨o4, r4⟩
      have c4 : ∀ i j, i < a + b → j < a + b → (i < a ∨ j < a) → entry ν4 C i j = entry ν3 C i j :=
        fun i j hi hj ho => o4.only.out hC (by omega) (by omega) (by omega) (by omega) (by omega)
      have so : SameOff C .Lower μ ν4 :=
        (((o1.sub (Or.inr rfl) (by omega) (by omega)).trans (o2.sub (Or.inr rfl) (by omega) (by omega))).trans
          (o3.sameOff (by omega) (by omega) (fun i j _ _ _ _ => show j ≤ i by omega))).trans
          (o4.sub (Or.inr rfl) (by omega) (by omega))
      -- blocks of the input
      have f01 : mat a b (sh 0 a (facF .Lower (entry μ C))) =
          (mat b a (sh a 0 (entry μ C))).conjTranspose := by
        rw [show facF .Lower (entry μ C) = starT (triF .Lower .NonUnit (entry μ C)) from rfl, sh_starT,
          mat_starT, triL_10]
      have f10 : mat b a (sh a 0 (facF .Lower (entry μ C))) = 0 := by
        rw [show facF .Lower (entry μ C) = starT (triF .Lower .NonUnit (entry μ C)) from rfl, sh_starT,
          mat_starT, triL_01, Matrix.conjTranspose_zero]
      have f11 : sh a a (facF .Lower (entry μ C)) = facF .Lower (sh a a (entry μ C)) := by
        show sh a a (starT (triF .Lower .NonUnit (entry μ C))) = _
        rw [sh_starT, triF_sh (Or.inr rfl)]
        rfl
      have m01 : mat b a (sh a 0 (entry ν1 C)) = mat b a (sh a 0 (entry μ C)) := by
        rw [mat_ext_iff]; intro i j hi hj; exact c1 _ _ (by omega) (by omega) (by omega)
      have tri : ∀ ξ : Store L T, (∀ i j, i < b → j < b → entry ξ C (a + i) (a + j) =
          entry μ C (a + i) (a + j)) → mat b b (triF .Lower .NonUnit (sh a a (entry ξ C))) =
          mat b b (triF .Lower .NonUnit (sh a a (entry μ C))) := fun ξ hξ =>
        mat_triF_congr (fun _ i hi => hξ i i hi hi) (fun i j hi hj _ _ => hξ i j hi hj)
      have m11 : mat b b (facF .Lower (sh a a (entry ν3 C))) = mat b b (facF .Lower (sh a a (entry μ C))) := by
        show mat b b (starT _) = mat b b (starT _)
        rw [mat_starT, mat_starT, tri ν3 (fun i j hi hj => ((c3 _ _ (by omega) (by omega) (by omega)).trans
          (c2 _ _ (by omega) (by omega) (by omega))).trans (c1 _ _ (by omega) (by omega) (by omega)))]
      refine ⟨so, hermRes_blocks (Or.inr rfl) (fun i hi => ?_) ?_ ?_ ?_⟩
      · by_cases hia : i < a
        · rw [c4 i i hi hi (by omega), c3 i i hi hi (by omega)]
          have := d2 i hia
          rw [sh_entry, sh_zero] at this
          exact this
        · have := r4.diag (i - a) (by omega)
          rw [sh_entry] at this
          simpa [sh, show a + (i - a) = i by omega] using this
      · have hk : mat a a (hermF .Lower (entry ν4 C)) = mat a a (hermF .Lower (entry ν2 C)) :=
          mat_hermF_congr (Or.inr rfl) (fun i j hi hj _ =>
            (c4 i j (by omega) (by omega) (by omega)).trans (c3 i j (by omega) (by omega) (by omega)))
        have e2' := e2
        simp only [sh_entry, sh_zero] at e2'
        rw [hk, e2', mul_ct_inner, f01]
        have r1' := r1.eq
        rw [sh_entry, sh_zero, sh_entry, sh_zero] at r1'
        rw [r1', Coef.toVal, one_smul, one_smul, add_comm]
        congr 1
        show (mat b a (sh a 0 (entry ν1 C))).conjTranspose *
          ((mat b a (sh a 0 (entry ν1 C))).conjTranspose).conjTranspose = _
        rw [m01]
      · have := r4.eq
        simp only [sh_entry] at this
        rw [this, mul_ct_inner, sh_sh, f10,
          Matrix.zero_mul, zero_add, Nat.add_zero, Nat.zero_add, f11, m11]
      · rw [if_neg (by decide), mul_ct_inner, sh_sh, f10, f01,
          Matrix.zero_mul, zero_add, Nat.add_zero, Nat.zero_add, f11, Matrix.conjTranspose_conjTranspose]
        have h01 : mat b a (sh a 0 (entry ν4 C)) = mat b a (sh a 0 (entry ν3 C)) := by
          rw [mat_ext_iff]; intro i j hi hj; exact c4 _ _ (by omega) (by omega) (by omega)
        have e3' := e3
        simp only [sh_entry] at e3'
        rw [one_smul] at e3'
        rw [h01, e3']
        have hx : mat b a (sh a 0 (entry ν2 C)) = mat b a (sh a 0 (entry μ C)) := by
          rw [mat_ext_iff]; intro i j hi hj
          exact (c2 _ _ (by omega) (by omega) (by omega)).trans (c1 _ _ (by omega) (by omega) (by omega))
        rw [hx]
        congr 1
        show (mat b b (triF .Lower .NonUnit (sh a a (entry ν2 C)))).conjTranspose =
          (mat b b (triF .Lower .NonUnit (sh a a (entry μ C)))).conjTranspose
        rw [tri ν2 (fun i j hi hj =>
          (c2 _ _ (by omega) (by omega) (by omega)).trans (c1 _ _ (by omega) (by omega) (by omega)))]

end herm
end TLA
