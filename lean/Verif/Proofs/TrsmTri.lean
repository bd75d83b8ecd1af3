import Verif.Proofs.TrmmOut

set_option linter.unusedTactic false
set_option linter.unreachableTactic false
set_option linter.unusedSectionVars false
set_option linter.unusedVariables false

/-! trsm_tri: triangular solve with a triangular right-hand side. -/

namespace TLA
variable {L T : Type} [DecidableEq L]
open Finset

theorem MState.sameOffP {C : MatV L} {u : Uplo} {μ ν : Store L T} {G : Nat → Nat → T} (h : MState C μ G ν)
    (hG : ∀ i j, i < C.m → j < C.n → ¬ inTri u i j → G i j = entry μ C i j) : SameOff C u μ ν := by
  intro l hl
  by_cases ho : C.Owns l
  · obtain ⟨i, j, hi, hj, rfl⟩ := ho
    rw [h.val i j hi hj, hG i j hi hj (fun ht => hl i j hi hj ht rfl)]
    rfl
  · exact h.frame l ho

variable [Field T] [StarRing T]

/-- op of a triangular matrix. -/
theorem opF_triF {op : Op} (hop : op ≠ .Conj) {u : Uplo} (hu : u = .Upper ∨ u = .Lower) (d : Diag)
    (g : Nat → Nat → T) :
    opF op (triF (if op ≠ .NoTrans then (if u = .Upper then .Lower else .Upper) else u) d g) =
      triF u d (opF op g) := by
  funext i j
  by_cases e : i = j
  · subst e
    rcases hu with rfl | rfl <;> cases op <;> simp at hop <;> cases d <;> simp [opF, triF]
  · have e' : ¬ j = i := fun h => e h.symm
    by_cases h1 : i ≤ j <;> by_cases h2 : j ≤ i <;> rcases hu with rfl | rfl <;> cases op <;>
      simp at hop <;> simp [opF, triF, inTri, e, e', h1, h2]

theorem tri_range {u : Uplo} (hu : u = .Upper ∨ u = .Lower) {n i j : Nat} (hi : i < n) :
    (triLo u j ≤ i ∧ i < triHi u n j) ↔ inTri u i j := by
  rcases hu with rfl | rfl <;> simp [triLo, triHi, inTri] <;> omega

theorem wp_trsmTriScale {u : Uplo} (hu : u = .Upper ∨ u = .Lower) {alpha : T} {B : MatV L} {μ : Store L T}
    {n : Nat} (hm : B.m = n) (hn : B.n = n) (hB : B.Inj) :
    wp (trsmTriScale u alpha B n) μ (fun _ ν => SameOff B u μ ν ∧
      ∀ i j, i < n → j < n → inTri u i j → entry ν B i j = alpha * entry μ B i j) := by
  unfold trsmTriScale
  refine wp_conseq (wp_forCols (fun i j => if inTri u i j then alpha * entry μ B i j else entry μ B i j) hn.symm
    (MState.start B μ) ?_) ?_
  · intro j ν hj hν
    refine wp_conseq (wp_colLoop (j := j) (fun i => alpha * entry μ B i j) hν hB hj
      (by rcases hu with rfl | rfl <;> simp [triHi] <;> omega)
      (by rcases hu with rfl | rfl <;> simp [triHi, triLo] <;> omega) ?_) ?_
    · intro i ν' h1 h2 hν'
      have hi : i < B.m := by rcases hu with rfl | rfl <;> simp [triHi] at h2 <;> omega
      rw [wp_modify]
      refine ⟨⟨hi, hj⟩, ?_⟩
      have e := hν'.val i j hi hj
      rw [if_neg (by omega), if_neg (by omega)] at e
      rw [e, mul_comm]
    · intro _ ν' hν'
      refine hν'.congr (fun i' j' h1 h2 => ?_)
      by_cases e : j' = j
      · subst e
        by_cases ht : inTri u i' j'
        · rw [if_pos rfl, if_pos ht, if_pos ⟨rfl, (tri_range hu (by omega)).2 ht⟩]
        · rw [if_pos rfl, if_neg ht, if_neg (fun h => ht ((tri_range hu (by omega)).1 h.2)),
            if_neg (lt_irrefl _)]
      · simp [e]
  · intro _ ν hν
    refine ⟨hν.sameOffP (fun i j _ _ h => if_neg h), fun i j hi hj ht => ?_⟩
    have := hν.val i j (by omega) (by omega)
    rwa [if_pos ht] at this

/-- The solution by blocks, `A` on the left, Upper. -/
theorem blk_LU {a b : Nat} {t x c : Nat → Nat → T} {d : Diag}
    (h00 : mat a a (triF .Upper d t) * mat a a (triF .Upper .NonUnit x) = mat a a (triF .Upper .NonUnit c))
    (h11 : mat b b (triF .Upper d (sh a a t)) * mat b b (triF .Upper .NonUnit (sh a a x)) =
      mat b b (triF .Upper .NonUnit (sh a a c)))
    (h01 : mat a a (triF .Upper d t) * mat a b (sh 0 a x) +
      mat a b (sh 0 a t) * mat b b (triF .Upper .NonUnit (sh a a x)) = mat a b (sh 0 a c)) :
    mat (a + b) (a + b) (triF .Upper d t) * mat (a + b) (a + b) (triF .Upper .NonUnit x) =
      mat (a + b) (a + b) (triF .Upper .NonUnit c) := by
  rw [mat_mulF]
  refine mat_ext4 ?_ ?_ ?_ ?_
  · rw [← mat_mulF, mat_mul_inner, triU_01, triU_10, Matrix.mul_zero, add_zero, h00]
  · rw [mat_mul_block, mat_mul_inner]
    simp only [sh_sh, sh_zero, Nat.zero_add, Nat.add_zero]
    rw [triU_01, triU_01, triU_01, triF_sh (Or.inl rfl), h01]
  · rw [mat_mul_block, mat_mul_inner]
    simp only [sh_sh, sh_zero, Nat.zero_add, Nat.add_zero]
    rw [triU_10, triU_10, triU_10, Matrix.zero_mul, Matrix.mul_zero, add_zero]
  · rw [mat_mul_block, mat_mul_inner]
    simp only [sh_sh, sh_zero, Nat.zero_add, Nat.add_zero]
    rw [triU_10, Matrix.zero_mul, zero_add, triF_sh (Or.inl rfl), triF_sh (Or.inl rfl), triF_sh (Or.inl rfl), h11]

theorem blk_LL {a b : Nat} {t x c : Nat → Nat → T} {d : Diag}
    (h00 : mat a a (triF .Lower d t) * mat a a (triF .Lower .NonUnit x) = mat a a (triF .Lower .NonUnit c))
    (h11 : mat b b (triF .Lower d (sh a a t)) * mat b b (triF .Lower .NonUnit (sh a a x)) =
      mat b b (triF .Lower .NonUnit (sh a a c)))
    (h10 : mat b b (triF .Lower d (sh a a t)) * mat b a (sh a 0 x) +
      mat b a (sh a 0 t) * mat a a (triF .Lower .NonUnit x) = mat b a (sh a 0 c)) :
    mat (a + b) (a + b) (triF .Lower d t) * mat (a + b) (a + b) (triF .Lower .NonUnit x) =
      mat (a + b) (a + b) (triF .Lower .NonUnit c) := by
  rw [mat_mulF]
  refine mat_ext4 ?_ ?_ ?_ ?_
  · rw [← mat_mulF, mat_mul_inner, triL_01, triL_10, Matrix.zero_mul, add_zero, h00]
  · rw [mat_mul_block, mat_mul_inner]
    simp only [sh_sh, sh_zero, Nat.zero_add, Nat.add_zero]
    rw [triL_01, triL_01, triL_01, Matrix.zero_mul, Matrix.mul_zero, add_zero]
  · rw [mat_mul_block, mat_mul_inner]
    simp only [sh_sh, sh_zero, Nat.zero_add, Nat.add_zero]
    rw [triL_10, triL_10, triL_10, triF_sh (Or.inr rfl), add_comm, h10]
  · rw [mat_mul_block, mat_mul_inner]
    simp only [sh_sh, sh_zero, Nat.zero_add, Nat.add_zero]
    rw [triL_01, Matrix.mul_zero, zero_add, triF_sh (Or.inr rfl), triF_sh (Or.inr rfl), triF_sh (Or.inr rfl), h11]

theorem blk_RU {a b : Nat} {t x c : Nat → Nat → T} {d : Diag}
    (h00 : mat a a (triF .Upper .NonUnit x) * mat a a (triF .Upper d t) = mat a a (triF .Upper .NonUnit c))
    (h11 : mat b b (triF .Upper .NonUnit (sh a a x)) * mat b b (triF .Upper d (sh a a t)) =
      mat b b (triF .Upper .NonUnit (sh a a c)))
    (h01 : mat a b (sh 0 a x) * mat b b (triF .Upper d (sh a a t)) +
      mat a a (triF .Upper .NonUnit x) * mat a b (sh 0 a t) = mat a b (sh 0 a c)) :
    mat (a + b) (a + b) (triF .Upper .NonUnit x) * mat (a + b) (a + b) (triF .Upper d t) =
      mat (a + b) (a + b) (triF .Upper .NonUnit c) := by
  rw [mat_mulF]
  refine mat_ext4 ?_ ?_ ?_ ?_
  · rw [← mat_mulF, mat_mul_inner, triU_01, triU_10, Matrix.mul_zero, add_zero, h00]
  · rw [mat_mul_block, mat_mul_inner]
    simp only [sh_sh, sh_zero, Nat.zero_add, Nat.add_zero]
    rw [triU_01, triU_01, triU_01, triF_sh (Or.inl rfl), add_comm, h01]
  · rw [mat_mul_block, mat_mul_inner]
    simp only [sh_sh, sh_zero, Nat.zero_add, Nat.add_zero]
    rw [triU_10, triU_10, triU_10, Matrix.zero_mul, Matrix.mul_zero, add_zero]
  · rw [mat_mul_block, mat_mul_inner]
    simp only [sh_sh, sh_zero, Nat.zero_add, Nat.add_zero]
    rw [triU_10, Matrix.zero_mul, zero_add, triF_sh (Or.inl rfl), triF_sh (Or.inl rfl), triF_sh (Or.inl rfl), h11]

theorem blk_RL {a b : Nat} {t x c : Nat → Nat → T} {d : Diag}
    (h00 : mat a a (triF .Lower .NonUnit x) * mat a a (triF .Lower d t) = mat a a (triF .Lower .NonUnit c))
    (h11 : mat b b (triF .Lower .NonUnit (sh a a x)) * mat b b (triF .Lower d (sh a a t)) =
      mat b b (triF .Lower .NonUnit (sh a a c)))
    (h10 : mat b a (sh a 0 x) * mat a a (triF .Lower d t) +
      mat b b (triF .Lower .NonUnit (sh a a x)) * mat b a (sh a 0 t) = mat b a (sh a 0 c)) :
    mat (a + b) (a + b) (triF .Lower .NonUnit x) * mat (a + b) (a + b) (triF .Lower d t) =
      mat (a + b) (a + b) (triF .Lower .NonUnit c) := by
  rw [mat_mulF]
  refine mat_ext4 ?_ ?_ ?_ ?_
  · rw [← mat_mulF, mat_mul_inner, triL_01, triL_10, Matrix.zero_mul, add_zero, h00]
  · rw [mat_mul_block, mat_mul_inner]
    simp only [sh_sh, sh_zero, Nat.zero_add, Nat.add_zero]
    rw [triL_01, triL_01, triL_01, Matrix.zero_mul, Matrix.mul_zero, add_zero]
  · rw [mat_mul_block, mat_mul_inner]
    simp only [sh_sh, sh_zero, Nat.zero_add, Nat.add_zero]
    rw [triL_10, triL_10, triL_10, triF_sh (Or.inr rfl), h10]
  · rw [mat_mul_block, mat_mul_inner]
    simp only [sh_sh, sh_zero, Nat.zero_add, Nat.add_zero]
    rw [triL_01, Matrix.mul_zero, zero_add, triF_sh (Or.inr rfl), triF_sh (Or.inr rfl), triF_sh (Or.inr rfl), h11]

theorem mat_tri_congr' {n : Nat} {u : Uplo} {d : Diag} {g h : Nat → Nat → T}
    (e : ∀ i j, i < n → j < n → g i j = h i j) : mat n n (triF u d g) = mat n n (triF u d h) :=
  mat_triF_congr (fun _ i hi => e i i hi hi) (fun i j hi hj _ _ => e i j hi hj)

theorem Only.blkP {A : MatV L} {μ ν : Store L T} {r0 r1 c0 c1 : Nat}
    (h : Only (A.sub r0 r1 c0 c1) μ ν) (hA : A.Inj) (hr : r1 ≤ A.m) (hc : c1 ≤ A.n) {p q r c : Nat}
    (hp : r + p ≤ A.m) (hq : c + q ≤ A.n) (ho : r + p ≤ r0 ∨ r1 ≤ r ∨ c + q ≤ c0 ∨ c1 ≤ c) :
    ∀ i j, i < p → j < q → sh r c (entry ν A) i j = sh r c (entry μ A) i j :=
  fun i j hi hj => h.out hA hr hc (by omega) (by omega) (by omega)

/-- `op(A)` as a triangular matrix of the shape of `B`. -/
theorem mat_op_keep {op : Op} (hop : op ≠ .Conj) {u : Uplo} {d : Diag} {A : MatV L} {μ ν : Store L T} {n p q : Nat}
    (hm : A.m = n) (hn : A.n = n) (hq : p + q ≤ n)
    (hk : ∀ i j, i < A.m → j < A.n → entry ν A i j = entry μ A i j) :
    mat q q (triF u d (sh p p (opF op (entry ν A)))) = mat q q (triF u d (sh p p (opF op (entry μ A)))) := by
  refine mat_triF_congr (fun _ i hi => ?_) (fun i j hi hj _ _ => ?_) <;>
    cases op <;> simp at hop <;> simp only [sh, opF] <;> rw [hk _ _ (by omega) (by omega)]

theorem sameOff_tri {B : MatV L} {u : Uplo} {μ ν : Store L T} {n : Nat} (hm : B.m = n) (hn : B.n = n)
    (h : ∀ i j, i < n → j < n → inTri u i j → entry ν B i j = entry μ B i j) (hu : u = .Upper ∨ u = .Lower) :
    mat n n (triF u .NonUnit (entry ν B)) = mat n n (triF u .NonUnit (entry μ B)) :=
  mat_triF_congr (fun _ i hi => h i i hi hi (by rcases hu with rfl | rfl <;> exact le_refl i))
    (fun i j hi hj _ ht => h i j hi hj ht)

set_option maxHeartbeats 2000000 in
theorem wp_trsmTri_L {u : Uplo} (hu : u = .Upper ∨ u = .Lower) {transA : Op} (hop : transA ≠ .Conj)
    {diagA : Diag} : ∀ (n : Nat) {alpha : T} {A B : MatV L} {μ : Store L T}, 0 < n → A.m = n → A.n = n → B.m = n →
    B.n = n → B.Inj → A.Disj B → (diagA = .NonUnit → ∀ i, i < n → entry μ A i i ≠ 0) →
    wp (trsmTri .Left u transA diagA alpha A B) μ (fun _ ν => SameOff B u μ ν ∧
      mat n n (triF u diagA (opF transA (entry μ A))) * mat n n (triF u .NonUnit (entry ν B)) =
        alpha • mat n n (triF u .NonUnit (entry μ B))) := by
  intro n
  induction n using Nat.strong_induction_on with
  | _ n ih =>
    intro alpha A B μ h0 ham han hbm hbn hB hAB hd
    rw [trsmTri]
    simp only [ham, wp_bind]
    refine wp_conseq (wp_trsmTriScale hu hbm hbn hB) ?_
    rintro _ ν0 ⟨s0, e0⟩
    have sc : alpha • mat n n (triF u .NonUnit (entry μ B)) = mat n n (triF u .NonUnit (entry ν0 B)) := by
      rw [mat_smul, mat_ext_iff]
      intro i j hi hj
      unfold triF
      by_cases e : i = j
      · subst e
        rw [if_pos rfl, if_pos rfl]
        exact (e0 i i hi hi (by rcases hu with rfl | rfl <;> exact le_refl i)).symm
      · rw [if_neg e, if_neg e]
        by_cases ht : inTri u i j
        · rw [if_pos ht, if_pos ht, e0 i j hi hj ht]
        · rw [if_neg ht, if_neg ht, mul_zero]
    have k0 := s0.only.keep hAB
    by_cases h1 : n = 1
    · subst h1
      rw [dif_pos rfl]
      rw [sc]
      cases diagA
      · simp only [reduceCtorEq, reduceIte, wp_bind]
        refine wp_getE ⟨by omega, by omega⟩ ?_
        rw [wp_modify]
        refine ⟨⟨by omega, by omega⟩, ?_⟩
        refine ⟨s0.trans (upd_sameOff (by omega) (by omega) (by rcases hu with rfl | rfl <;> exact le_refl 0)), ?_⟩
        rw [mat_mul, mat_ext_iff]
        intro i j hi hj
        obtain rfl : i = 0 := by omega
        obtain rfl : j = 0 := by omega
        have hne := hd rfl 0 (by omega)
        have ka := k0 0 0 (by omega) (by omega)
        simp only [entry] at ka
        simp only [triF, if_pos, Finset.sum_range_one]
        rw [upd_in, ka]
        cases transA <;> simp at hop <;> simp only [opF, reduceCtorEq, reduceIte, entry]
        · exact mul_div_cancel₀ _ hne
        · exact mul_div_cancel₀ _ hne
        · exact mul_div_cancel₀ _ (star_ne_zero.2 hne)
      · simp only [reduceCtorEq, reduceIte, wp_pure]
        refine ⟨s0, ?_⟩
        rw [mat_mul, mat_ext_iff]
        intro i j hi hj
        obtain rfl : i = 0 := by omega
        obtain rfl : j = 0 := by omega
        simp [triF]
    rw [dif_neg h1]
    obtain ⟨a, b, ha, hb, hab, hdiv⟩ : ∃ a b, 0 < a ∧ 0 < b ∧ n = a + b ∧ n / 2 = a :=
      ⟨n / 2, n - n / 2, by omega, by omega, by omega, rfl⟩
    simp only [hdiv, wp_bind]
    subst hab
    iterate 8 refine wp_sliceChk (by omega) (by omega) (by omega) (by omega) ?_
    rw [dif_neg (by omega)]
    simp only [wp_bind]
    have hB0 : (B.sub 0 a 0 a).Inj := hB.sub (by omega) (by omega)
    have hB1 : (B.sub a (a + b) a (a + b)).Inj := hB.sub (by omega) (by omega)
    have hA0 : (A.sub 0 a 0 a).Disj B := hAB.sub_left (by omega) (by omega)
    have hA1 : (A.sub a (a + b) a (a + b)).Disj B := hAB.sub_left (by omega) (by omega)
    refine wp_conseq (ih a (by omega) ha (by simp [MatV.sub]) (by simp [MatV.sub]) (by simp [MatV.sub])
      (by simp [MatV.sub]) hB0 (hA0.sub_right (by omega) (by omega)) (fun e i hi => by
        have := hd e i (by omega)
        rw [← k0 i i (by omega) (by omega)] at this
        simpa [entry, MatV.sub] using this)) ?_
    rintro _ ν1 ⟨s1, e1⟩
    have o1 := s1.only
    have O1 : Only B μ ν1 := s0.only.trans (o1.sub (by omega) (by omega))
    have k1 := O1.keep hAB
    refine wp_conseq (ih b (by omega) hb (by simp [MatV.sub]) (by simp [MatV.sub]) (by simp [MatV.sub])
      (by simp [MatV.sub]) hB1 (hA1.sub_right (by omega) (by omega)) (fun e i hi => by
        have := hd e (a + i) (by omega)
        rw [← k1 (a + i) (a + i) (by omega) (by omega)] at this
        simpa [entry, MatV.sub] using this)) ?_
    rintro _ ν2 ⟨s2, e2⟩
    have o2 := s2.only
    have O2 : Only B μ ν2 := O1.trans (o2.sub (by omega) (by omega))
    have k2 := O2.keep hAB
    rw [show opF transA (entry ν0 (A.sub 0 a 0 a)) = sh 0 0 (opF transA (entry ν0 A)) by
        cases transA <;> rfl, mat_op_keep hop ham han (by omega) k0] at e1
    rw [show opF transA (entry ν1 (A.sub a (a + b) a (a + b))) = sh a a (opF transA (entry ν1 A)) by
        cases transA <;> rfl, mat_op_keep hop ham han (by omega) k1] at e2
    simp only [sh_entry, sh_zero, one_smul] at e1 e2
    rw [sc]
    have hot : ∀ r0 r1 c0 c1, r1 ≤ a + b → c1 ≤ a + b → (opSub transA A r0 r1 c0 c1).Disj B := by
      intro r0 r1 c0 c1 h1 h2
      exact opSub_disj_left hAB (by simp only [opRows]; split <;> omega) (by simp only [opCols]; split <;> omega)
    have opr : opRows transA A = a + b := by simp only [opRows]; split <;> omega
    have opc : opCols transA A = a + b := by simp only [opCols]; split <;> omega
    unfold trsmTriOff trmmOut
    have hfl : (if transA ≠ .NoTrans then (if u = .Upper then Uplo.Lower else .Upper) else u) = .Upper ∨
      (if transA ≠ .NoTrans then (if u = .Upper then Uplo.Lower else .Upper) else u) = .Lower := by
      rcases hu with rfl | rfl <;> split <;> simp
    have opt := fun g => opF_triF hop hu diagA g (T := T)
    generalize hfe : (if transA ≠ .NoTrans then (if u = .Upper then Uplo.Lower else .Upper) else u) = uA at hfl opt ⊢
    have dg1 := o1.blkP hB (by omega) (by omega) (p := b) (q := b) (r := a) (c := a) (by omega) (by omega) (by omega)
    have dg2 := o2.blk hB (by omega) (by omega) (p := a) (q := a) (r := 0) (c := 0) (by omega) (by omega) (by omega)
    have dg2' := o2.blkP hB (by omega) (by omega) (p := a) (q := a) (r := 0) (c := 0) (by omega) (by omega) (by omega)
    rcases hu with rfl | rfl
    · simp only [reduceCtorEq, reduceIte, wp_bind]
      refine wp_opSlice (by omega) (by omega) (by omega) (by omega) ?_
      refine wp_conseq (wp_trmmOutR (Or.inl rfl) hop b (m := a) hb (by rw [opRows_sub]; omega)
        (by rw [opCols_sub]; omega) (by simp [MatV.sub]) (by simp [MatV.sub]) (by simp [MatV.sub])
        (by simp [MatV.sub]) (hB.sub (by omega) (by omega))
        (hB.disj_sub (by omega) (by omega) (by omega) (by omega) (by omega))
        ((hot _ _ _ _ (by omega) (by omega)).sub_right (by omega) (by omega))) ?_
      rintro _ ν3 ⟨o3, e3⟩
      have O3 : Only B μ ν3 := O2.trans (o3.sub (by omega) (by omega))
      have k3 := O3.keep hAB
      refine wp_conseq (wp_trsmL_m (m := a) (n := b) (by simp [MatV.sub]) (by simp [MatV.sub])
        ⟨Or.inl rfl, hfl, hop, rfl, rfl, hB.sub (by omega) (by omega),
          hA0.sub_right (by omega) (by omega)⟩ (fun e i hi => by
        have := hd e i (by omega)
        rw [← k3 i i (by omega) (by omega)] at this
        simpa [entry, MatV.sub] using this)) ?_
      rintro _ ν4 ⟨o4, e4⟩
      refine ⟨(((s0.trans (s1.sub (Or.inl rfl) (by omega) (by omega))).trans
        (s2.sub (Or.inl rfl) (by omega) (by omega))).trans
        (o3.sameOff (by omega) (by omega) (fun i j _ _ _ _ => by show i ≤ j; omega))).trans
        (o4.sameOff (by omega) (by omega) (fun i j _ _ _ _ => by show i ≤ j; omega)), ?_⟩
      rw [opt, show opF transA (entry ν3 (A.sub 0 a 0 a)) = sh 0 0 (opF transA (entry ν3 A)) by
        cases transA <;> rfl, mat_op_keep hop ham han (by omega) k3] at e4
      rw [opF_opSub hop] at e3
      simp only [sh_entry, sh_zero, one_smul, Coef.toVal] at e3 e4
      have m01 : mat a b (sh 0 a (opF transA (entry ν2 A))) = mat a b (sh 0 a (opF transA (entry μ A))) := by
        rw [mat_ext_iff]
        intro i j hi hj
        cases transA <;> simp at hop <;> simp only [sh, opF] <;> rw [k2 _ _ (by omega) (by omega)]
      rw [m01] at e3
      -- the blocks at the end
      have f3 := o3.blkP hB (by omega) (by omega) (p := a) (q := a) (r := 0) (c := 0) (by omega) (by omega) (by omega)
      have f3' := o3.blkP hB (by omega) (by omega) (p := b) (q := b) (r := a) (c := a) (by omega) (by omega) (by omega)
      have f4 := o4.blkP hB (by omega) (by omega) (p := a) (q := a) (r := 0) (c := 0) (by omega) (by omega) (by omega)
      have f4' := o4.blkP hB (by omega) (by omega) (p := b) (q := b) (r := a) (c := a) (by omega) (by omega) (by omega)
      have g1 := o1.blk hB (by omega) (by omega) (p := a) (q := b) (r := 0) (c := a) (by omega) (by omega) (by omega)
      have g2 := o2.blk hB (by omega) (by omega) (p := a) (q := b) (r := 0) (c := a) (by omega) (by omega) (by omega)
      simp only [sh_zero] at f3 f4 dg2'
      have x00 : mat a a (triF .Upper .NonUnit (entry ν4 B)) = mat a a (triF .Upper .NonUnit (entry ν1 B)) :=
        mat_tri_congr' (fun i j hi hj => by rw [f4 i j hi hj, f3 i j hi hj, dg2' i j hi hj])
      have x11 : mat b b (triF .Upper .NonUnit (sh a a (entry ν4 B))) =
          mat b b (triF .Upper .NonUnit (sh a a (entry ν2 B))) :=
        mat_tri_congr' (fun i j hi hj => by rw [f4' i j hi hj, f3' i j hi hj])
      have c11 : mat b b (triF .Upper .NonUnit (sh a a (entry ν1 B))) =
          mat b b (triF .Upper .NonUnit (sh a a (entry ν0 B))) :=
        mat_tri_congr' (fun i j hi hj => by rw [dg1 i j hi hj])
      refine blk_LU ?_ ?_ ?_
      · rw [x00, e1]
      · rw [x11, e2, c11]
      · rw [x11, e4, e3, g2, g1, neg_one_smul]
        abel
    · simp only [reduceCtorEq, reduceIte, wp_bind]
      refine wp_opSlice (by omega) (by omega) (by omega) (by omega) ?_
      refine wp_conseq (wp_trmmOutR (Or.inr rfl) hop a (m := b) ha (by rw [opRows_sub]; omega)
        (by rw [opCols_sub]; omega) (by simp [MatV.sub]) (by simp [MatV.sub]) (by simp [MatV.sub])
        (by simp [MatV.sub]) (hB.sub (by omega) (by omega))
        (hB.disj_sub (by omega) (by omega) (by omega) (by omega) (by omega))
        ((hot _ _ _ _ (by omega) (by omega)).sub_right (by omega) (by omega))) ?_
      rintro _ ν3 ⟨o3, e3⟩
      have O3 : Only B μ ν3 := O2.trans (o3.sub (by omega) (by omega))
      have k3 := O3.keep hAB
      refine wp_conseq (wp_trsmL_m (m := b) (n := a) (by simp [MatV.sub]) (by simp [MatV.sub])
        ⟨Or.inl rfl, hfl, hop, rfl, rfl, hB.sub (by omega) (by omega),
          hA1.sub_right (by omega) (by omega)⟩ (fun e i hi => by
        have := hd e (a + i) (by omega)
        rw [← k3 (a + i) (a + i) (by omega) (by omega)] at this
        simpa [entry, MatV.sub] using this)) ?_
      rintro _ ν4 ⟨o4, e4⟩
      refine ⟨(((s0.trans (s1.sub (Or.inr rfl) (by omega) (by omega))).trans
        (s2.sub (Or.inr rfl) (by omega) (by omega))).trans
        (o3.sameOff (by omega) (by omega) (fun i j _ _ _ _ => by show j ≤ i; omega))).trans
        (o4.sameOff (by omega) (by omega) (fun i j _ _ _ _ => by show j ≤ i; omega)), ?_⟩
      rw [opt, show opF transA (entry ν3 (A.sub a (a + b) a (a + b))) = sh a a (opF transA (entry ν3 A)) by
        cases transA <;> rfl, mat_op_keep hop ham han (by omega) k3] at e4
      rw [opF_opSub hop] at e3
      simp only [sh_entry, sh_zero, one_smul, Coef.toVal] at e3 e4
      have m01 : mat b a (sh a 0 (opF transA (entry ν2 A))) = mat b a (sh a 0 (opF transA (entry μ A))) := by
        rw [mat_ext_iff]
        intro i j hi hj
        cases transA <;> simp at hop <;> simp only [sh, opF] <;> rw [k2 _ _ (by omega) (by omega)]
      rw [m01] at e3
      have f3 := o3.blkP hB (by omega) (by omega) (p := a) (q := a) (r := 0) (c := 0) (by omega) (by omega) (by omega)
      have f3' := o3.blkP hB (by omega) (by omega) (p := b) (q := b) (r := a) (c := a) (by omega) (by omega) (by omega)
      have f4 := o4.blkP hB (by omega) (by omega) (p := a) (q := a) (r := 0) (c := 0) (by omega) (by omega) (by omega)
      have f4' := o4.blkP hB (by omega) (by omega) (p := b) (q := b) (r := a) (c := a) (by omega) (by omega) (by omega)
      have g1 := o1.blk hB (by omega) (by omega) (p := b) (q := a) (r := a) (c := 0) (by omega) (by omega) (by omega)
      have g2 := o2.blk hB (by omega) (by omega) (p := b) (q := a) (r := a) (c := 0) (by omega) (by omega) (by omega)
      simp only [sh_zero] at f3 f4 dg2'
      have x00 : mat a a (triF .Lower .NonUnit (entry ν4 B)) = mat a a (triF .Lower .NonUnit (entry ν2 B)) :=
        mat_tri_congr' (fun i j hi hj => by rw [f4 i j hi hj, f3 i j hi hj])
      have x00' : mat a a (triF .Lower .NonUnit (entry ν2 B)) = mat a a (triF .Lower .NonUnit (entry ν1 B)) :=
        mat_tri_congr' (fun i j hi hj => by rw [dg2' i j hi hj])
      have x11 : mat b b (triF .Lower .NonUnit (sh a a (entry ν4 B))) =
          mat b b (triF .Lower .NonUnit (sh a a (entry ν2 B))) :=
        mat_tri_congr' (fun i j hi hj => by rw [f4' i j hi hj, f3' i j hi hj])
      have c11 : mat b b (triF .Lower .NonUnit (sh a a (entry ν1 B))) =
          mat b b (triF .Lower .NonUnit (sh a a (entry ν0 B))) :=
        mat_tri_congr' (fun i j hi hj => by rw [dg1 i j hi hj])
      refine blk_LL ?_ ?_ ?_
      · rw [x00, x00', e1]
      · rw [x11, e2, c11]
      · rw [x00, e4, e3, g2, g1, neg_one_smul]
        abel

set_option maxHeartbeats 2000000 in
theorem wp_trsmTri_R {u : Uplo} (hu : u = .Upper ∨ u = .Lower) {transA : Op} (hop : transA ≠ .Conj)
    {diagA : Diag} : ∀ (n : Nat) {alpha : T} {A B : MatV L} {μ : Store L T}, 0 < n → A.m = n → A.n = n → B.m = n →
    B.n = n → B.Inj → A.Disj B → (diagA = .NonUnit → ∀ i, i < n → entry μ A i i ≠ 0) →
    wp (trsmTri .Right u transA diagA alpha A B) μ (fun _ ν => SameOff B u μ ν ∧
      mat n n (triF u .NonUnit (entry ν B)) * mat n n (triF u diagA (opF transA (entry μ A))) =
        alpha • mat n n (triF u .NonUnit (entry μ B))) := by
  intro n
  induction n using Nat.strong_induction_on with
  | _ n ih =>
    intro alpha A B μ h0 ham han hbm hbn hB hAB hd
    rw [trsmTri]
    simp only [ham, wp_bind]
    refine wp_conseq (wp_trsmTriScale hu hbm hbn hB) ?_
    rintro _ ν0 ⟨s0, e0⟩
    have sc : alpha • mat n n (triF u .NonUnit (entry μ B)) = mat n n (triF u .NonUnit (entry ν0 B)) := by
      rw [mat_smul, mat_ext_iff]
      intro i j hi hj
      unfold triF
      by_cases e : i = j
      · subst e
        rw [if_pos rfl, if_pos rfl]
        exact (e0 i i hi hi (by rcases hu with rfl | rfl <;> exact le_refl i)).symm
      · rw [if_neg e, if_neg e]
        by_cases ht : inTri u i j
        · rw [if_pos ht, if_pos ht, e0 i j hi hj ht]
        · rw [if_neg ht, if_neg ht, mul_zero]
    have k0 := s0.only.keep hAB
    by_cases h1 : n = 1
    · subst h1
      rw [dif_pos rfl]
      rw [sc]
      cases diagA
      · simp only [reduceCtorEq, reduceIte, wp_bind]
        refine wp_getE ⟨by omega, by omega⟩ ?_
        rw [wp_modify]
        refine ⟨⟨by omega, by omega⟩, ?_⟩
        refine ⟨s0.trans (upd_sameOff (by omega) (by omega) (by rcases hu with rfl | rfl <;> exact le_refl 0)), ?_⟩
        rw [mat_mul, mat_ext_iff]
        intro i j hi hj
        obtain rfl : i = 0 := by omega
        obtain rfl : j = 0 := by omega
        have hne := hd rfl 0 (by omega)
        have ka := k0 0 0 (by omega) (by omega)
        simp only [entry] at ka
        simp only [triF, if_pos, Finset.sum_range_one]
        rw [upd_in, ka]
        cases transA <;> simp at hop <;> simp only [opF, reduceCtorEq, reduceIte, entry]
        · exact div_mul_cancel₀ _ hne
        · exact div_mul_cancel₀ _ hne
        · exact div_mul_cancel₀ _ (star_ne_zero.2 hne)
      · simp only [reduceCtorEq, reduceIte, wp_pure]
        refine ⟨s0, ?_⟩
        rw [mat_mul, mat_ext_iff]
        intro i j hi hj
        obtain rfl : i = 0 := by omega
        obtain rfl : j = 0 := by omega
        simp [triF]
    rw [dif_neg h1]
    obtain ⟨a, b, ha, hb, hab, hdiv⟩ : ∃ a b, 0 < a ∧ 0 < b ∧ n = a + b ∧ n / 2 = a :=
      ⟨n / 2, n - n / 2, by omega, by omega, by omega, rfl⟩
    simp only [hdiv, wp_bind]
    subst hab
    iterate 8 refine wp_sliceChk (by omega) (by omega) (by omega) (by omega) ?_
    rw [dif_neg (by omega)]
    simp only [wp_bind]
    have hB0 : (B.sub 0 a 0 a).Inj := hB.sub (by omega) (by omega)
    have hB1 : (B.sub a (a + b) a (a + b)).Inj := hB.sub (by omega) (by omega)
    have hA0 : (A.sub 0 a 0 a).Disj B := hAB.sub_left (by omega) (by omega)
    have hA1 : (A.sub a (a + b) a (a + b)).Disj B := hAB.sub_left (by omega) (by omega)
    refine wp_conseq (ih a (by omega) ha (by simp [MatV.sub]) (by simp [MatV.sub]) (by simp [MatV.sub])
      (by simp [MatV.sub]) hB0 (hA0.sub_right (by omega) (by omega)) (fun e i hi => by
        have := hd e i (by omega)
        rw [← k0 i i (by omega) (by omega)] at this
        simpa [entry, MatV.sub] using this)) ?_
    rintro _ ν1 ⟨s1, e1⟩
    have o1 := s1.only
    have O1 : Only B μ ν1 := s0.only.trans (o1.sub (by omega) (by omega))
    have k1 := O1.keep hAB
    refine wp_conseq (ih b (by omega) hb (by simp [MatV.sub]) (by simp [MatV.sub]) (by simp [MatV.sub])
      (by simp [MatV.sub]) hB1 (hA1.sub_right (by omega) (by omega)) (fun e i hi => by
        have := hd e (a + i) (by omega)
        rw [← k1 (a + i) (a + i) (by omega) (by omega)] at this
        simpa [entry, MatV.sub] using this)) ?_
    rintro _ ν2 ⟨s2, e2⟩
    have o2 := s2.only
    have O2 : Only B μ ν2 := O1.trans (o2.sub (by omega) (by omega))
    have k2 := O2.keep hAB
    rw [show opF transA (entry ν0 (A.sub 0 a 0 a)) = sh 0 0 (opF transA (entry ν0 A)) by
        cases transA <;> rfl, mat_op_keep hop ham han (by omega) k0] at e1
    rw [show opF transA (entry ν1 (A.sub a (a + b) a (a + b))) = sh a a (opF transA (entry ν1 A)) by
        cases transA <;> rfl, mat_op_keep hop ham han (by omega) k1] at e2
    simp only [sh_entry, sh_zero, one_smul] at e1 e2
    rw [sc]
    have hot : ∀ r0 r1 c0 c1, r1 ≤ a + b → c1 ≤ a + b → (opSub transA A r0 r1 c0 c1).Disj B := by
      intro r0 r1 c0 c1 h1 h2
      exact opSub_disj_left hAB (by simp only [opRows]; split <;> omega) (by simp only [opCols]; split <;> omega)
    have opr : opRows transA A = a + b := by simp only [opRows]; split <;> omega
    have opc : opCols transA A = a + b := by simp only [opCols]; split <;> omega
    unfold trsmTriOff trmmOut
    have hfl : (if transA ≠ .NoTrans then (if u = .Upper then Uplo.Lower else .Upper) else u) = .Upper ∨
      (if transA ≠ .NoTrans then (if u = .Upper then Uplo.Lower else .Upper) else u) = .Lower := by
      rcases hu with rfl | rfl <;> split <;> simp
    have opt := fun g => opF_triF hop hu diagA g (T := T)
    generalize hfe : (if transA ≠ .NoTrans then (if u = .Upper then Uplo.Lower else .Upper) else u) = uA at hfl opt ⊢
    have dg1 := o1.blkP hB (by omega) (by omega) (p := b) (q := b) (r := a) (c := a) (by omega) (by omega) (by omega)
    have dg2 := o2.blk hB (by omega) (by omega) (p := a) (q := a) (r := 0) (c := 0) (by omega) (by omega) (by omega)
    have dg2' := o2.blkP hB (by omega) (by omega) (p := a) (q := a) (r := 0) (c := 0) (by omega) (by omega) (by omega)
    rcases hu with rfl | rfl
    · simp only [reduceCtorEq, reduceIte, wp_bind]
      refine wp_opSlice (by omega) (by omega) (by omega) (by omega) ?_
      refine wp_conseq (wp_trmmOutL (Or.inl rfl) hop a (n := b) ha (by rw [opRows_sub]; omega)
        (by rw [opCols_sub]; omega) (by simp [MatV.sub]) (by simp [MatV.sub]) (by simp [MatV.sub])
        (by simp [MatV.sub]) (hB.sub (by omega) (by omega))
        (hB.disj_sub (by omega) (by omega) (by omega) (by omega) (by omega))
        ((hot _ _ _ _ (by omega) (by omega)).sub_right (by omega) (by omega))) ?_
      rintro _ ν3 ⟨o3, e3⟩
      have O3 : Only B μ ν3 := O2.trans (o3.sub (by omega) (by omega))
      have k3 := O3.keep hAB
      refine wp_conseq (wp_trsmR_m (m := a) (n := b) (by simp [MatV.sub]) (by simp [MatV.sub])
        ⟨Or.inr rfl, hfl, hop, rfl, rfl, hB.sub (by omega) (by omega),
          hA1.sub_right (by omega) (by omega)⟩ (fun e i hi => by
        have := hd e (a + i) (by omega)
        rw [← k3 (a + i) (a + i) (by omega) (by omega)] at this
        simpa [entry, MatV.sub] using this)) ?_
      rintro _ ν4 ⟨o4, e4⟩
      refine ⟨(((s0.trans (s1.sub (Or.inl rfl) (by omega) (by omega))).trans
        (s2.sub (Or.inl rfl) (by omega) (by omega))).trans
        (o3.sameOff (by omega) (by omega) (fun i j _ _ _ _ => by show i ≤ j; omega))).trans
        (o4.sameOff (by omega) (by omega) (fun i j _ _ _ _ => by show i ≤ j; omega)), ?_⟩
      rw [opt, show opF transA (entry ν3 (A.sub a (a + b) a (a + b))) = sh a a (opF transA (entry ν3 A)) by
        cases transA <;> rfl, mat_op_keep hop ham han (by omega) k3] at e4
      rw [opF_opSub hop] at e3
      simp only [sh_entry, sh_zero, one_smul, Coef.toVal] at e3 e4
      have m01 : mat a b (sh 0 a (opF transA (entry ν2 A))) = mat a b (sh 0 a (opF transA (entry μ A))) := by
        rw [mat_ext_iff]
        intro i j hi hj
        cases transA <;> simp at hop <;> simp only [sh, opF] <;> rw [k2 _ _ (by omega) (by omega)]
      rw [m01] at e3
      -- the blocks at the end
      have f3 := o3.blkP hB (by omega) (by omega) (p := a) (q := a) (r := 0) (c := 0) (by omega) (by omega) (by omega)
      have f3' := o3.blkP hB (by omega) (by omega) (p := b) (q := b) (r := a) (c := a) (by omega) (by omega) (by omega)
      have f4 := o4.blkP hB (by omega) (by omega) (p := a) (q := a) (r := 0) (c := 0) (by omega) (by omega) (by omega)
      have f4' := o4.blkP hB (by omega) (by omega) (p := b) (q := b) (r := a) (c := a) (by omega) (by omega) (by omega)
      have g1 := o1.blk hB (by omega) (by omega) (p := a) (q := b) (r := 0) (c := a) (by omega) (by omega) (by omega)
      have g2 := o2.blk hB (by omega) (by omega) (p := a) (q := b) (r := 0) (c := a) (by omega) (by omega) (by omega)
      simp only [sh_zero] at f3 f4 dg2'
      have x00 : mat a a (triF .Upper .NonUnit (entry ν4 B)) = mat a a (triF .Upper .NonUnit (entry ν2 B)) :=
        mat_tri_congr' (fun i j hi hj => by rw [f4 i j hi hj, f3 i j hi hj])
      have x00' : mat a a (triF .Upper .NonUnit (entry ν2 B)) = mat a a (triF .Upper .NonUnit (entry ν1 B)) :=
        mat_tri_congr' (fun i j hi hj => by rw [dg2' i j hi hj])
      have x11 : mat b b (triF .Upper .NonUnit (sh a a (entry ν4 B))) =
          mat b b (triF .Upper .NonUnit (sh a a (entry ν2 B))) :=
        mat_tri_congr' (fun i j hi hj => by rw [f4' i j hi hj, f3' i j hi hj])
      have c11 : mat b b (triF .Upper .NonUnit (sh a a (entry ν1 B))) =
          mat b b (triF .Upper .NonUnit (sh a a (entry ν0 B))) :=
        mat_tri_congr' (fun i j hi hj => by rw [dg1 i j hi hj])
      refine blk_RU ?_ ?_ ?_
      · rw [x00, x00', e1]
      · rw [x11, e2, c11]
      · rw [x00, e4, e3, g2, g1, neg_one_smul]
        abel
    · simp only [reduceCtorEq, reduceIte, wp_bind]
      refine wp_opSlice (by omega) (by omega) (by omega) (by omega) ?_
      refine wp_conseq (wp_trmmOutL (Or.inr rfl) hop b (n := a) hb (by rw [opRows_sub]; omega)
        (by rw [opCols_sub]; omega) (by simp [MatV.sub]) (by simp [MatV.sub]) (by simp [MatV.sub])
        (by simp [MatV.sub]) (hB.sub (by omega) (by omega))
        (hB.disj_sub (by omega) (by omega) (by omega) (by omega) (by omega))
        ((hot _ _ _ _ (by omega) (by omega)).sub_right (by omega) (by omega))) ?_
      rintro _ ν3 ⟨o3, e3⟩
      have O3 : Only B μ ν3 := O2.trans (o3.sub (by omega) (by omega))
      have k3 := O3.keep hAB
      refine wp_conseq (wp_trsmR_m (m := b) (n := a) (by simp [MatV.sub]) (by simp [MatV.sub])
        ⟨Or.inr rfl, hfl, hop, rfl, rfl, hB.sub (by omega) (by omega),
          hA0.sub_right (by omega) (by omega)⟩ (fun e i hi => by
        have := hd e i (by omega)
        rw [← k3 i i (by omega) (by omega)] at this
        simpa [entry, MatV.sub] using this)) ?_
      rintro _ ν4 ⟨o4, e4⟩
      refine ⟨(((s0.trans (s1.sub (Or.inr rfl) (by omega) (by omega))).trans
        (s2.sub (Or.inr rfl) (by omega) (by omega))).trans
        (o3.sameOff (by omega) (by omega) (fun i j _ _ _ _ => by show j ≤ i; omega))).trans
        (o4.sameOff (by omega) (by omega) (fun i j _ _ _ _ => by show j ≤ i; omega)), ?_⟩
      rw [opt, show opF transA (entry ν3 (A.sub 0 a 0 a)) = sh 0 0 (opF transA (entry ν3 A)) by
        cases transA <;> rfl, mat_op_keep hop ham han (by omega) k3] at e4
      rw [opF_opSub hop] at e3
      simp only [sh_entry, sh_zero, one_smul, Coef.toVal] at e3 e4
      have m01 : mat b a (sh a 0 (opF transA (entry ν2 A))) = mat b a (sh a 0 (opF transA (entry μ A))) := by
        rw [mat_ext_iff]
        intro i j hi hj
        cases transA <;> simp at hop <;> simp only [sh, opF] <;> rw [k2 _ _ (by omega) (by omega)]
      rw [m01] at e3
      have f3 := o3.blkP hB (by omega) (by omega) (p := a) (q := a) (r := 0) (c := 0) (by omega) (by omega) (by omega)
      have f3' := o3.blkP hB (by omega) (by omega) (p := b) (q := b) (r := a) (c := a) (by omega) (by omega) (by omega)
      have f4 := o4.blkP hB (by omega) (by omega) (p := a) (q := a) (r := 0) (c := 0) (by omega) (by omega) (by omega)
      have f4' := o4.blkP hB (by omega) (by omega) (p := b) (q := b) (r := a) (c := a) (by omega) (by omega) (by omega)
      have g1 := o1.blk hB (by omega) (by omega) (p := b) (q := a) (r := a) (c := 0) (by omega) (by omega) (by omega)
      have g2 := o2.blk hB (by omega) (by omega) (p := b) (q := a) (r := a) (c := 0) (by omega) (by omega) (by omega)
      simp only [sh_zero] at f3 f4 dg2'
      have x00 : mat a a (triF .Lower .NonUnit (entry ν4 B)) = mat a a (triF .Lower .NonUnit (entry ν2 B)) :=
        mat_tri_congr' (fun i j hi hj => by rw [f4 i j hi hj, f3 i j hi hj])
      have x00' : mat a a (triF .Lower .NonUnit (entry ν2 B)) = mat a a (triF .Lower .NonUnit (entry ν1 B)) :=
        mat_tri_congr' (fun i j hi hj => by rw [dg2' i j hi hj])
      have x11 : mat b b (triF .Lower .NonUnit (sh a a (entry ν4 B))) =
          mat b b (triF .Lower .NonUnit (sh a a (entry ν2 B))) :=
        mat_tri_congr' (fun i j hi hj => by rw [f4' i j hi hj, f3' i j hi hj])
      have c11 : mat b b (triF .Lower .NonUnit (sh a a (entry ν1 B))) =
          mat b b (triF .Lower .NonUnit (sh a a (entry ν0 B))) :=
        mat_tri_congr' (fun i j hi hj => by rw [dg1 i j hi hj])
      refine blk_RL ?_ ?_ ?_
      · rw [x00, x00', e1]
      · rw [x11, e2, c11]
      · rw [x11, e4, e3, g2, g1, neg_one_smul]
        abel

end TLA
