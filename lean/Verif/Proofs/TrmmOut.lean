import Mathlib.Tactic.Abel
import Verif.Proofs.MultLlh
import Verif.Proofs.LuMult
import Verif.Model.BlasX

set_option linter.unusedTactic false
set_option linter.unreachableTactic false
set_option linter.unusedSectionVars false
set_option linter.unusedVariables false

/-! trmm_out. -/

namespace TLA
variable {L T : Type} [DecidableEq L]
open Finset

theorem opF_opSub [Star T] {op : Op} (h : op ≠ .Conj) (μ : Store L T) (B : MatV L) (r0 r1 c0 c1 : Nat) :
    opF op (entry μ (opSub op B r0 r1 c0 c1)) = sh r0 c0 (opF op (entry μ B)) := by
  cases op <;> simp at h <;> rfl

theorem opSub_disj_left {op : Op} {B C : MatV L} (h : B.Disj C) {r0 r1 c0 c1 : Nat}
    (h1 : r1 ≤ opRows op B) (h2 : c1 ≤ opCols op B) : (opSub op B r0 r1 c0 c1).Disj C := by
  unfold opSub
  unfold opRows at h1
  unfold opCols at h2
  split
  · rename_i e
    rw [if_pos e] at h1 h2
    exact h.sub_left h1 h2
  · rename_i e
    rw [if_neg e] at h1 h2
    exact h.sub_left h2 h1

theorem wp_opSlice {op : Op} {B : MatV L} {r0 r1 c0 c1 : Nat} {μ : Store L T} {α : Type}
    {f : MatV L → M L T α} {Q : α → Store L T → Prop} (hr : r0 ≤ r1) (h1 : r1 ≤ opRows op B) (hc : c0 ≤ c1)
    (h2 : c1 ≤ opCols op B) (h : wp (f (opSub op B r0 r1 c0 c1)) μ Q) :
    wp (opSlice op B r0 r1 c0 c1) μ (fun r ν => wp (f r) ν Q) := by
  unfold opSlice
  unfold opSub at h
  unfold opRows at h1
  unfold opCols at h2
  split
  · rename_i e
    rw [if_pos e] at h1 h2 h
    exact wp_slice hr h1 hc h2 h
  · rename_i e
    rw [if_neg e] at h1 h2 h
    exact wp_slice hc h2 hr h1 h

theorem tOp_eq {op : Op} (h : op ≠ .Conj) : tOp op = op := by cases op <;> simp at h <;> rfl

theorem Only.keep {C B : MatV L} {μ ν : Store L T} (o : Only C μ ν) (h : B.Disj C) :
    ∀ i j, i < B.m → j < B.n → entry ν B i j = entry μ B i j :=
  fun i j hi hj => o _ (fun hc => h i j hi hj hc)

theorem mat_opF_keep [Star T] {op : Op} (h : op ≠ .Conj) {B : MatV L} {μ ν : Store L T} {p q : Nat}
    (hp : opRows op B = p) (hq : opCols op B = q)
    (hk : ∀ i j, i < B.m → j < B.n → entry ν B i j = entry μ B i j) :
    mat p q (opF op (entry ν B)) = mat p q (opF op (entry μ B)) := by
  rw [mat_ext_iff]
  intro i j hi hj
  subst hp hq
  cases op <;> simp [opRows, opCols] at h hi hj <;> simp [opF] <;> rw [hk _ _ (by omega) (by omega)]

variable [Field T] [StarRing T]

theorem mat_tri_keep {u : Uplo} {d : Diag} {B : MatV L} {μ ν : Store L T} {p : Nat}
    (hp : B.m = p) (hq : B.n = p)
    (hk : ∀ i j, i < B.m → j < B.n → entry ν B i j = entry μ B i j) :
    mat p p (triF u d (entry ν B)) = mat p p (triF u d (entry μ B)) :=
  mat_triF_congr (fun _ i hi => hk i i (by omega) (by omega))
    (fun i j hi hj _ _ => hk i j (by omega) (by omega))

theorem mat_keep {B : MatV L} {μ ν : Store L T} {p q : Nat}
    (hp : B.m = p) (hq : B.n = q)
    (hk : ∀ i j, i < B.m → j < B.n → entry ν B i j = entry μ B i j) :
    mat p q (entry ν B) = mat p q (entry μ B) := by
  rw [mat_ext_iff]; exact fun i j hi hj => hk i j (by omega) (by omega)

/-- `G = α P T + β C` by column blocks. -/
theorem mat_ax_cols {m a b k : Nat} {g p t c : Nat → Nat → T} {al be : T}
    (h0 : mat m a g = al • (mat m k p * mat k a t) + be • mat m a c)
    (h1 : mat m b (sh 0 a g) = al • (mat m k p * mat k b (sh 0 a t)) + be • mat m b (sh 0 a c)) :
    mat m (a + b) g = al • (mat m k p * mat k (a + b) t) + be • mat m (a + b) c := by
  rw [mat_mulF, mat_smul, mat_smul, mat_add] at *
  exact mat_ext_cols h0 (by rw [h1, show mulF k p (sh 0 a t) = sh 0 a (mulF k p t) by
    rw [sh_mulF]; congr 1; funext i j; simp [sh]]; rfl)

/-- `G = α T P + β C` by row blocks. -/
theorem mat_ax_rows {n a b k : Nat} {g p t c : Nat → Nat → T} {al be : T}
    (h0 : mat a n g = al • (mat a k t * mat k n p) + be • mat a n c)
    (h1 : mat b n (sh a 0 g) = al • (mat b k (sh a 0 t) * mat k n p) + be • mat b n (sh a 0 c)) :
    mat (a + b) n g = al • (mat (a + b) k t * mat k n p) + be • mat (a + b) n c := by
  rw [mat_mulF, mat_smul, mat_smul, mat_add] at *
  exact mat_ext_rows h0 (by rw [h1, show mulF k (sh a 0 t) p = sh a 0 (mulF k t p) by
    rw [sh_mulF]; congr 1; funext i j; simp [sh]]; rfl)

/-- What trmm_out adds, entrywise. -/
theorem wp_trmmOutTerm {diag : Diag} {alpha : T} {A C : MatV L} {b : T} {μ ν : Store L T} {G : Nat → Nat → T}
    (u : Uplo) (hm : 0 < A.m) (hn : 0 < A.n) (hA : A.Disj C) (hν : MState C μ G ν) :
    wp (trmmOutTerm diag alpha A b) ν (fun t ν' => t = alpha * (b * triF u diag (entry μ A) 0 0) ∧ ν' = ν) := by
  unfold trmmOutTerm triF
  cases diag
  · simp only [reduceCtorEq, reduceIte, wp_bind]
    refine wp_getE ⟨by omega, by omega⟩ ?_
    rw [wp_pure, hν.frame _ (fun h => hA 0 0 hm hn h)]
    exact ⟨by simp [entry, mul_assoc], rfl⟩
  · simp [wp_pure]

theorem wp_trmmOutR {uplo : Uplo} (hu : uplo = .Upper ∨ uplo = .Lower) {diag : Diag} {transB : Op}
    (hB : transB ≠ .Conj) {alpha : T} : ∀ (n : Nat) {m : Nat} {A B C : MatV L} {beta : Coef T}
    {μ : Store L T}, 0 < n → opRows transB B = m → opCols transB B = n → A.m = n → A.n = n → C.m = m → C.n = n →
    C.Inj → A.Disj C → B.Disj C →
    wp (trmmOutR uplo .NoTrans diag transB alpha A B beta C) μ (fun _ ν => Only C μ ν ∧
      mat m n (entry ν C) = alpha • (mat m n (opF transB (entry μ B)) * mat n n (triF uplo diag (entry μ A))) +
        beta.toVal • mat m n (entry μ C)) := by
  intro n
  induction n using Nat.strong_induction_on with
  | _ n ih =>
    intro m A B C beta μ h0 hbm hbn ham han hcm hcn hC hA hBC
    rw [trmmOutR]
    simp only [hbm, hbn]
    by_cases h1 : n = 1
    · rw [if_pos h1]
      subst h1
      rw [tOp_eq hB]
      refine wp_forUp_ (fun k ν => MState C μ (fun i j => if i < k then
          alpha * (opF transB (entry μ B) i 0 * triF uplo diag (entry μ A) 0 0) + beta.toVal * entry μ C i j
          else entry μ C i j) ν) (Nat.zero_le m) ((MState.start C μ).congr (fun i j _ _ => by simp)) ?_ ?_
      · intro i ν _ hi hν
        simp only [wp_bind]
        refine wp_conseq (wp_opGet (k := m) (n := 1) hi (by omega) ?_ ?_ hBC hν) ?_
        · cases transB <;> simp [opRows] at hbm hB ⊢ <;> exact hbm
        · cases transB <;> simp [opCols] at hbn hB ⊢ <;> exact hbn
        rintro b _ ⟨rfl, rfl⟩
        refine wp_conseq (wp_trmmOutTerm uplo (by omega) (by omega) hA hν) ?_
        rintro t _ ⟨rfl, rfl⟩
        rw [wp_modify]
        refine ⟨⟨by omega, by omega⟩, ?_⟩
        have e := hν.val i 0 (by omega) (by omega)
        rw [if_neg (by omega)] at e
        refine hν.upd hC (by omega) (by omega) (fun r c hr hc => ?_)
        obtain rfl : c = 0 := by omega
        by_cases h : r = i
        · subst h
          rw [if_pos (by omega), if_pos ⟨rfl, rfl⟩, e]
          cases beta <;> simp [Coef.addMul, Coef.toVal]
        · rw [if_neg (show ¬ (r = i ∧ (0:Nat) = 0) from fun e => h e.1)]; ifs
      · intro ν hν
        refine ⟨hν.frame, ?_⟩
        rw [mat_mul, mat_smul, mat_smul, mat_add, mat_ext_iff]
        intro i j hi hj
        obtain rfl : j = 0 := by omega
        have := hν.val i 0 (by omega) (by omega)
        rw [if_pos hi] at this
        rw [entry, this]
        simp
    rw [if_neg h1]
    obtain ⟨a, b, ha, hb, hab, hdiv⟩ : ∃ a b, 0 < a ∧ 0 < b ∧ n = a + b ∧ n / 2 = a :=
      ⟨n / 2, n - n / 2, by omega, by omega, by omega, rfl⟩
    simp only [hdiv, wp_bind]
    subst hab
    refine wp_sliceChk (by omega) (by omega) (by omega) (by omega) ?_
    refine wp_sliceChk (by omega) (by omega) (by omega) (by omega) ?_
    refine wp_sliceChk (by omega) (by omega) (by omega) (by omega) ?_
    have hC0 : (C.sub 0 m 0 a).Inj := hC.sub (by omega) (by omega)
    have hC1 : (C.sub 0 m a (a + b)).Inj := hC.sub (by omega) (by omega)
    have hA0 : (A.sub 0 a 0 a).Disj C := hA.sub_left (by omega) (by omega)
    have hA1 : (A.sub a (a + b) a (a + b)).Disj C := hA.sub_left (by omega) (by omega)
    have hB0 : (opSub transB B 0 m 0 a).Disj C := opSub_disj_left hBC (by omega) (by omega)
    have hB1 : (opSub transB B 0 m a (a + b)).Disj C := opSub_disj_left hBC (by omega) (by omega)
    have b0m : opRows transB (opSub transB B 0 m 0 a) = m := by rw [opRows_sub]; omega
    have b0n : opCols transB (opSub transB B 0 m 0 a) = a := by rw [opCols_sub]; omega
    have b1m : opRows transB (opSub transB B 0 m a (a + b)) = m := by rw [opRows_sub]; omega
    have b1n : opCols transB (opSub transB B 0 m a (a + b)) = b := by rw [opCols_sub]; omega
    rcases hu with rfl | rfl
    · simp only [reduceIte]
      refine wp_slice (by omega) (by omega) (by omega) (by omega) ?_
      refine wp_sliceChk (by omega) (by omega) (by omega) (by omega) ?_
      refine wp_opSlice (by omega) (by omega) (by omega) (by omega) ?_
      refine wp_opSlice (by omega) (by omega) (by omega) (by omega) ?_
      rw [dif_neg (by omega)]
      simp only [wp_bind]
      have hAo : (A.sub 0 a a (a + b)).Disj C := hA.sub_left (by omega) (by omega)
      refine wp_conseq (ih a (by omega) ha b0m b0n (by simp [MatV.sub]) (by simp [MatV.sub])
        (by simp [MatV.sub]) (by simp [MatV.sub]) hC0 (hA0.sub_right (by omega) (by omega))
        (hB0.sub_right (by omega) (by omega))) ?_
      rintro _ ν1 ⟨o1, e1⟩
      refine wp_conseq (wp_gemm_m (m := m) (n := b) (k := a) ⟨hB, by decide, b0m, b0n, by simp [MatV.sub],
        by simp [MatV.sub], by simp [MatV.sub], by simp [MatV.sub], hC1, hB0.sub_right (by omega) (by omega),
        hAo.sub_right (by omega) (by omega)⟩) ?_
      rintro _ ν2 ⟨o2, e2⟩
      refine wp_conseq (ih b (by omega) hb b1m b1n (by simp [MatV.sub]) (by simp [MatV.sub])
        (by simp [MatV.sub]) (by simp [MatV.sub]) hC1 (hA1.sub_right (by omega) (by omega))
        (hB1.sub_right (by omega) (by omega))) ?_
      rintro _ ν3 ⟨o3, e3⟩
      have O1 : Only C μ ν1 := o1.sub (by omega) (by omega)
      have O2 : Only C μ ν2 := O1.trans (o2.sub (by omega) (by omega))
      refine ⟨O2.trans (o3.sub (by omega) (by omega)), ?_⟩
      rw [mat_opF_keep hB b0m b0n (O1.keep hB0),
        show opF .NoTrans (entry ν1 (A.sub 0 a a (a + b))) = entry ν1 (A.sub 0 a a (a + b)) from rfl,
        mat_keep (by simp [MatV.sub]) (by simp [MatV.sub]) (O1.keep hAo)] at e2
      rw [mat_opF_keep hB b1m b1n (O2.keep hB1),
        mat_tri_keep (by simp [MatV.sub]) (by simp [MatV.sub]) (O2.keep hA1), e2] at e3
      rw [opF_opSub hB] at e1 e3
      rw [opF_opSub hB] at e3
      simp only [sh_entry, sh_zero] at e1 e3
      have f1 := o2.blk hC (by omega) (by omega) (p := m) (q := a) (r := 0) (c := 0) (by omega) (by omega) (by omega)
      have f2 := o3.blk hC (by omega) (by omega) (p := m) (q := a) (r := 0) (c := 0) (by omega) (by omega) (by omega)
      have f3 := o1.blk hC (by omega) (by omega) (p := m) (q := b) (r := 0) (c := a) (by omega) (by omega) (by omega)
      simp only [sh_zero] at f1 f2
      refine mat_ax_cols ?_ ?_
      · rw [f2, f1, e1, mat_mul_inner, triU_10, Matrix.mul_zero, add_zero]
      · rw [e3, f3, mat_mul_inner, triU_01, sh_sh]
        simp only [Nat.zero_add, Nat.add_zero]
        rw [triF_sh (Or.inl rfl)]
        simp only [smul_add, Coef.toVal, one_smul]
        abel
    · simp only [reduceCtorEq, reduceIte]
      refine wp_slice (by omega) (by omega) (by omega) (by omega) ?_
      refine wp_sliceChk (by omega) (by omega) (by omega) (by omega) ?_
      refine wp_opSlice (by omega) (by omega) (by omega) (by omega) ?_
      refine wp_opSlice (by omega) (by omega) (by omega) (by omega) ?_
      rw [dif_neg (by omega)]
      simp only [wp_bind]
      have hAo : (A.sub a (a + b) 0 a).Disj C := hA.sub_left (by omega) (by omega)
      refine wp_conseq (ih b (by omega) hb b1m b1n (by simp [MatV.sub]) (by simp [MatV.sub])
        (by simp [MatV.sub]) (by simp [MatV.sub]) hC1 (hA1.sub_right (by omega) (by omega))
        (hB1.sub_right (by omega) (by omega))) ?_
      rintro _ ν1 ⟨o1, e1⟩
      refine wp_conseq (wp_gemm_m (m := m) (n := a) (k := b) ⟨hB, by decide, b1m, b1n, by simp [MatV.sub],
        by simp [MatV.sub], by simp [MatV.sub], by simp [MatV.sub], hC0, hB1.sub_right (by omega) (by omega),
        hAo.sub_right (by omega) (by omega)⟩) ?_
      rintro _ ν2 ⟨o2, e2⟩
      refine wp_conseq (ih a (by omega) ha b0m b0n (by simp [MatV.sub]) (by simp [MatV.sub])
        (by simp [MatV.sub]) (by simp [MatV.sub]) hC0 (hA0.sub_right (by omega) (by omega))
        (hB0.sub_right (by omega) (by omega))) ?_
      rintro _ ν3 ⟨o3, e3⟩
      have O1 : Only C μ ν1 := o1.sub (by omega) (by omega)
      have O2 : Only C μ ν2 := O1.trans (o2.sub (by omega) (by omega))
      refine ⟨O2.trans (o3.sub (by omega) (by omega)), ?_⟩
      rw [mat_opF_keep hB b1m b1n (O1.keep hB1),
        show opF .NoTrans (entry ν1 (A.sub a (a + b) 0 a)) = entry ν1 (A.sub a (a + b) 0 a) from rfl,
        mat_keep (by simp [MatV.sub]) (by simp [MatV.sub]) (O1.keep hAo)] at e2
      rw [mat_opF_keep hB b0m b0n (O2.keep hB0),
        mat_tri_keep (by simp [MatV.sub]) (by simp [MatV.sub]) (O2.keep hA0), e2] at e3
      rw [opF_opSub hB] at e1 e3
      rw [opF_opSub hB] at e3
      simp only [sh_entry, sh_zero] at e1 e3
      have f1 := o2.blk hC (by omega) (by omega) (p := m) (q := b) (r := 0) (c := a) (by omega) (by omega) (by omega)
      have f2 := o3.blk hC (by omega) (by omega) (p := m) (q := b) (r := 0) (c := a) (by omega) (by omega) (by omega)
      have f3 := o1.blk hC (by omega) (by omega) (p := m) (q := a) (r := 0) (c := 0) (by omega) (by omega) (by omega)
      simp only [sh_zero] at f3
      refine mat_ax_cols ?_ ?_
      · rw [e3, f3, mat_mul_inner, triL_10]
        simp only [smul_add, Coef.toVal, one_smul]
        abel
      · rw [f2, f1, e1, mat_mul_inner, triL_01, sh_sh]
        simp only [Nat.zero_add, Nat.add_zero]
        rw [triF_sh (Or.inr rfl), Matrix.mul_zero, zero_add]

theorem wp_trmmOutL {uplo : Uplo} (hu : uplo = .Upper ∨ uplo = .Lower) {diag : Diag} {transB : Op}
    (hB : transB ≠ .Conj) {alpha : T} : ∀ (m : Nat) {n : Nat} {A B C : MatV L} {beta : Coef T}
    {μ : Store L T}, 0 < m → opRows transB B = m → opCols transB B = n → A.m = m → A.n = m → C.m = m → C.n = n →
    C.Inj → A.Disj C → B.Disj C →
    wp (trmmOutL uplo .NoTrans diag transB alpha A B beta C) μ (fun _ ν => Only C μ ν ∧
      mat m n (entry ν C) = alpha • (mat m m (triF uplo diag (entry μ A)) * mat m n (opF transB (entry μ B))) +
        beta.toVal • mat m n (entry μ C)) := by
  intro m
  induction m using Nat.strong_induction_on with
  | _ m ih =>
    intro n A B C beta μ h0 hbm hbn ham han hcm hcn hC hA hBC
    rw [trmmOutL]
    simp only [hbm, hbn]
    by_cases h1 : m = 1
    · rw [if_pos h1]
      subst h1
      rw [tOp_eq hB]
      refine wp_forUp_ (fun k ν => MState C μ (fun i j => if j < k then
          alpha * (opF transB (entry μ B) 0 j * triF uplo diag (entry μ A) 0 0) + beta.toVal * entry μ C i j
          else entry μ C i j) ν) (Nat.zero_le n) ((MState.start C μ).congr (fun i j _ _ => by simp)) ?_ ?_
      · intro i ν _ hi hν
        simp only [wp_bind]
        refine wp_conseq (wp_opGet (k := 1) (n := n) (by omega) hi ?_ ?_ hBC hν) ?_
        · cases transB <;> simp [opRows] at hbm hB ⊢ <;> exact hbm
        · cases transB <;> simp [opCols] at hbn hB ⊢ <;> exact hbn
        rintro b _ ⟨rfl, rfl⟩
        refine wp_conseq (wp_trmmOutTerm uplo (by omega) (by omega) hA hν) ?_
        rintro t _ ⟨rfl, rfl⟩
        rw [wp_modify]
        refine ⟨⟨by omega, by omega⟩, ?_⟩
        have e := hν.val 0 i (by omega) (by omega)
        rw [if_neg (by omega)] at e
        refine hν.upd hC (by omega) (by omega) (fun r c hr hc => ?_)
        obtain rfl : r = 0 := by omega
        by_cases h : c = i
        · subst h
          rw [if_pos (by omega), if_pos ⟨rfl, rfl⟩, e]
          cases beta <;> simp [Coef.addMul, Coef.toVal]
        · rw [if_neg (show ¬ ((0:Nat) = 0 ∧ c = i) from fun e => h e.2)]; ifs
      · intro ν hν
        refine ⟨hν.frame, ?_⟩
        rw [mat_mul, mat_smul, mat_smul, mat_add, mat_ext_iff]
        intro i j hi hj
        obtain rfl : i = 0 := by omega
        have := hν.val 0 j (by omega) (by omega)
        rw [if_pos hj] at this
        rw [entry, this]
        simp [mul_comm]
    rw [if_neg h1]
    obtain ⟨a, b, ha, hb, hab, hdiv⟩ : ∃ a b, 0 < a ∧ 0 < b ∧ m = a + b ∧ m / 2 = a :=
      ⟨m / 2, m - m / 2, by omega, by omega, by omega, rfl⟩
    simp only [hdiv, wp_bind]
    subst hab
    refine wp_sliceChk (by omega) (by omega) (by omega) (by omega) ?_
    refine wp_sliceChk (by omega) (by omega) (by omega) (by omega) ?_
    refine wp_sliceChk (by omega) (by omega) (by omega) (by omega) ?_
    have hC0 : (C.sub 0 a 0 n).Inj := hC.sub (by omega) (by omega)
    have hC1 : (C.sub a (a + b) 0 n).Inj := hC.sub (by omega) (by omega)
    have hA0 : (A.sub 0 a 0 a).Disj C := hA.sub_left (by omega) (by omega)
    have hA1 : (A.sub a (a + b) a (a + b)).Disj C := hA.sub_left (by omega) (by omega)
    have hB0 : (opSub transB B 0 a 0 n).Disj C := opSub_disj_left hBC (by omega) (by omega)
    have hB1 : (opSub transB B a (a + b) 0 n).Disj C := opSub_disj_left hBC (by omega) (by omega)
    have b0m : opRows transB (opSub transB B 0 a 0 n) = a := by rw [opRows_sub]; omega
    have b0n : opCols transB (opSub transB B 0 a 0 n) = n := by rw [opCols_sub]; omega
    have b1m : opRows transB (opSub transB B a (a + b) 0 n) = b := by rw [opRows_sub]; omega
    have b1n : opCols transB (opSub transB B a (a + b) 0 n) = n := by rw [opCols_sub]; omega
    rcases hu with rfl | rfl
    · simp only [reduceIte]
      refine wp_slice (by omega) (by omega) (by omega) (by omega) ?_
      refine wp_sliceChk (by omega) (by omega) (by omega) (by omega) ?_
      refine wp_opSlice (by omega) (by omega) (by omega) (by omega) ?_
      refine wp_opSlice (by omega) (by omega) (by omega) (by omega) ?_
      rw [dif_neg (by omega)]
      simp only [wp_bind]
      have hAo : (A.sub 0 a a (a + b)).Disj C := hA.sub_left (by omega) (by omega)
      refine wp_conseq (ih b (by omega) hb b1m b1n (by simp [MatV.sub]) (by simp [MatV.sub])
        (by simp [MatV.sub]) (by simp [MatV.sub]) hC1 (hA1.sub_right (by omega) (by omega))
        (hB1.sub_right (by omega) (by omega))) ?_
      rintro _ ν1 ⟨o1, e1⟩
      refine wp_conseq (wp_gemm_m (m := a) (n := n) (k := b) ⟨by decide, hB, by simp [MatV.sub],
        by simp [MatV.sub], b1m, b1n, by simp [MatV.sub], by simp [MatV.sub], hC0,
        hAo.sub_right (by omega) (by omega), hB1.sub_right (by omega) (by omega)⟩) ?_
      rintro _ ν2 ⟨o2, e2⟩
      refine wp_conseq (ih a (by omega) ha b0m b0n (by simp [MatV.sub]) (by simp [MatV.sub])
        (by simp [MatV.sub]) (by simp [MatV.sub]) hC0 (hA0.sub_right (by omega) (by omega))
        (hB0.sub_right (by omega) (by omega))) ?_
      rintro _ ν3 ⟨o3, e3⟩
      have O1 : Only C μ ν1 := o1.sub (by omega) (by omega)
      have O2 : Only C μ ν2 := O1.trans (o2.sub (by omega) (by omega))
      refine ⟨O2.trans (o3.sub (by omega) (by omega)), ?_⟩
      rw [mat_opF_keep hB b1m b1n (O1.keep hB1),
        show opF .NoTrans (entry ν1 (A.sub 0 a a (a + b))) = entry ν1 (A.sub 0 a a (a + b)) from rfl,
        mat_keep (by simp [MatV.sub]) (by simp [MatV.sub]) (O1.keep hAo)] at e2
      rw [mat_opF_keep hB b0m b0n (O2.keep hB0),
        mat_tri_keep (by simp [MatV.sub]) (by simp [MatV.sub]) (O2.keep hA0), e2] at e3
      rw [opF_opSub hB] at e1 e3
      rw [opF_opSub hB] at e3
      simp only [sh_entry, sh_zero] at e1 e3
      have f1 := o2.blk hC (by omega) (by omega) (p := b) (q := n) (r := a) (c := 0) (by omega) (by omega) (by omega)
      have f2 := o3.blk hC (by omega) (by omega) (p := b) (q := n) (r := a) (c := 0) (by omega) (by omega) (by omega)
      have f3 := o1.blk hC (by omega) (by omega) (p := a) (q := n) (r := 0) (c := 0) (by omega) (by omega) (by omega)
      simp only [sh_zero] at f3
      refine mat_ax_rows ?_ ?_
      · rw [e3, f3, mat_mul_inner, triU_01]
        simp only [smul_add, Coef.toVal, one_smul]
        abel
      · rw [f2, f1, e1, mat_mul_inner, triU_10, sh_sh]
        simp only [Nat.zero_add, Nat.add_zero]
        rw [triF_sh (Or.inl rfl), Matrix.zero_mul, zero_add]
    · simp only [reduceCtorEq, reduceIte]
      refine wp_slice (by omega) (by omega) (by omega) (by omega) ?_
      refine wp_sliceChk (by omega) (by omega) (by omega) (by omega) ?_
      refine wp_opSlice (by omega) (by omega) (by omega) (by omega) ?_
      refine wp_opSlice (by omega) (by omega) (by omega) (by omega) ?_
      rw [dif_neg (by omega)]
      simp only [wp_bind]
      have hAo : (A.sub a (a + b) 0 a).Disj C := hA.sub_left (by omega) (by omega)
      refine wp_conseq (ih a (by omega) ha b0m b0n (by simp [MatV.sub]) (by simp [MatV.sub])
        (by simp [MatV.sub]) (by simp [MatV.sub]) hC0 (hA0.sub_right (by omega) (by omega))
        (hB0.sub_right (by omega) (by omega))) ?_
      rintro _ ν1 ⟨o1, e1⟩
      refine wp_conseq (wp_gemm_m (m := b) (n := n) (k := a) ⟨by decide, hB, by simp [MatV.sub],
        by simp [MatV.sub], b0m, b0n, by simp [MatV.sub], by simp [MatV.sub], hC1,
        hAo.sub_right (by omega) (by omega), hB0.sub_right (by omega) (by omega)⟩) ?_
      rintro _ ν2 ⟨o2, e2⟩
      refine wp_conseq (ih b (by omega) hb b1m b1n (by simp [MatV.sub]) (by simp [MatV.sub])
        (by simp [MatV.sub]) (by simp [MatV.sub]) hC1 (hA1.sub_right (by omega) (by omega))
        (hB1.sub_right (by omega) (by omega))) ?_
      rintro _ ν3 ⟨o3, e3⟩
      have O1 : Only C μ ν1 := o1.sub (by omega) (by omega)
      have O2 : Only C μ ν2 := O1.trans (o2.sub (by omega) (by omega))
      refine ⟨O2.trans (o3.sub (by omega) (by omega)), ?_⟩
      rw [mat_opF_keep hB b0m b0n (O1.keep hB0),
        show opF .NoTrans (entry ν1 (A.sub a (a + b) 0 a)) = entry ν1 (A.sub a (a + b) 0 a) from rfl,
        mat_keep (by simp [MatV.sub]) (by simp [MatV.sub]) (O1.keep hAo)] at e2
      rw [mat_opF_keep hB b1m b1n (O2.keep hB1),
        mat_tri_keep (by simp [MatV.sub]) (by simp [MatV.sub]) (O2.keep hA1), e2] at e3
      rw [opF_opSub hB] at e1 e3
      rw [opF_opSub hB] at e3
      simp only [sh_entry, sh_zero] at e1 e3
      have f1 := o2.blk hC (by omega) (by omega) (p := a) (q := n) (r := 0) (c := 0) (by omega) (by omega) (by omega)
      have f2 := o3.blk hC (by omega) (by omega) (p := a) (q := n) (r := 0) (c := 0) (by omega) (by omega) (by omega)
      have f3 := o1.blk hC (by omega) (by omega) (p := b) (q := n) (r := a) (c := 0) (by omega) (by omega) (by omega)
      simp only [sh_zero] at f1 f2
      refine mat_ax_rows ?_ ?_
      · rw [f2, f1, e1, mat_mul_inner, triL_01, Matrix.zero_mul, add_zero]
      · rw [e3, f3, mat_mul_inner, triL_10, sh_sh]
        simp only [Nat.zero_add, Nat.add_zero]
        rw [triF_sh (Or.inr rfl)]
        simp only [smul_add, Coef.toVal, one_smul]
        abel

end TLA
