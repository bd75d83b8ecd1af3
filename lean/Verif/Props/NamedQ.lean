import Verif.Props.BlockRefl
import Verif.Model.NamedQ
import Verif.Proofs.TikAlg
set_option linter.unusedTactic false
set_option linter.unusedVariables false
set_option linter.unusedSectionVars false

/-!
# C99: factor, then generate or apply Q
-/

namespace TLA
open Finset
variable {L 𝕜 : Type} [DecidableEq L] [RCLike 𝕜] [DecidableEq 𝕜] {p : HhPar}

/-- The columns `s, s+1, ...` of the identity. -/
def shEye (m n s : Nat) : Matrix (Fin m) (Fin n) 𝕜 := mat m n fun r c => if r = s + c then 1 else 0

theorem shEye_iso {m n s : Nat} (h : s + n ≤ m) : (shEye (𝕜 := 𝕜) m n s).conjTranspose * shEye (𝕜 := 𝕜) m n s = (1 : Matrix (Fin n) (Fin n) 𝕜) := by
  ext i j
  rw [Matrix.mul_apply, Finset.sum_eq_single ⟨s + i, by have := i.2; omega⟩]
  · simp only [Matrix.conjTranspose_apply, shEye, mat, Matrix.of_apply, if_true, star_one, one_mul]
    by_cases e : i = j
    · subst e; simp
    · rw [Matrix.one_apply_ne e, if_neg (fun e' => e (Fin.ext (by simpa using e')))]
  · intro b _ hb
    simp only [Matrix.conjTranspose_apply, shEye, mat, Matrix.of_apply]
    rw [if_neg (fun e => hb (Fin.ext (by simpa using e))), star_zero, zero_mul]
  · exact fun h => absurd (mem_univ _) h

theorem shEye_mul {m n s : Nat} (h : s + n ≤ m) (F : Nat → Nat → 𝕜) :
    shEye m n s * mat n n F = mat m n fun r c => if s ≤ r ∧ r < s + n then F (r - s) c else 0 := by
  ext i j
  simp only [Matrix.mul_apply, shEye, mat, Matrix.of_apply]
  split
  next e =>
    rw [Finset.sum_eq_single ⟨i - s, by omega⟩]
    · rw [if_pos (by simp; omega), one_mul]
    · intro b _ hb
      rw [if_neg (fun e' => hb (Fin.ext (by simp; omega))), zero_mul]
    · exact fun h => absurd (mem_univ _) h
  next e =>
    refine Finset.sum_eq_zero fun b _ => ?_
    have := b.2
    rw [if_neg (by omega), zero_mul]

theorem shEye_eye {m n : Nat} (dir : Direction) (h : n ≤ m) : mat m n (eyeF (T := 𝕜) dir m n) = shEye m n (if dir = .Forward then 0 else m - n) := by
  unfold shEye
  rw [mat_ext_iff]
  intro r c hr hc
  unfold eyeF
  cases dir
  · simp
  · simp only [reduceCtorEq, if_false]
    by_cases e : r + n = c + m
    · rw [if_pos e, if_pos (by omega)]
    · rw [if_neg e, if_neg (by omega)]

theorem thin_cols {m n s : Nat} (h : s + n ≤ m) {Q : Matrix (Fin m) (Fin m) 𝕜} (hQ : Q.conjTranspose * Q = 1) {A0 A2 : Matrix (Fin m) (Fin n) 𝕜} {R : Matrix (Fin m) (Fin n) 𝕜}
    {F : Nat → Nat → 𝕜} (h0 : A0 = Q * R) (h2 : A2 = Q * shEye m n s) (hR : R = mat m n fun r c => if s ≤ r ∧ r < s + n then F (r - s) c else 0) :
    A0 = A2 * mat n n F ∧ A2.conjTranspose * A2 = 1 := by
  constructor
  · rw [h2, Matrix.mul_assoc, shEye_mul h, h0, hR]
  · rw [h2, Matrix.conjTranspose_mul, Matrix.mul_assoc, ← Matrix.mul_assoc _ Q, hQ, Matrix.one_mul, shEye_iso h]

theorem thin_rows {m n s : Nat} (h : s + n ≤ m) {Q : Matrix (Fin m) (Fin m) 𝕜} (hQ : Q * Q.conjTranspose = 1) {A0 A2 : Matrix (Fin n) (Fin m) 𝕜} {R : Matrix (Fin n) (Fin m) 𝕜}
    {F : Nat → Nat → 𝕜} (h0 : A0 = R * Q) (h2 : A2 = (shEye m n s).transpose * Q) (hR : R = mat n m fun r c => if s ≤ c ∧ c < s + n then F r (c - s) else 0) :
    A0 = mat n n F * A2 ∧ A2 * A2.conjTranspose = 1 := by
  have t := shEye_mul h fun r c => F c r
  have t' := congrArg Matrix.transpose t
  rw [Matrix.transpose_mul, mat_transpose, mat_transpose] at t'
  have sr : (shEye (𝕜 := 𝕜) m n s).conjTranspose = (shEye m n s).transpose := by
    unfold shEye
    rw [mat_conjTranspose, mat_transpose, mat_ext_iff]
    intro r c _ _
    simp only [apply_ite star, star_one, star_zero]
  have sc : ((shEye (𝕜 := 𝕜) m n s).transpose).conjTranspose = shEye m n s := by
    rw [← sr, Matrix.conjTranspose_conjTranspose]
  constructor
  · rw [h2, ← Matrix.mul_assoc, t', h0, hR]
  · rw [h2, Matrix.conjTranspose_mul, sc, Matrix.mul_assoc, ← Matrix.mul_assoc Q, hQ, Matrix.one_mul, ← sr, shEye_iso h]

/-- **C99** geqrf followed by ungqr: `A = Q R` with `Q` the matrix left by ungqr, `QᴴQ = 1`, and `R` the upper triangle left by geqrf. -/
theorem C99_geqrf_ungqr (hl : HhLaws 𝕜 p) (hreal : (hhOps (𝕜 := 𝕜) p).isReal = true → ∀ z : 𝕜, star z = z) (A : MatV L) (tau work : VecV L) {nb nb' : Nat}
    (ok : UngqBlkOK nb' .Forward .Columnwise A tau work) (ht : tau.n = A.n) (hnb : 0 < nb) (hw : (geqrfWorksize A nb).size ≤ work.n) (μ : Store L 𝕜)
    (hb : ∀ c, c < A.n → ∑ r ∈ range A.m, ‖entry μ A r c‖ ^ 2 ≤ p.tbig ^ 2) :
    ∃ ν1 ν2, geqrf (hhOps p) nb A tau work μ = (.ok 0, ν1) ∧ ungqr (hhOps (𝕜 := 𝕜) p).isReal nb' A tau work ν1 = (.ok 0, ν2) ∧
      mat A.m A.n (entry μ A) = mat A.m A.n (entry ν2 A) * mat A.n A.n (fun r c => if c < r then 0 else entry ν1 A r c) ∧
      (mat A.m A.n (entry ν2 A)).conjTranspose * mat A.m A.n (entry ν2 A) = 1 ∧ ∀ l, ¬ A.Owns l → ¬ tau.Owns l → ¬ work.Owns l → ν2 l = μ l := by
  have hmn : A.n ≤ A.m := (show A.n ≤ A.m ∧ _ from ok.shape).1
  have hk : min A.m A.n = A.n := by omega
  obtain ⟨ν1, e1, ⟨f1, u1⟩, -, fr1⟩ := C46_geqrf hl hreal A tau work ok.toQrOK (by omega) nb hnb hw μ hb
  obtain ⟨ν2, e2, f2, fr2⟩ := C47_ungq_columnwise _ nb' .Forward A tau work hreal ok ν1
  rw [hk] at f1 u1
  rw [shEye_eye _ hmn] at f2
  simp only [if_true] at f2
  rw [ht] at f2
  have := thin_cols (s := 0) (by omega) u1 (F := fun r c => if c < r then 0 else entry ν1 A r c) f1 f2 (by
    rw [mat_ext_iff]
    intro r c hr hc
    unfold triF
    by_cases e : r = c
    · subst e; rw [if_pos rfl, if_pos (by omega)]; simp
    · rw [if_neg e]
      by_cases e2 : r < c
      · rw [if_pos (by simp only [inTri]; omega), if_pos (by omega), if_neg (by omega)]; rfl
      · rw [if_neg (by simp only [inTri]; omega)]
        split
        · rw [if_pos (by omega)]
        · rfl)
  refine ⟨ν1, ν2, e1, e2, this.1, this.2, fun l a b c => (fr2 l a c).trans (fr1 l a (fun ⟨i, hi, ho⟩ => b ⟨i, ?_, by simpa [VecV.sub] using ho⟩) c)⟩
  simp only [VecV.sub] at hi; omega

/-- **C99** geqlf followed by ungql: `A = Q L` with `L` the lower triangle of the last rows. -/
theorem C99_geqlf_ungql (hl : HhLaws 𝕜 p) (hreal : (hhOps (𝕜 := 𝕜) p).isReal = true → ∀ z : 𝕜, star z = z) (A : MatV L) (tau work : VecV L) {nb nb' : Nat}
    (ok : UngqBlkOK nb' .Backward .Columnwise A tau work) (ht : tau.n = A.n) (hnb : 0 < nb) (hw : (geqlfWorksize A nb).size ≤ work.n) (μ : Store L 𝕜)
    (hb : ∀ c, c < A.n → ∑ r ∈ range A.m, ‖entry μ A r c‖ ^ 2 ≤ p.tbig ^ 2) :
    ∃ ν1 ν2, geqlf (hhOps p) nb A tau work μ = (.ok 0, ν1) ∧ ungql (hhOps (𝕜 := 𝕜) p).isReal nb' A tau work ν1 = (.ok 0, ν2) ∧
      mat A.m A.n (entry μ A) = mat A.m A.n (entry ν2 A) * mat A.n A.n (fun r c => if r < c then 0 else entry ν1 A (A.m - A.n + r) c) ∧
      (mat A.m A.n (entry ν2 A)).conjTranspose * mat A.m A.n (entry ν2 A) = 1 ∧ ∀ l, ¬ A.Owns l → ¬ tau.Owns l → ¬ work.Owns l → ν2 l = μ l := by
  have hmn : A.n ≤ A.m := (show A.n ≤ A.m ∧ _ from ok.shape).1
  have hk : min A.m A.n = A.n := by omega
  obtain ⟨ν1, e1, ⟨f1, u1, -⟩, fr1⟩ := C46_geqlf hl hreal A tau work ok.toQrOK (by omega) nb hnb hw μ hb
  obtain ⟨ν2, e2, f2, fr2⟩ := C47_ungq_columnwise _ nb' .Backward A tau work hreal ok ν1
  rw [hk] at f1 u1
  rw [shEye_eye _ hmn] at f2
  simp only [reduceCtorEq, if_false] at f2
  rw [ht] at f2
  have := thin_cols (s := A.m - A.n) (by omega) u1 (F := fun r c => if r < c then 0 else entry ν1 A (A.m - A.n + r) c) f1 f2 (by
    rw [mat_ext_iff]
    intro r c hr hc
    by_cases e : r + A.n < c + A.m
    · rw [if_pos e]
      split
      · rw [if_pos (by omega)]
      · rfl
    · rw [if_neg e, if_pos (by omega), if_neg (by omega), show A.m - A.n + (r - (A.m - A.n)) = r by omega])
  refine ⟨ν1, ν2, e1, e2, this.1, this.2, fun l a b c => (fr2 l a c).trans (fr1 l a (fun ⟨i, hi, ho⟩ => b ⟨i, ?_, by simpa [VecV.sub] using ho⟩) c)⟩
  simp only [VecV.sub] at hi; omega

/-- **C99** gelqf followed by unglq: `A = L Q` with `Q Qᴴ = 1`. -/
theorem C99_gelqf_unglq (hl : HhLaws 𝕜 p) (hreal : (hhOps (𝕜 := 𝕜) p).isReal = true → ∀ z : 𝕜, star z = z) (A : MatV L) (tau work : VecV L) {nb nb' : Nat}
    (ok : UngqBlkOK nb' .Forward .Rowwise A tau work) (ht : tau.n = A.m) (hnb : 0 < nb) (hw : (gelqfWorksize A nb).size ≤ work.n) (μ : Store L 𝕜)
    (hb : ∀ r, r < A.m → ∑ c ∈ range A.n, ‖entry μ A r c‖ ^ 2 ≤ p.tbig ^ 2) :
    ∃ ν1 ν2, gelqf (hhOps p) nb A tau work μ = (.ok 0, ν1) ∧ unglq (hhOps (𝕜 := 𝕜) p).isReal nb' A tau work ν1 = (.ok 0, ν2) ∧
      mat A.m A.n (entry μ A) = mat A.m A.m (fun r c => if r < c then 0 else entry ν1 A r c) * mat A.m A.n (entry ν2 A) ∧
      mat A.m A.n (entry ν2 A) * (mat A.m A.n (entry ν2 A)).conjTranspose = 1 ∧ ∀ l, ¬ A.Owns l → ¬ tau.Owns l → ¬ work.Owns l → ν2 l = μ l := by
  have hmn : A.m ≤ A.n := (show A.m ≤ A.n ∧ _ from ok.shape).1
  have hk : min A.m A.n = A.m := by omega
  obtain ⟨ν1, e1, ⟨f1, u1⟩, -, fr1⟩ := C46_gelqf hl hreal A tau work ok.toQrOK (by omega) nb hnb hw μ hb
  obtain ⟨ν2, e2, f2, fr2⟩ := C47_ungq_rowwise _ nb' .Forward A tau work hreal ok ν1
  rw [hk] at f1 u1
  rw [shEye_eye _ hmn] at f2
  simp only [if_true] at f2
  rw [ht] at f2
  have := thin_rows (s := 0) (by omega) u1 (F := fun r c => if r < c then 0 else entry ν1 A r c) f1 f2 (by
    rw [mat_ext_iff]
    intro r c hr hc
    unfold triF
    by_cases e : r = c
    · subst e; rw [if_pos rfl, if_pos (by omega)]; simp
    · rw [if_neg e]
      by_cases e2 : c < r
      · rw [if_pos (by simp only [inTri]; omega), if_pos (by omega), if_neg (by omega)]; rfl
      · rw [if_neg (by simp only [inTri]; omega)]
        split
        · rw [if_pos (by omega)]
        · rfl)
  refine ⟨ν1, ν2, e1, e2, this.1, this.2, fun l a b c => (fr2 l a c).trans (fr1 l a (fun ⟨i, hi, ho⟩ => b ⟨i, ?_, by simpa [VecV.sub] using ho⟩) c)⟩
  simp only [VecV.sub] at hi; omega

/-- **C99** gerqf followed by ungrq: `A = R Q` with `R` the upper triangle of the last columns. -/
theorem C99_gerqf_ungrq (hl : HhLaws 𝕜 p) (hreal : (hhOps (𝕜 := 𝕜) p).isReal = true → ∀ z : 𝕜, star z = z) (A : MatV L) (tau work : VecV L) {nb nb' : Nat}
    (ok : UngqBlkOK nb' .Backward .Rowwise A tau work) (ht : tau.n = A.m) (hnb : 0 < nb) (hw : (gerqfWorksize A nb).size ≤ work.n) (μ : Store L 𝕜)
    (hb : ∀ r, r < A.m → ∑ c ∈ range A.n, ‖entry μ A r c‖ ^ 2 ≤ p.tbig ^ 2) :
    ∃ ν1 ν2, gerqf (hhOps p) nb A tau work μ = (.ok 0, ν1) ∧ ungrq (hhOps (𝕜 := 𝕜) p).isReal nb' A tau work ν1 = (.ok 0, ν2) ∧
      mat A.m A.n (entry μ A) = mat A.m A.m (fun r c => if c < r then 0 else entry ν1 A r (A.n - A.m + c)) * mat A.m A.n (entry ν2 A) ∧
      mat A.m A.n (entry ν2 A) * (mat A.m A.n (entry ν2 A)).conjTranspose = 1 ∧ ∀ l, ¬ A.Owns l → ¬ tau.Owns l → ¬ work.Owns l → ν2 l = μ l := by
  have hmn : A.m ≤ A.n := (show A.m ≤ A.n ∧ _ from ok.shape).1
  have hk : min A.m A.n = A.m := by omega
  obtain ⟨ν1, e1, ⟨f1, u1, -⟩, fr1⟩ := C46_gerqf hl hreal A tau work ok.toQrOK (by omega) nb hnb hw μ hb
  obtain ⟨ν2, e2, f2, fr2⟩ := C47_ungq_rowwise _ nb' .Backward A tau work hreal ok ν1
  rw [hk] at f1 u1
  rw [shEye_eye _ hmn] at f2
  simp only [reduceCtorEq, if_false] at f2
  rw [ht] at f2
  have := thin_rows (s := A.n - A.m) (by omega) u1 (F := fun r c => if c < r then 0 else entry ν1 A r (A.n - A.m + c)) f1 f2 (by
    rw [mat_ext_iff]
    intro r c hr hc
    by_cases e : c + A.m < r + A.n
    · rw [if_pos e]
      split
      · rw [if_pos (by omega)]
      · rfl
    · rw [if_neg e, if_pos (by omega), if_neg (by omega), show A.n - A.m + (c - (A.n - A.m)) = c by omega])
  refine ⟨ν1, ν2, e1, e2, this.1, this.2, fun l a b c => (fr2 l a c).trans (fr1 l a (fun ⟨i, hi, ho⟩ => b ⟨i, ?_, by simpa [VecV.sub] using ho⟩) c)⟩
  simp only [VecV.sub] at hi; omega

/-- **C99** For a unitary `Q`, applying `op(Q)` and then its inverse gives `C` back; every direction, storage and side, any two block sizes. -/
theorem C99_unmq_restores (isReal : Bool) {nb nb' : Nat} {side : Side} (dir : Direction) {store : StoreV} {V : MatV L} {tau : VecV L} {C : MatV L} {work : VecV L}
    (ok : UnmqBlkOK nb side store V tau C work) (ok' : UnmqBlkOK nb' side store V tau C work) (hreal : isReal = true → ∀ z : 𝕜, star z = z) (adj : Bool) (μ : Store L 𝕜)
    (hQ : ∀ q, q = (if side = .Left then C.m else C.n) →
      (houseQ dir store q tau.n (entry μ V) (ventry μ tau)).conjTranspose * houseQ dir store q tau.n (entry μ V) (ventry μ tau) = 1) :
    ∃ ν1 ν2, unmqBlk isReal nb side (if adj then .ConjTrans else .NoTrans) dir store V tau C work μ = (.ok 0, ν1) ∧
      unmqBlk isReal nb' side (if adj then .NoTrans else .ConjTrans) dir store V tau C work ν1 = (.ok 0, ν2) ∧
      mat C.m C.n (entry ν2 C) = mat C.m C.n (entry μ C) ∧ ∀ l, ¬ C.Owns l → ¬ work.Owns l → ν2 l = μ l := by
  obtain ⟨ν1, e1, f1, fr1⟩ := C47_unmq isReal nb side (if adj then .ConjTrans else .NoTrans) dir store V tau C work ok (by cases adj <;> simp) hreal μ
  obtain ⟨ν2, e2, f2, fr2⟩ := C47_unmq isReal nb' side (if adj then .NoTrans else .ConjTrans) dir store V tau C work ok' (by cases adj <;> simp) hreal ν1
  refine ⟨ν1, ν2, e1, e2, ?_, fun l a b => (fr2 l a b).trans (fr1 l a b)⟩
  have hv : ∀ q, q = (if side = .Left then C.m else C.n) →
      houseQ dir store q tau.n (entry ν1 V) (ventry ν1 tau) = houseQ dir store q tau.n (entry μ V) (ventry μ tau) := by
    intro q hq
    have hvm := ok.vm
    rw [← hq] at hvm
    refine houseQ_congr (fun i r hi hr => ?_) (fun i hi => fr1 _ (ok.tC i hi) (ok.tw i hi))
    unfold houseVec
    cases store
    · simp only [if_true] at hvm ⊢
      rw [show entry ν1 V r i = entry μ V r i from fr1 _ (ok.VC r i (by omega) (by omega)) (ok.Vw r i (by omega) (by omega))]
    · simp only [reduceCtorEq, if_false] at hvm ⊢
      rw [show entry ν1 V i r = entry μ V i r from fr1 _ (ok.VC i r (by omega) (by omega)) (ok.Vw i r (by omega) (by omega))]
  rw [f2, f1]
  rcases ok.hside with rfl | rfl
  · have h1 := hQ C.m rfl
    have h2 := mul_eq_one_comm.1 h1
    simp only [if_true]
    rw [hv C.m rfl]
    cases adj
    · simp only [opQ, Bool.false_eq_true, if_false]
      rw [← Matrix.mul_assoc, h1, Matrix.one_mul]
    · simp only [opQ, if_true]
      rw [← Matrix.mul_assoc, h2, Matrix.one_mul]
  · have h1 := hQ C.n rfl
    have h2 := mul_eq_one_comm.1 h1
    simp only [reduceCtorEq, if_false]
    rw [hv C.n rfl]
    cases adj
    · simp only [opQ, Bool.false_eq_true, if_false]
      rw [Matrix.mul_assoc, h2, Matrix.mul_one]
    · simp only [opQ, if_true]
      rw [Matrix.mul_assoc, h1, Matrix.mul_one]

/-- **C99** geqrf followed by unmqr with `Qᴴ`, applied to a copy of the original matrix, gives the triangular factor. -/
theorem C99_geqrf_unmqr (hl : HhLaws 𝕜 p) (hreal : (hhOps (𝕜 := 𝕜) p).isReal = true → ∀ z : 𝕜, star z = z) {A C : MatV L} {tau work : VecV L} {nb nb' : Nat}
    (okA : QrOK A tau work) (ok : UnmqBlkOK nb' .Left .Columnwise (A.sub 0 A.m 0 tau.n) tau C work) (ht : tau.n = min A.m A.n) (hnb : 0 < nb)
    (hw : (geqrfWorksize A nb).size ≤ work.n) (hm : C.m = A.m) (hn : C.n = A.n) (hAC : A.Disj C) (μ : Store L 𝕜)
    (hb : ∀ c, c < A.n → ∑ r ∈ range A.m, ‖entry μ A r c‖ ^ 2 ≤ p.tbig ^ 2) (hc : ∀ i j, i < A.m → j < A.n → entry μ C i j = entry μ A i j) :
    ∃ ν1 ν2, geqrf (hhOps p) nb A tau work μ = (.ok 0, ν1) ∧
      unmqr (hhOps (𝕜 := 𝕜) p).isReal nb' .Left .ConjTrans (A.sub 0 A.m 0 tau.n) tau C work ν1 = (.ok 0, ν2) ∧
      ∀ i j, i < A.m → j < A.n → entry ν2 C i j = if j < i then 0 else entry ν1 A i j := by
  obtain ⟨ν1, e1, ⟨f1, u1⟩, -, fr1⟩ := C46_geqrf hl hreal A tau work okA (by omega) nb hnb hw μ hb
  obtain ⟨ν2, e2, f2, fr2⟩ := C47_unmq _ nb' .Left .ConjTrans .Forward .Columnwise (A.sub 0 A.m 0 tau.n) tau C work ok (by simp) hreal ν1
  refine ⟨ν1, ν2, e1, e2, ?_⟩
  have c1 : mat C.m C.n (entry ν1 C) = mat C.m C.n (entry μ A) := by
    rw [mat_ext_iff]
    intro i j hi hj
    rw [← hc i j (by omega) (by omega)]
    refine fr1 _ ?_ ?_ ?_
    · rintro ⟨a, b, ha, hb, e⟩
      exact hAC a b ha hb ⟨i, j, hi, hj, e.symm⟩
    · rintro ⟨a, ha, e⟩
      exact ok.tC a (by simp only [VecV.sub] at ha; omega) ⟨i, j, hi, hj, by simpa [VecV.sub] using e.symm⟩
    · exact ok.Cw i j hi hj
  rw [← ht] at f1 u1
  have hv : houseQ .Forward .Columnwise C.m tau.n (entry ν1 (A.sub 0 A.m 0 tau.n)) (ventry ν1 tau) = houseQ .Forward .Columnwise C.m tau.n (entry ν1 A) (ventry ν1 tau) := by
    have : entry ν1 (A.sub 0 A.m 0 tau.n) = entry ν1 A := by
      funext i j
      simp [entry, MatV.sub]
    rw [this]
  rw [if_pos rfl, hv, c1] at f2
  clear hv c1 ok fr1 fr2
  obtain ⟨cm, cn, cc⟩ := C
  dsimp only at hm hn
  subst hm hn
  rw [f1] at f2
  simp only [opQ] at f2
  rw [← Matrix.mul_assoc, u1, Matrix.one_mul] at f2
  intro i j hi hj
  rw [mat_ext_iff.1 f2 i j hi hj]
  unfold triF
  by_cases e : i = j
  · subst e; simp
  · rw [if_neg e]
    by_cases e2 : i < j
    · rw [if_pos (by simp only [inTri]; omega), if_neg (by omega)]
    · rw [if_neg (by simp only [inTri]; omega), if_pos (by omega)]

/-- A 5×4 and a 4×5 matrix of ones, blocks of two and three; a copy of the first for unmqr. -/
example : UngqBlkOK 2 .Forward .Columnwise (mkM 0 5 4) (mkV 1 4) (mkV 2 20) ∧ UngqBlkOK 3 .Backward .Rowwise (mkM 0 4 5) (mkV 1 4) (mkV 2 20) ∧
    (geqrfWorksize (mkM 0 5 4) 2).size ≤ 20 ∧ (gerqfWorksize (mkM 0 4 5) 3).size ≤ 20 ∧
    UnmqBlkOK 2 .Left .Columnwise ((mkM 0 5 4).sub 0 5 0 4) (mkV 1 4) (mkM 3 5 4) (mkV 2 20) ∧ (mkM 0 5 4).Disj (mkM 3 5 4) ∧
    (∀ c, c < (mkM 0 5 4).n → ∑ r ∈ range (mkM 0 5 4).m, ‖entry (fun _ => (1 : ℂ)) (mkM 0 5 4) r c‖ ^ 2 ≤ (doublePar false).tbig ^ 2) := by
  refine ⟨⟨⟨?_, ?_, ?_, ?_, ?_, ?_⟩, ?_, ?_, ?_, ?_⟩, ⟨⟨?_, ?_, ?_, ?_, ?_, ?_⟩, ?_, ?_, ?_, ?_⟩, ?_, ?_,
    ⟨?_, ?_, ?_, fun i j hi hj => (show MatV.Disj (mkM 0 5 4) (mkM 3 5 4) from mkM_disj (by decide)) (0 + i) (0 + j) (by simp [MatV.sub] at hi; simpa [mkM] using hi) (by simp [MatV.sub] at hj; simpa [mkM] using hj),
      fun i j hi hj => (show MatV.DisjV (mkM 0 5 4) (mkV 2 20) from mkM_disjV (by decide)) (0 + i) (0 + j) (by simp [MatV.sub] at hi; simpa [mkM] using hi) (by simp [MatV.sub] at hj; simpa [mkM] using hj),
      ?_, ?_, ?_, ?_, ?_, ?_, ?_⟩, ?_, fun c _ => ?_⟩ <;> try adm
  simp only [entry, norm_one, mkM, doublePar]
  simp only [one_pow, Finset.sum_const, Finset.card_range, nsmul_eq_mul, mul_one]
  rw [← pow_mul]
  refine le_trans ?_ (pow_le_pow_right₀ (by norm_num : (1 : ℝ) ≤ 2) (by norm_num : 3 ≤ 486 * 2))
  norm_num

end TLA
