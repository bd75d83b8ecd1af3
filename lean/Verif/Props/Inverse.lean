import Verif.Props.Cholesky
import Verif.Proofs.Trtri
import Verif.Proofs.MultLlh
import Verif.Proofs.Pttrf

/-!
# C33, C36, C41, C42: triangular inversion, solving and inverting with a Cholesky factor,
triangular products, tridiagonal factorization
-/

set_option linter.unusedTactic false
set_option linter.unreachableTactic false

namespace TLA
variable {L T 𝕜 : Type} [DecidableEq L] [RCLike 𝕜]
open scoped ComplexOrder

/-! ### C33: trtri_recursive -/

/-- **C33** If every used diagonal entry is nonzero (always so with a unit diagonal), trtri_recursive
returns 0, never throws, and the selected triangle holds the inverse of the triangular matrix it
held before.  Cells outside the triangle, and the diagonal if `diag` is Unit, are unchanged. -/
theorem C33_trtri [Field T] [StarRing T] [DecidableEq T] (thr : Bool) (uplo : Uplo)
    (hu : uplo = .Upper ∨ uplo = .Lower) (diag : Diag) (C : MatV L) (n : Nat) (hC : C.Inj)
    (hm : C.m = n) (hn : C.n = n) (μ : Store L T)
    (hd : diag = .NonUnit → ∀ i, i < n → entry μ C i i ≠ 0) :
    ∃ ν, trtri thr uplo diag C μ = (.ok 0, ν) ∧
      mat n n (triF uplo diag (entry ν C)) * mat n n (triF uplo diag (entry μ C)) = 1 ∧
      mat n n (triF uplo diag (entry μ C)) * mat n n (triF uplo diag (entry ν C)) = 1 ∧
      SameOff C uplo μ ν ∧ (diag = .Unit → ∀ i, i < n → entry ν C i i = entry μ C i i) := by
  obtain ⟨r, ν, h, rfl, o, e⟩ := wp_iff.1 (wp_trtri (diag := diag) hu n thr C μ hm hn hC hd)
  refine ⟨ν, h, e, mul_eq_one_comm.1 e, ?_, ?_⟩
  · intro l hl
    refine o l (fun i j hi hj ht => hl i j hi hj ?_)
    cases diag with
    | NonUnit => exact ht
    | Unit => rcases hu with rfl | rfl <;> exact Nat.le_of_lt ht
  · rintro rfl i hi
    refine o _ (fun i' j' hi' hj' ht he => ?_)
    obtain ⟨rfl, rfl⟩ := hC _ _ _ _ hi' hj' (by omega) (by omega) he
    rcases hu with rfl | rfl <;> exact absurd ht (Nat.lt_irrefl _)

/-- **C33** With a non-unit diagonal whose first zero is entry `k`: without errors the result is
`k + 1`; with errors enabled the routine throws, and the code it carries is always 1 (the inner
recursive call throws first), not the documented `k + 1`.  Only the triangle is written. -/
theorem C33_trtri_singular [Field T] [StarRing T] [DecidableEq T] (thr : Bool) (uplo : Uplo)
    (hu : uplo = .Upper ∨ uplo = .Lower) (C : MatV L) (n : Nat) (hC : C.Inj)
    (hm : C.m = n) (hn : C.n = n) (μ : Store L T) (k : Nat) (hk : k < n)
    (h0 : entry μ C k k = 0) (hlt : ∀ i, i < k → entry μ C i i ≠ 0) :
    ∃ ν, trtri thr uplo .NonUnit C μ = (if thr then .error (.runtime 1) else .ok (k + 1), ν) ∧
      SameOff C uplo μ ν := by
  have h := wp_trtri_fail (L := L) hu n thr C μ k hm hn hC hk h0 hlt
  unfold wp at h
  rcases hp : trtri thr uplo .NonUnit C μ with ⟨r, ν⟩
  rw [hp] at h
  cases r with
  | ok r => obtain ⟨rfl, rfl, o⟩ := h; exact ⟨ν, rfl, o⟩
  | error e => obtain ⟨rfl, rfl, o⟩ := h; exact ⟨ν, rfl, o⟩

/-- **C33** It fails exactly when some diagonal entry is zero. -/
theorem C33_trtri_fails_iff [Field T] [StarRing T] [DecidableEq T] (thr : Bool) (uplo : Uplo)
    (hu : uplo = .Upper ∨ uplo = .Lower) (C : MatV L) (n : Nat) (hC : C.Inj)
    (hm : C.m = n) (hn : C.n = n) (μ : Store L T) :
    (trtri thr uplo .NonUnit C μ).1 = .ok 0 ↔ ∀ i, i < n → entry μ C i i ≠ 0 := by
  constructor
  · intro h
    by_contra hc
    push Not at hc
    classical
    have hc' : ∃ i, i < n ∧ entry μ C i i = 0 := hc
    obtain ⟨h1, h2⟩ := Nat.find_spec hc'
    obtain ⟨ν, e, _⟩ := C33_trtri_singular (L := L) thr uplo hu C n hC hm hn μ (Nat.find hc') h1 h2
      (fun i hi he => Nat.find_min hc' hi ⟨by omega, he⟩)
    rw [e] at h
    cases thr <;> simp at h
  · intro h
    obtain ⟨ν, e, _⟩ := C33_trtri (L := L) thr uplo hu .NonUnit C n hC hm hn μ (fun _ => h)
    rw [e]

/-- A nonsingular 3 × 3 case. -/
example : ∃ ν, trtri (T := ℝ) true .Lower .NonUnit (mkM 0 3 3) diagStore = (.ok 0, ν) := by
  classical
  obtain ⟨ν, h, _⟩ := C33_trtri (T := ℝ) true .Lower (Or.inr rfl) .NonUnit (mkM 0 3 3) 3 (mkM_inj _ _ _)
    rfl rfl diagStore (fun _ i _ => by simp [entry, mkM, diagStore]; positivity)
  exact ⟨ν, h⟩

/-- A singular case: the zero matrix reports its first diagonal entry. -/
example : ∃ ν, trtri (T := ℚ) false .Upper .NonUnit (mkM 0 4 4) (fun _ => 0) = (.ok 1, ν) := by
  obtain ⟨ν, h, _⟩ := C33_trtri_singular (T := ℚ) false .Upper (Or.inl rfl) (mkM 0 4 4) 4
    (mkM_inj _ _ _) rfl rfl (fun _ => 0) 0 (by omega) rfl (fun i hi => by omega)
  exact ⟨ν, h⟩

/-! ### C41: lauum_recursive, mult_llh, mult_uhu -/

variable [Field T] [StarRing T] [ReIm T] [ExactScalar T] [RealOps T]

/-- The selected triangle of `C` holds that triangle of `G`, and nothing outside the triangle
changed. -/
def HoldsTri (uplo : Uplo) (C : MatV L) (n : Nat) (μ ν : Store L T) (G : Matrix (Fin n) (Fin n) T) :
    Prop :=
  (∀ i j : Fin n, inTri uplo i j → entry ν C i j = G i j) ∧ SameOff C uplo μ ν

/-- **C41** lauum_recursive overwrites the selected triangle by that of `U Uᴴ` resp. `Lᴴ L`. -/
theorem C41_lauum (uplo : Uplo) (hu : uplo = .Upper ∨ uplo = .Lower) (C : MatV L) (n : Nat)
    (hC : C.Inj) (hm : C.m = n) (hn : C.n = n) (μ : Store L T) :
    ∃ ν, lauum uplo C μ = (.ok (), ν) ∧ HoldsTri uplo C n μ ν
      (if uplo = .Upper then mat n n (triF .Upper .NonUnit (entry μ C)) *
          (mat n n (triF .Upper .NonUnit (entry μ C))).conjTranspose
        else (mat n n (triF .Lower .NonUnit (entry μ C))).conjTranspose *
          mat n n (triF .Lower .NonUnit (entry μ C))) := by
  obtain ⟨ν, h, o, r⟩ := wp_unit (wp_lauum hu n C μ hm hn hC)
  refine ⟨ν, h, fun i j ht => ?_, o⟩
  rw [r.entry i j ht]
  rcases hu with rfl | rfl
  · rfl
  · rw [if_neg (by decide), show facF .Lower (entry μ C) = starT (triF .Lower .NonUnit (entry μ C)) from rfl,
      mat_starT, Matrix.conjTranspose_conjTranspose]

/-- **C41** mult_llh overwrites the lower triangle by that of `L Lᴴ`, whatever the threshold. -/
theorem C41_mult_llh (nx : Nat) (hnx : 1 ≤ nx) (C : MatV L) (n : Nat)
    (hC : C.Inj) (hm : C.m = n) (hn : C.n = n) (μ : Store L T) :
    ∃ ν, multLlh nx C μ = (.ok (), ν) ∧ HoldsTri .Lower C n μ ν
      (mat n n (triF .Lower .NonUnit (entry μ C)) *
        (mat n n (triF .Lower .NonUnit (entry μ C))).conjTranspose) := by
  obtain ⟨ν, h, o, r⟩ := wp_unit (wp_multLlh hnx n C μ hm hn hC)
  exact ⟨ν, h, fun i j ht => r.entry i j ht, o⟩

/-- **C41** mult_uhu overwrites the upper triangle by that of `Uᴴ U`, whatever the threshold. -/
theorem C41_mult_uhu (nx : Nat) (hnx : 1 ≤ nx) (C : MatV L) (n : Nat)
    (hC : C.Inj) (hm : C.m = n) (hn : C.n = n) (μ : Store L T) :
    ∃ ν, multUhu nx C μ = (.ok (), ν) ∧ HoldsTri .Upper C n μ ν
      ((mat n n (triF .Upper .NonUnit (entry μ C))).conjTranspose *
        mat n n (triF .Upper .NonUnit (entry μ C))) := by
  obtain ⟨ν, h, o, r⟩ := wp_unit (wp_multUhu hnx n C μ hm hn hC)
  refine ⟨ν, h, fun i j ht => ?_, o⟩
  rw [r.entry i j ht, mat_starT, Matrix.conjTranspose_conjTranspose]

/-- **C41** mult_llh undoes a Cholesky factorization: potf2 followed by mult_llh restores the lower
triangle (real diagonal) of a positive definite matrix, and changes nothing else. -/
theorem C41_mult_llh_potf2 (nx : Nat) (hnx : 1 ≤ nx) (C : MatV L) (n : Nat)
    (hC : C.Inj) (hm : C.m = n) (hn : C.n = n) (μ ν : Store L 𝕜)
    (h : potf2 true .Lower C μ = (.ok 0, ν)) :
    ∃ ξ, multLlh nx C ν = (.ok (), ξ) ∧ HoldsTri .Lower C n μ ξ (hermMat .Lower n μ C) := by
  obtain ⟨f, o⟩ := C28_potf2 true .Lower (Or.inr rfl) C n hC hm hn μ ν h
  obtain ⟨ξ, h2, e, o2⟩ := C41_mult_llh nx hnx C n hC hm hn ν
  refine ⟨ξ, h2, fun i j ht => ?_, o.trans o2⟩
  rw [e i j ht, f.1, if_neg (by decide)]; rfl

example : ∃ ν, multLlh (T := ℂ) 2 (mkM 0 5 5) (fun _ => 1) = (.ok (), ν) := by
  obtain ⟨ν, h, _⟩ := C41_mult_llh (T := ℂ) 2 (by omega) (mkM 0 5 5) 5 (mkM_inj _ _ _) rfl rfl (fun _ => 1)
  exact ⟨ν, h⟩

/-! ### C36: potrs, potri -/

/-- **C36** potrs: if the selected triangle of `A` holds a Cholesky factor of `H`, then on exit
`B` holds the solution of `H X = B_in`; only `B` is written. -/
theorem C36_potrs (uplo : Uplo) (hu : uplo = .Upper ∨ uplo = .Lower) (A B : MatV L) (n k : Nat)
    (hm : A.m = n) (hn : A.n = n) (hbm : B.m = n) (hbn : B.n = k) (hB : B.Inj) (hd : A.Disj B)
    (μ : Store L 𝕜) (H : Matrix (Fin n) (Fin n) 𝕜) (hH : IsCholFactor uplo H (triMat uplo n μ A)) :
    ∃ ν, potrs uplo A B μ = (.ok (), ν) ∧ H * mat n k (entry ν B) = mat n k (entry μ B) ∧
      ∀ l, ¬ B.Owns l → ν l = μ l := by
  have hdiag : ∀ i, i < n → entry μ A i i ≠ 0 := by
    intro i hi he
    obtain ⟨d, hd0, hd1⟩ := hH.2 ⟨i, hi⟩
    unfold triMat mat triF at hd1
    rw [if_pos rfl] at hd1
    rw [show entry μ A i i = (d : 𝕜) from hd1, RCLike.ofReal_eq_zero] at he
    linarith
  have key : wp (potrs uplo A B) μ (fun _ ν => H * mat n k (entry ν B) = mat n k (entry μ B) ∧
      ∀ l, ¬ B.Owns l → ν l = μ l) := by
    unfold potrs
    simp only [wp_bind]
    refine wp_squareTriChecks hu (by omega) ?_
    rw [wp_check, if_pos (by simp; omega)]
    have hA : ∀ {ν : Store L 𝕜}, Only B μ ν → ∀ i j, i < n → j < n → entry ν A i j = entry μ A i j :=
      fun o i j hi hj => o _ (hd i j (by omega) (by omega))
    rcases hu with rfl | rfl
    · rw [if_pos rfl, wp_bind]
      refine wp_conseq (wp_trsmL_m (m := n) (n := k) hbm hbn ⟨Or.inl rfl, Or.inl rfl, by decide,
        by omega, by simp; omega, hB, hd⟩ (fun _ => hdiag)) ?_
      rintro _ ν1 ⟨o1, e1⟩
      refine wp_conseq (wp_trsmL_m (m := n) (n := k) hbm hbn ⟨Or.inl rfl, Or.inl rfl, by decide,
        by omega, by simp; omega, hB, hd⟩ (fun _ i hi => by rw [hA o1 i i hi hi]; exact hdiag i hi)) ?_
      rintro _ ν2 ⟨o2, e2⟩
      refine ⟨?_, o1.trans o2⟩
      rw [one_smul] at e1 e2
      rw [hH.1, if_pos rfl, Matrix.mul_assoc]
      have t : mat n n (opF .NoTrans (triF .Upper .NonUnit (entry ν1 A))) = triMat .Upper n μ A := by
        show mat n n (triF .Upper .NonUnit (entry ν1 A)) = mat n n (triF .Upper .NonUnit (entry μ A))
        exact mat_triF_congr (fun _ i hi => hA o1 i i hi hi) (fun i j hi hj _ _ => hA o1 i j hi hj)
      rw [t] at e2
      rw [e2]
      exact e1
    · rw [if_neg (by decide), wp_bind]
      refine wp_conseq (wp_trsmL_m (m := n) (n := k) hbm hbn ⟨Or.inl rfl, Or.inr rfl, by decide,
        by omega, by simp; omega, hB, hd⟩ (fun _ => hdiag)) ?_
      rintro _ ν1 ⟨o1, e1⟩
      refine wp_conseq (wp_trsmL_m (m := n) (n := k) hbm hbn ⟨Or.inl rfl, Or.inr rfl, by decide,
        by omega, by simp; omega, hB, hd⟩ (fun _ i hi => by rw [hA o1 i i hi hi]; exact hdiag i hi)) ?_
      rintro _ ν2 ⟨o2, e2⟩
      refine ⟨?_, o1.trans o2⟩
      rw [one_smul] at e1 e2
      rw [hH.1, if_neg (by decide), Matrix.mul_assoc]
      have t : mat n n (opF .ConjTrans (triF .Lower .NonUnit (entry ν1 A))) =
          (triMat .Lower n μ A).conjTranspose := by
        show (mat n n (triF .Lower .NonUnit (entry ν1 A))).conjTranspose = _
        rw [show mat n n (triF .Lower .NonUnit (entry ν1 A)) = triMat .Lower n μ A from
          mat_triF_congr (fun _ i hi => hA o1 i i hi hi) (fun i j hi hj _ _ => hA o1 i j hi hj)]
      rw [t] at e2
      rw [e2]
      exact e1
  obtain ⟨ν, h, q⟩ := wp_unit key
  exact ⟨ν, h, q⟩

/-- **C36** potrf followed by potrs solves a positive definite system, every variant. -/
theorem C36_potrf_potrs (dbg internal : Bool) (nb : Nat) (hnb : 0 < nb) (variant : PotrfVariant)
    (uplo : Uplo) (hu : uplo = .Upper ∨ uplo = .Lower) (A B : MatV L) (n k : Nat)
    (hA : A.Inj) (hm : A.m = n) (hn : A.n = n) (hbm : B.m = n) (hbn : B.n = k) (hB : B.Inj)
    (hd : A.Disj B) (μ : Store L 𝕜) (hpd : (hermMat uplo n μ A).PosDef) :
    ∃ ν ξ, potrf dbg internal nb variant uplo A μ = (.ok 0, ν) ∧ potrs uplo A B ν = (.ok (), ξ) ∧
      hermMat uplo n μ A * mat n k (entry ξ B) = mat n k (entry μ B) := by
  obtain ⟨ν, h, f, o⟩ := (C30_potrf (𝕜 := 𝕜) dbg internal nb hnb variant uplo hu A n hA hm hn μ).1 hpd
  obtain ⟨ξ, h2, e, _⟩ := C36_potrs uplo hu A B n k hm hn hbm hbn hB hd ν _ f
  refine ⟨ν, ξ, h, h2, ?_⟩
  rw [e, mat_ext_iff]
  intro i j hi hj
  refine o _ (fun i' j' hi' hj' _ he => hd i' j' hi' hj' ⟨i, j, by omega, by omega, he.symm⟩)

/-- **C36** potri on a positive definite matrix: the selected triangle ends up holding that triangle
of the inverse of the matrix (not, as its documentation says, the inverse of the factor). -/
theorem C36_potri [DecidableEq 𝕜] (dbg : Bool) (uplo : Uplo) (hu : uplo = .Upper ∨ uplo = .Lower)
    (A : MatV L) (n : Nat) (hA : A.Inj) (hm : A.m = n) (hn : A.n = n) (μ : Store L 𝕜)
    (hpd : (hermMat uplo n μ A).PosDef) :
    ∃ ν, potri dbg uplo A μ = (.ok (), ν) ∧ SameOff A uplo μ ν ∧
      (∀ i, i < n → star (entry ν A i i) = entry ν A i i) ∧
      hermMat uplo n μ A * hermMat uplo n ν A = 1 := by
  have key : wp (potri dbg uplo A) μ (fun _ ν => SameOff A uplo μ ν ∧
      (∀ i, i < n → star (entry ν A i i) = entry ν A i i) ∧
      hermMat uplo n μ A * hermMat uplo n ν A = 1) := by
    unfold potri
    simp only [wp_bind]
    refine wp_squareTriChecks hu (by omega) ?_
    obtain ⟨ν1, h1, f, o1⟩ := (C29_potrf2 (𝕜 := 𝕜) dbg uplo hu A n hA hm hn μ).1 hpd
    refine wp_of_eq h1 ?_
    have hdiag : ∀ i, i < n → entry ν1 A i i ≠ 0 := by
      intro i hi he
      obtain ⟨d, hd0, hd1⟩ := f.2 ⟨i, hi⟩
      unfold triMat mat triF at hd1
      rw [if_pos rfl] at hd1
      rw [show entry ν1 A i i = (d : 𝕜) from hd1, RCLike.ofReal_eq_zero] at he
      linarith
    refine wp_conseq (wp_trtri (diag := .NonUnit) hu n dbg A ν1 hm hn hA (fun _ => hdiag)) ?_
    rintro _ ν2 ⟨rfl, o2, e2⟩
    refine wp_conseq (wp_lauum hu n A ν2 hm hn hA) ?_
    rintro _ ν3 ⟨o3, r3⟩
    refine ⟨(o1.trans o2).trans o3, r3.diag, ?_⟩
    have e3 : hermMat uplo n ν3 A = _ := r3.eq
    have e2' : triMat uplo n ν1 A * triMat uplo n ν2 A = 1 := mul_eq_one_comm.1 e2
    have e2c : (triMat uplo n ν1 A).conjTranspose * (triMat uplo n ν2 A).conjTranspose = 1 := by
      rw [← Matrix.conjTranspose_mul]
      rw [show triMat uplo n ν2 A * triMat uplo n ν1 A = 1 from e2, Matrix.conjTranspose_one]
    rw [f.1, e3]
    rcases hu with rfl | rfl
    · rw [if_pos rfl]
      show (triMat .Upper n ν1 A).conjTranspose * triMat .Upper n ν1 A *
        (triMat .Upper n ν2 A * (triMat .Upper n ν2 A).conjTranspose) = 1
      rw [Matrix.mul_assoc, ← Matrix.mul_assoc (triMat .Upper n ν1 A), e2', Matrix.one_mul, e2c]
    · rw [if_neg (by decide)]
      show triMat .Lower n ν1 A * (triMat .Lower n ν1 A).conjTranspose *
        ((triMat .Lower n ν2 A).conjTranspose * ((triMat .Lower n ν2 A).conjTranspose).conjTranspose) = 1
      rw [Matrix.conjTranspose_conjTranspose, Matrix.mul_assoc,
        ← Matrix.mul_assoc (triMat .Lower n ν1 A).conjTranspose, e2c, Matrix.one_mul, e2']
  obtain ⟨ν, h, q⟩ := wp_unit key
  exact ⟨ν, h, q⟩

/-- **C36** On a matrix that is not positive definite potri (errors enabled) throws, carrying the
order of the first leading minor that is not; only the selected triangle may have been written. -/
theorem C36_potri_indefinite [DecidableEq 𝕜] (uplo : Uplo) (hu : uplo = .Upper ∨ uplo = .Lower)
    (A : MatV L) (n : Nat) (hA : A.Inj) (hm : A.m = n) (hn : A.n = n) (μ : Store L 𝕜) (k : Nat)
    (hk : k < n) (h1 : LeadPD uplo μ A k) (h2 : ¬ LeadPD uplo μ A (k + 1)) :
    ∃ ν, potri true uplo A μ = (.error (.runtime (k + 1)), ν) ∧ SameOff A uplo μ ν := by
  obtain ⟨ν, h, o⟩ := (C29_potrf2 (𝕜 := 𝕜) true uplo hu A n hA hm hn μ).2 k hk h1 h2
  refine ⟨ν, ?_, o⟩
  have key : wp (potri true uplo A) μ (fun _ _ => False)
      (fun e ξ => e = .runtime (k + 1) ∧ ξ = ν) := by
    unfold potri
    simp only [wp_bind]
    refine wp_squareTriChecks hu (by omega) ?_
    unfold wp
    rw [h]
    exact ⟨rfl, rfl⟩
  unfold wp at key
  rcases hp : potri true uplo A μ with ⟨r, ξ⟩
  rw [hp] at key
  cases r with
  | ok _ => exact key.elim
  | error e => rw [key.1, key.2]

example : ∃ ν, potri (T := ℝ) true .Upper (mkM 0 4 4) diagStore = (.ok (), ν) ∧
    hermMat .Upper 4 diagStore (mkM 0 4 4) * hermMat .Upper 4 ν (mkM 0 4 4) = 1 := by
  obtain ⟨ν, h, _, _, e⟩ := C36_potri (𝕜 := ℝ) true .Upper (Or.inl rfl) (mkM 0 4 4) 4
    (mkM_inj _ _ _) rfl rfl diagStore (diagStore_pd _ 4)
  exact ⟨ν, h, e⟩

example : ∃ ν ξ, potrf (T := ℝ) true true 2 .RightLooking .Lower (mkM 0 4 4) diagStore = (.ok 0, ν) ∧
    potrs .Lower (mkM 0 4 4) (mkM 1 4 2) ν = (.ok (), ξ) := by
  obtain ⟨ν, ξ, h, h', _⟩ := C36_potrf_potrs (𝕜 := ℝ) true true 2 (by omega) .RightLooking .Lower
    (Or.inr rfl) (mkM 0 4 4) (mkM 1 4 2) 4 2
    (mkM_inj _ _ _) rfl rfl rfl rfl (mkM_inj _ _ _) (mkM_disj (by decide)) diagStore (diagStore_pd _ 4)
  exact ⟨ν, ξ, h, h'⟩

/-! ### C42: pttrf -/

/-- The Hermitian tridiagonal matrix of order `n` with diagonal `D` and subdiagonal `E`. -/
def tridMat (n : Nat) (μ : Store L 𝕜) (D E : VecV L) : Matrix (Fin n) (Fin n) 𝕜 :=
  mat n n (tridF (ventry μ D) (ventry μ E))

/-- The unit lower bidiagonal matrix of order `n` with subdiagonal `E`. -/
def bidMat (n : Nat) (μ : Store L 𝕜) (E : VecV L) : Matrix (Fin n) (Fin n) 𝕜 :=
  mat n n (bidF (ventry μ E))

omit [DecidableEq L] in
theorem posDef_trid {μ : Store L 𝕜} {D E : VecV L} {n k : Nat} (hk : k ≤ n)
    (hd : ∀ i, i < n → star (ventry μ D i) = ventry μ D i)
    (hp : ∀ l, l < k → 0 < RCLike.re (pivF (ventry μ D) (ventry μ E) l)) :
    (tridMat k μ D E).PosDef := by
  -- extend the diagonal by zeros so that it is real everywhere
  have hext : ∀ m, m ≤ n → mat m m (tridF (ventry μ D) (ventry μ E)) =
      mat m m (tridF (fun i => if i < n then ventry μ D i else 0) (ventry μ E)) := by
    intro m hm
    rw [mat_ext_iff]; intro i j hi hj
    unfold tridF; simp only [if_pos (show i < n by omega)]
  have hpv : ∀ l, l < n → pivF (fun i => if i < n then ventry μ D i else 0) (ventry μ E) l =
      pivF (ventry μ D) (ventry μ E) l := by
    intro l
    induction l with
    | zero => intro h; simp only [pivF, if_pos h]
    | succ l ih => intro h; rw [pivF, pivF, ih (by omega)]; simp only [if_pos h]
  have hr : ∀ N i, i < N → star ((fun i => if i < n then ventry μ D i else 0) i) =
      (fun i => if i < n then ventry μ D i else (0 : 𝕜)) i := by
    intro N i _
    by_cases h : i < n
    · simp only [if_pos h]; exact hd i h
    · simp only [if_neg h]; exact star_zero 𝕜
  unfold tridMat
  rw [hext k hk]
  refine chol_posDef (r := ptRow (fun i => if i < n then ventry μ D i else 0) (ventry μ E))
    (ptRows (n := k) (hr k) (le_refl k) (fun l hl => by rw [hpv l (by omega)]; exact hp l hl)) ?_
  intro i j
  exact tridF_star (n := i + j + 1) (hr _) i j (by omega) (by omega)

omit [DecidableEq L] in
theorem not_posDef_trid {μ : Store L 𝕜} {D E : VecV L} {n k : Nat} (hk : k < n)
    (hd : ∀ i, i < n → star (ventry μ D i) = ventry μ D i)
    (hp : ∀ l, l < k → 0 < RCLike.re (pivF (ventry μ D) (ventry μ E) l))
    (hf : RCLike.re (pivF (ventry μ D) (ventry μ E) k) ≤ 0) :
    ¬ (tridMat (k + 1) μ D E).PosDef := by
  have hext : ∀ m, m ≤ n → mat m m (tridF (ventry μ D) (ventry μ E)) =
      mat m m (tridF (fun i => if i < n then ventry μ D i else 0) (ventry μ E)) := by
    intro m hm
    rw [mat_ext_iff]; intro i j hi hj
    unfold tridF; simp only [if_pos (show i < n by omega)]
  have hpv : ∀ l, l < n → pivF (fun i => if i < n then ventry μ D i else 0) (ventry μ E) l =
      pivF (ventry μ D) (ventry μ E) l := by
    intro l
    induction l with
    | zero => intro h; simp only [pivF, if_pos h]
    | succ l ih => intro h; rw [pivF, pivF, ih (by omega)]; simp only [if_pos h]
  have hr : ∀ N i, i < N → star ((fun i => if i < n then ventry μ D i else 0) i) =
      (fun i => if i < n then ventry μ D i else (0 : 𝕜)) i := by
    intro N i _
    by_cases h : i < n
    · simp only [if_pos h]; exact hd i h
    · simp only [if_neg h]; exact star_zero 𝕜
  unfold tridMat
  rw [hext (k + 1) hk]
  refine (cholFail_not (ptFail (n := k + 1) (hr _) (by omega) (fun l hl => by
    rw [hpv l (by omega)]; exact hp l hl) (by rw [hpv k hk]; exact hf)) ?_).2
  intro i j
  exact tridF_star (n := i + j + 1) (hr _) i j (by omega) (by omega)

/-- **C42** pttrf, complete behaviour on a Hermitian tridiagonal matrix (real diagonal).  If it is
positive definite the result is 0 and on exit `L D Lᴴ` is the input matrix, with `L` unit lower
bidiagonal and `D` a positive diagonal.  Otherwise the order of the first leading minor that is not
positive definite is returned (or thrown).  Only `D` and `E` are written. -/
theorem C42_pttrf (thr : Bool) (D E : VecV L) (n : Nat) (hD : D.Inj) (hE : E.Inj) (hDE : D.Disj E)
    (hn : D.n = n) (hen : n = E.n + 1) (μ : Store L 𝕜)
    (hd : ∀ i, i < n → star (ventry μ D i) = ventry μ D i) :
    ((tridMat n μ D E).PosDef → ∃ ν, pttrf thr D E μ = (.ok 0, ν) ∧
      tridMat n μ D E = bidMat n ν E * Matrix.diagonal (vec n (ventry ν D)) *
        (bidMat n ν E).conjTranspose ∧
      (∀ i, i < n → 0 < ventry ν D i) ∧ ∀ l, ¬ D.Owns l → ¬ E.Owns l → ν l = μ l) ∧
    ∀ k, k < n → (tridMat k μ D E).PosDef → ¬ (tridMat (k + 1) μ D E).PosDef → ∃ ν,
      pttrf thr D E μ = (if thr then .error (.runtime (k + 1)) else .ok (k + 1), ν) ∧
      ∀ l, ¬ D.Owns l → ¬ E.Owns l → ν l = μ l := by
  have h := wp_pttrf (thr := thr) hD hE hDE hn (by omega) μ hd
  have mono : ∀ {a b : Nat}, a ≤ b → (tridMat b μ D E).PosDef → (tridMat a μ D E).PosDef := by
    intro a b hab hb
    exact Matrix.PosDef.submatrix hb (e := Fin.castLE hab) (Fin.castLE_injective hab)
  have uniq : ∀ {a b : Nat}, (tridMat a μ D E).PosDef → ¬ (tridMat (a + 1) μ D E).PosDef →
      (tridMat b μ D E).PosDef → ¬ (tridMat (b + 1) μ D E).PosDef → a = b := by
    intro a b h1 h2 h3 h4
    rcases Nat.lt_trichotomy a b with hl | rfl | hl
    · exact absurd (mono hl h3) h2
    · rfl
    · exact absurd (mono hl h1) h4
  have hfail : ∀ {ν k}, PtRes D E n μ (some k) ν → k < n ∧ (tridMat k μ D E).PosDef ∧
      ¬ (tridMat (k + 1) μ D E).PosDef := by
    rintro ν k ⟨_, h1, h2, h3⟩
    exact ⟨h1, posDef_trid (le_of_lt h1) hd h2, not_posDef_trid h1 hd h2 h3⟩
  unfold wp at h
  rcases hp : pttrf thr D E μ with ⟨r, ν⟩
  rw [hp] at h
  cases r with
  | ok r =>
    rcases h with ⟨rfl, hf, hs, hpos⟩ | ⟨rfl, k, rfl, hr⟩
    · refine ⟨fun _ => ⟨ν, rfl, ?_, fun i hi => ?_, hf⟩,
        fun k hk _ h2 => absurd (mono hk (posDef_trid (le_refl n) hd hpos)) h2⟩
      · unfold tridMat bidMat
        rw [ptFactor hd hpos]
        have e1 : mat n n (bidF (fun i => ventry μ E i / pivF (ventry μ D) (ventry μ E) i)) =
            mat n n (bidF (ventry ν E)) := by
          rw [mat_ext_iff]; intro i j hi hj
          unfold bidF
          by_cases e : i = j + 1
          · rw [hs.e j (by omega), if_pos (show j < n - 1 by omega)]
          · rw [if_neg e, if_neg e]
        have e2 : mat n n (fun i j => if i = j then pivF (ventry μ D) (ventry μ E) i else 0) =
            Matrix.diagonal (vec n (ventry ν D)) := by
          ext i j
          unfold Matrix.diagonal mat vec
          by_cases e : i = j
          · subst e
            simp only [if_true, Matrix.of_apply]
            rw [hs.d i i.2, if_pos (by have := i.2; omega)]
          · have e' : ¬ (i : Nat) = j := fun h => e (Fin.ext h)
            simp [e, e']
        rw [e1, e2]
      · rw [hs.d i hi, if_pos (by omega)]
        have hst := pivF_star (e := ventry μ E) hd i hi
        have hre := RCLike.conj_eq_iff_re.1 (show (starRingEnd 𝕜) (pivF (ventry μ D) (ventry μ E) i) = _ from hst)
        rw [← hre]
        exact_mod_cast hpos i hi
    · obtain ⟨h1, h2, h3⟩ := hfail hr
      refine ⟨fun hpd => absurd (mono h1 hpd) h3, fun k' hk' a b => ⟨ν, ?_, hr.1⟩⟩
      rw [uniq a b h2 h3]; rfl
  | error e =>
    obtain ⟨rfl, k, rfl, hr⟩ := h
    obtain ⟨h1, h2, h3⟩ := hfail hr
    refine ⟨fun hpd => absurd (mono h1 hpd) h3, fun k' hk' a b => ⟨ν, ?_, hr.1⟩⟩
    rw [uniq a b h2 h3]; rfl

/-- `D = (1,1,1)`, `E = (0,0)`: a positive definite case. -/
example : ∃ ν, pttrf (T := ℝ) true (mkV 0 3) (mkV 1 2) (fun l => if l.1 = 0 then 1 else 0) = (.ok 0, ν) := by
  have hpd : (tridMat (𝕜 := ℝ) 3 (fun l => if l.1 = 0 then 1 else 0) (mkV 0 3) (mkV 1 2)).PosDef := by
    refine posDef_trid (n := 3) (le_refl 3) (fun i _ => by simp [ventry, mkV]) (fun l hl => ?_)
    have : ∀ l, pivF (𝕜 := ℝ) (ventry (fun l => if l.1 = 0 then 1 else 0) (mkV 0 3))
        (ventry (fun l => if l.1 = 0 then 1 else 0) (mkV 1 2)) l = 1 := by
      intro l; cases l <;> simp [pivF, ventry, mkV]
    rw [this]; simp
  obtain ⟨ν, h, _⟩ := (C42_pttrf (𝕜 := ℝ) true (mkV 0 3) (mkV 1 2) 3 (mkV_inj _ _) (mkV_inj _ _)
    (mkV_disj (by decide)) rfl rfl (fun l => if l.1 = 0 then 1 else 0)
    (fun i _ => by simp [ventry, mkV])).1 hpd
  exact ⟨ν, h⟩

end TLA
