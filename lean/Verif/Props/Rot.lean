import Verif.Proofs.HessRq
import Verif.Proofs.Gghrd
import Verif.Proofs.FootRot
import Verif.SpecFoot
import Verif.Proofs.KernelRot
import Verif.Props.Examples

/-! # C67 – C69: sequences of plane rotations, hessenberg_rq, gghrd -/

set_option linter.unusedSimpArgs false

namespace TLA
open Matrix
variable {L T : Type} [DecidableEq L]

/-! ### rotg for the scalar types at hand -/

/-- blas/rotg.hpp:24-91 for real scalars. -/
noncomputable def rotOpsR (p : Kernel.RotPar) : RotOps ℝ := ⟨fun a b => Kernel.rotg p a b⟩

/-- blas/rotg.hpp:93- for complex scalars: `b` is not modified, `c` is real. -/
noncomputable def rotOpsC (p : Kernel.RotPar) : RotOps ℂ :=
  ⟨fun a b => (Kernel.rotgC p a b).map fun t => (t.1, b, (t.2.1 : ℂ), t.2.2)⟩

/-- rotg satisfies the laws used below, for real scalars. -/
theorem rotLaws_real {p : Kernel.RotPar} (h1 : 0 < p.safmin) (h2 : 0 < p.safmax) : RotLaws (rotOpsR p) := by
  intro a b
  obtain ⟨r, z, c, s, e, ok, -⟩ := Kernel.rotg_ok h1 h2 a b
  refine ⟨r, z, c, s, e, ⟨star_trivial c, ?_⟩, ok.top, ?_⟩
  · rw [star_trivial]; exact ok.unit
  · rw [star_trivial]; linarith [ok.bot]

/-- rotg satisfies the laws used below, for complex scalars. -/
theorem rotLaws_complex {p : Kernel.RotPar} (h1 : 0 < p.safmin) (h2 : 0 < p.safmax) (h3 : 0 < p.ulp) :
    RotLaws (rotOpsC p) := by
  intro a b
  obtain ⟨r, c, s, e, ok⟩ := Kernel.rotgC_ok h1 h2 h3 a b
  refine ⟨r, b, c, s, ?_, ⟨?_, ok.unit⟩, ok.top, ?_⟩
  · simp [rotOpsC, e]
  · simp
  · linear_combination ok.bot

/-! ### C67: rot_sequence -/

/-- **C67** rot_sequence with `side = Left`, whatever the storage order of `A` and the resulting loop nest:
`A := P(0) P(1) ⋯ P(k-1) A` for `Forward` and `A := P(k-1) ⋯ P(0) A` for `Backward`. -/
theorem C67_rot_sequence_left [Field T] [StarRing T] [DecidableEq T] (colMajor : Bool) (dir : Direction) {A : MatV L}
    {c s : VecV L} (hA : A.Inj) (hc : c.DisjM A) (hs : s.DisjM A) (hcn : c.n + 1 = A.m) (hsn : s.n + 1 = A.m)
    (μ : Store L T) :
    ∃ ν, rotSequence colMajor .Left dir c s A μ = (.ok 0, ν) ∧
      mat A.m A.n (entry ν A) = (if dir = .Forward then rotProd A.m (ventry μ c) (ventry μ s) 0 (A.m - 1)
        else rotProdRev A.m (ventry μ c) (ventry μ s) 0 (A.m - 1)) * mat A.m A.n (entry μ A) ∧
      ∀ l, ¬ A.Owns l → ν l = μ l := by
  obtain ⟨_, ν, e, rfl, h⟩ := wp_iff.1 (wp_rotSequence_left (μ := μ) colMajor dir hA hc hs (by omega) hcn hsn)
  exact ⟨ν, e, h⟩

/-- **C67** rot_sequence with `side = Right`: `A := A Pᴴ` with the same `P` as for `Left`. -/
theorem C67_rot_sequence_right [Field T] [StarRing T] [DecidableEq T] (colMajor : Bool) (dir : Direction) {A : MatV L}
    {c s : VecV L} (hA : A.Inj) (hc : c.DisjM A) (hs : s.DisjM A) (hcn : c.n + 1 = A.n) (hsn : s.n + 1 = A.n)
    (μ : Store L T) (hr : ∀ i, i < c.n → star (ventry μ c i) = ventry μ c i) :
    ∃ ν, rotSequence colMajor .Right dir c s A μ = (.ok 0, ν) ∧
      mat A.m A.n (entry ν A) = mat A.m A.n (entry μ A) *
        (if dir = .Forward then rotProd A.n (ventry μ c) (ventry μ s) 0 (A.n - 1)
        else rotProdRev A.n (ventry μ c) (ventry μ s) 0 (A.n - 1))ᴴ ∧
      ∀ l, ¬ A.Owns l → ν l = μ l := by
  obtain ⟨_, ν, e, rfl, h⟩ := wp_iff.1 (wp_rotSequence_right (μ := μ) colMajor dir hA hc hs (by omega) hcn hsn hr)
  exact ⟨ν, e, h⟩

example : (mkM 0 4 3).Inj ∧ (mkV 1 3).DisjM (mkM 0 4 3) ∧ (mkV 2 3).DisjM (mkM 0 4 3) ∧ (mkV 1 3).n + 1 = (mkM 0 4 3).m :=
  ⟨mkM_inj 0 4 3, mkV_disjM (by decide), mkV_disjM (by decide), rfl⟩

/-- **C67** (deviation) the documentation defines `Forward` as `P = P(k-1) ⋯ P(0)`; the code applies the rotations in
the opposite order: for the identity of order 3 and sines that do not vanish the result differs from the documented
one. -/
theorem C67_direction_violated [Field T] [StarRing T] [DecidableEq T] (colMajor : Bool) {A : MatV L}
    {c s : VecV L} (hA : A.Inj) (hc : c.DisjM A) (hs : s.DisjM A) (hm : A.m = 3) (hn : A.n = 3) (hcn : c.n = 2)
    (hsn : s.n = 2) (μ : Store L T) (h0 : ventry μ s 0 ≠ 0) (h1 : ventry μ s 1 ≠ 0)
    (hI : mat 3 3 (entry μ A) = 1) :
    ∃ ν, rotSequence colMajor .Left .Forward c s A μ = (.ok 0, ν) ∧
      mat 3 3 (entry ν A) ≠ rotProdRev 3 (ventry μ c) (ventry μ s) 0 2 * mat 3 3 (entry μ A) := by
  obtain ⟨ν, e, h, -⟩ := C67_rot_sequence_left colMajor .Forward hA hc hs (by omega) (by omega) μ
  refine ⟨ν, e, ?_⟩
  rw [if_pos rfl] at h
  have h' : mat 3 3 (entry ν A) = rotProd 3 (ventry μ c) (ventry μ s) 0 2 * mat 3 3 (entry μ A) := by
    have key : ∀ m n, m = 3 → n = 3 → mat m n (entry ν A) =
        rotProd m (ventry μ c) (ventry μ s) 0 (m - 1) * mat m n (entry μ A) →
        mat 3 3 (entry ν A) = rotProd 3 (ventry μ c) (ventry μ s) 0 2 * mat 3 3 (entry μ A) := by
      rintro m n rfl rfl h; exact h
    exact key _ _ hm hn h
  rw [h', hI, Matrix.mul_one, Matrix.mul_one]
  intro hc'
  have e1 : rotProd 3 (ventry μ c) (ventry μ s) 0 2 =
      rotMat 3 0 1 (ventry μ c 0) (ventry μ s 0) * rotMat 3 1 2 (ventry μ c 1) (ventry μ s 1) := by
    rw [rotProd_bot _ _ (by omega : 0 < 2), rotProd_bot _ _ (by omega : 0 + 1 < 2), rotProd_self, Matrix.mul_one]
  have e2 : rotProdRev 3 (ventry μ c) (ventry μ s) 0 2 =
      rotMat 3 1 2 (ventry μ c 1) (ventry μ s 1) * rotMat 3 0 1 (ventry μ c 0) (ventry μ s 0) := by
    rw [rotProdRev_succ _ _ (by omega : 0 ≤ 1), rotProdRev_succ _ _ (le_refl 0), rotProdRev_self, Matrix.mul_one]
  rw [e1, e2] at hc'
  have h02 := congrFun (congrFun hc' 0) 2
  simp only [Matrix.mul_apply, Fin.sum_univ_three, rotMat, mat, rotF] at h02
  simp at h02
  rcases h02 with h | h
  · exact h0 h
  · exact h1 h

/-- **C67** (deviation) on a matrix without rows the length `m - 1` that is required of `c` wraps around: the call is
rejected whatever the arguments. -/
theorem C67_empty_violated [Field T] [StarRing T] [DecidableEq T] (colMajor : Bool) (dir : Direction) (A : MatV L)
    (c s : VecV L) (hm : A.m = 0) (μ : Store L T) :
    ∃ e, rotSequence colMajor .Left dir c s A μ = (.error e, μ) := by
  unfold rotSequence
  simp only [if_true, hm, ne_eq, not_true, decide_false, Bool.false_and]
  exact ⟨_, rfl⟩

/-- **C67** only `A` is written, only `A`, `c` and `s` are read. -/
theorem C67_rot_sequence_footprint [Field T] [StarRing T] [DecidableEq T] (colMajor : Bool) (side : Side)
    (dir : Direction) (c s : VecV L) (A : MatV L) :
    Confined (fun l => A.Owns l ∨ c.Owns l ∨ s.Owns l) A.Owns (rotSequence colMajor side dir c s A : M L T Nat) :=
  (foot_rotSequence ((covM_owns A).imp fun _ h => .inl h) (covM_owns A)
    ((covV_owns c).imp fun _ h => .inr (.inl h)) ((covV_owns s).imp fun _ h => .inr (.inr h))).confined

/-! ### C68: hessenberg_rq -/

/-- **C68** hessenberg_rq applied to an upper triangular `T`: with `L = P(0) ⋯ P(n-2)` the product of the rotations
`cl`, `sl`, the routine returns genuine rotations `cr`, `sr` with product `R = P(0) ⋯ P(n-2)` such that `L T Rᴴ` is
upper triangular again and is what is stored in `T`. -/
theorem C68_hessenberg_rq [Field T] [StarRing T] [DecidableEq T] {o : RotOps T} (ho : RotLaws o) {A : MatV L}
    {cl sl cr sr : VecV L} (ok : HrqOK A cl sl cr sr) (μ : Store L T)
    (ht : ∀ i j, i < A.n → j < A.n → j < i → entry μ A i j = 0) :
    ∃ ν, hessenbergRq o A cl sl cr sr μ = (.ok (), ν) ∧
      mat A.n A.n (entry ν A) = rotProd A.n (ventry μ cl) (ventry μ sl) 0 (A.n - 1) * mat A.n A.n (entry μ A) *
        (rotProd A.n (ventry ν cr) (ventry ν sr) 0 (A.n - 1))ᴴ ∧
      (∀ i j, i < A.n → j < A.n → j < i → entry ν A i j = 0) ∧
      (∀ k, k < cr.n → IsRot (ventry ν cr k) (ventry ν sr k)) ∧
      ∀ l, ¬ A.Owns l → ¬ cr.Owns l → ¬ sr.Owns l → ν l = μ l :=
  wp_unit (wp_hessenbergRq ho ok ht)

/-- **C68** the instance with the modelled rotg, complex scalars, machine constants as in double precision. -/
theorem C68_hessenberg_rq_complex {p : Kernel.RotPar} (h1 : 0 < p.safmin) (h2 : 0 < p.safmax) (h3 : 0 < p.ulp)
    {A : MatV L} {cl sl cr sr : VecV L} (ok : HrqOK A cl sl cr sr) (μ : Store L ℂ)
    (ht : ∀ i j, i < A.n → j < A.n → j < i → entry μ A i j = 0) :
    ∃ ν, hessenbergRq (rotOpsC p) A cl sl cr sr μ = (.ok (), ν) ∧
      mat A.n A.n (entry ν A) = rotProd A.n (ventry μ cl) (ventry μ sl) 0 (A.n - 1) * mat A.n A.n (entry μ A) *
        (rotProd A.n (ventry ν cr) (ventry ν sr) 0 (A.n - 1))ᴴ ∧
      (∀ i j, i < A.n → j < A.n → j < i → entry ν A i j = 0) ∧
      (∀ k, k < cr.n → IsRot (ventry ν cr k) (ventry ν sr k)) ∧
      ∀ l, ¬ A.Owns l → ¬ cr.Owns l → ¬ sr.Owns l → ν l = μ l :=
  C68_hessenberg_rq (rotLaws_complex h1 h2 h3) ok μ ht

example : HrqOK (mkM 0 4 4) (mkV 1 3) (mkV 2 3) (mkV 3 3) (mkV 4 3) ∧
    (∀ i j, i < (mkM 0 4 4).n → j < (mkM 0 4 4).n → j < i →
      entry (fun l : Nat × Nat × Nat => if l.1 = 0 ∧ l.2.1 ≤ l.2.2 then (1 : ℂ) else 0) (mkM 0 4 4) i j = 0) := by
  refine ⟨⟨rfl, rfl, rfl, rfl, rfl, mkM_inj _ _ _, mkV_inj _ _, mkV_inj _ _, mkV_disjM (by decide),
    mkV_disjM (by decide), mkV_disjM (by decide), mkV_disjM (by decide), mkV_disj (by decide), mkV_disj (by decide),
    mkV_disj (by decide), mkV_disj (by decide), mkV_disj (by decide)⟩, fun i j _ _ h => ?_⟩
  simp [entry, mkM]; omega

/-- **C68** (deviation) hessenberg_rq has no quick return for an empty matrix: it accesses out of range. -/
theorem C68_empty_violated [Field T] [StarRing T] [DecidableEq T] (o : RotOps T) (A : MatV L) (cl sl cr sr : VecV L)
    (h : A.n = 0) (μ : Store L T) : hessenbergRq o A cl sl cr sr μ = (.error .ub, μ) := by
  unfold hessenbergRq
  simp only [h, if_true]
  rfl

/-- **C68** footprint. -/
theorem C68_hessenberg_rq_footprint [Field T] [StarRing T] [DecidableEq T] (o : RotOps T) (A : MatV L)
    (cl sl cr sr : VecV L) :
    Confined (fun l => A.Owns l ∨ cl.Owns l ∨ sl.Owns l ∨ cr.Owns l ∨ sr.Owns l)
      (fun l => A.Owns l ∨ cr.Owns l ∨ sr.Owns l) (hessenbergRq o A cl sl cr sr) :=
  (foot_hessenbergRq ((covM_owns A).imp fun _ h => .inl h) ((covM_owns A).imp fun _ h => .inl h)
    ((covV_owns cl).imp fun _ h => .inr (.inl h)) ((covV_owns sl).imp fun _ h => .inr (.inr (.inl h)))
    ((covV_owns cr).imp fun _ h => .inr (.inr (.inr (.inl h)))) ((covV_owns cr).imp fun _ h => .inr (.inl h))
    ((covV_owns sr).imp fun _ h => .inr (.inr (.inr (.inr h)))) ((covV_owns sr).imp fun _ h => .inr (.inr h))).confined

/-! ### C69: gghrd -/

/-- **C69** gghrd: there are unitary `U`, `V` with `A = U A' Vᴴ`, `triu(B) = U B' Vᴴ`, `Q' = Q U`, `Z' = Z V`, where
`A'` is upper Hessenberg and `B'` upper triangular (`A` reduced already outside rows and columns `ilo..ihi-1`). -/
theorem C69_gghrd [Field T] [StarRing T] [DecidableEq T] {o : RotOps T} (ho : RotLaws o) {wantq wantz : Bool}
    {ilo ihi : Nat} {A B Q Z : MatV L} (ok : GghrdOK wantq wantz ilo ihi A B Q Z) (μ : Store L T)
    (zl : ∀ r c, r < A.n → c < ilo → c < r → entry μ A r c = 0)
    (zb : ∀ r c, r < A.n → ihi ≤ r → c < r → entry μ A r c = 0) :
    ∃ ν, gghrd o wantq wantz ilo ihi A B Q Z μ = (.ok 0, ν) ∧
      (∃ U V : Matrix (Fin A.n) (Fin A.n) T, Uᴴ * U = 1 ∧ Vᴴ * V = 1 ∧
        mat A.n A.n (entry μ A) = U * mat A.n A.n (entry ν A) * Vᴴ ∧
        mat A.n A.n (fun i j => if i ≤ j then entry μ B i j else 0) = U * mat A.n A.n (entry ν B) * Vᴴ ∧
        (wantq = true → mat A.n A.n (entry ν Q) = mat A.n A.n (entry μ Q) * U) ∧
        (wantz = true → mat A.n A.n (entry ν Z) = mat A.n A.n (entry μ Z) * V)) ∧
      (∀ r c, r < A.n → c + 1 < r → entry ν A r c = 0) ∧
      (∀ r c, r < A.n → c < r → entry ν B r c = 0) ∧
      ∀ l, ¬ A.Owns l → ¬ B.Owns l → ¬ (wantq = true ∧ Q.Owns l) → ¬ (wantz = true ∧ Z.Owns l) → ν l = μ l := by
  obtain ⟨_, ν, e, rfl, h⟩ := wp_iff.1 (wp_gghrd ho ok zl zb)
  exact ⟨ν, e, h⟩

example : GghrdOK true true 0 4 (mkM 0 4 4) (mkM 1 4 4) (mkM 2 4 4) (mkM 3 4 4) :=
  ⟨by decide, by decide, rfl, rfl, rfl, rfl, rfl, rfl, rfl, mkM_inj _ _ _, mkM_inj _ _ _, fun _ => mkM_inj _ _ _,
    fun _ => mkM_inj _ _ _, mkM_disj (by decide), fun _ => mkM_disj (by decide), fun _ => mkM_disj (by decide),
    fun _ => mkM_disj (by decide), fun _ => mkM_disj (by decide), fun _ _ => mkM_disj (by decide)⟩

/-- The laws assumed of rotg are met by the modelled rotg with the constants of double precision. -/
example : RotLaws (rotOpsC ⟨2⁻¹ ^ 1022, 2 ^ 1022, 2⁻¹ ^ 52⟩) ∧ RotLaws (rotOpsR ⟨2⁻¹ ^ 1022, 2 ^ 1022, 2⁻¹ ^ 52⟩) := by
  refine ⟨rotLaws_complex ?_ ?_ ?_, rotLaws_real ?_ ?_⟩ <;> dsimp only <;> positivity

/-- **C69** the generalized eigenvalue problem is preserved: `A' - λ B'` is singular for the same `λ` as `A - λ triu(B)`,
and if `Q` and `Z` are unitary on entry, then `Q' A' Z'ᴴ = Q A Zᴴ` and `Q' B' Z'ᴴ = Q triu(B) Zᴴ`. -/
theorem C69_gghrd_pencil [Field T] [StarRing T] [DecidableEq T] {o : RotOps T} (ho : RotLaws o)
    {ilo ihi : Nat} {A B Q Z : MatV L} (ok : GghrdOK true true ilo ihi A B Q Z) (μ : Store L T)
    (zl : ∀ r c, r < A.n → c < ilo → c < r → entry μ A r c = 0)
    (zb : ∀ r c, r < A.n → ihi ≤ r → c < r → entry μ A r c = 0) :
    ∃ ν, gghrd o true true ilo ihi A B Q Z μ = (.ok 0, ν) ∧
      mat A.n A.n (entry ν Q) * mat A.n A.n (entry ν A) * (mat A.n A.n (entry ν Z))ᴴ =
        mat A.n A.n (entry μ Q) * mat A.n A.n (entry μ A) * (mat A.n A.n (entry μ Z))ᴴ ∧
      mat A.n A.n (entry ν Q) * mat A.n A.n (entry ν B) * (mat A.n A.n (entry ν Z))ᴴ =
        mat A.n A.n (entry μ Q) * mat A.n A.n (fun i j => if i ≤ j then entry μ B i j else 0) *
          (mat A.n A.n (entry μ Z))ᴴ ∧
      ∀ lam : T, (mat A.n A.n (entry ν A) - lam • mat A.n A.n (entry ν B)).det = 0 ↔
        (mat A.n A.n (entry μ A) - lam • mat A.n A.n (fun i j => if i ≤ j then entry μ B i j else 0)).det = 0 := by
  obtain ⟨ν, e, ⟨U, V, hU, hV, ha, hb, hq, hz⟩, -⟩ := C69_gghrd ho ok μ zl zb
  refine ⟨ν, e, ?_, ?_, ?_⟩
  · rw [hq rfl, hz rfl, ha, conjTranspose_mul]; simp only [Matrix.mul_assoc]
  · rw [hq rfl, hz rfl, hb, conjTranspose_mul]; simp only [Matrix.mul_assoc]
  · intro lam
    have e1 : mat A.n A.n (entry μ A) - lam • mat A.n A.n (fun i j => if i ≤ j then entry μ B i j else 0) =
        U * (mat A.n A.n (entry ν A) - lam • mat A.n A.n (entry ν B)) * Vᴴ := by
      rw [ha, hb, Matrix.mul_sub, Matrix.sub_mul, Matrix.mul_smul, Matrix.smul_mul]
    rw [e1, det_mul, det_mul]
    have hu : U.det ≠ 0 := fun h0 => by
      have := congrArg det hU
      rw [det_mul, h0, mul_zero, det_one] at this
      exact zero_ne_one this
    have hv : (Vᴴ).det ≠ 0 := fun h0 => by
      have := congrArg det hV
      rw [det_mul, h0, zero_mul, det_one] at this
      exact zero_ne_one this
    generalize (mat A.n A.n (entry ν A) - lam • mat A.n A.n (entry ν B)).det = d
    constructor
    · rintro rfl; ring
    · intro h; exact (mul_eq_zero.1 ((mul_eq_zero.1 h).resolve_right hv)).resolve_left hu

/-- **C69** (deviation) gghrd checks the sizes of `Q` and `Z` even when they are not wanted. -/
theorem C69_unwanted_q_violated [Field T] [StarRing T] [DecidableEq T] (o : RotOps T) (wantz : Bool) (ilo ihi : Nat)
    (A B Q Z : MatV L) (hQ : Q.n = 0) (hA : A.n ≠ 0) (μ : Store L T) :
    ∃ e, gghrd o false wantz ilo ihi A B Q Z μ = (.error e, μ) := by
  have hc : ∀ (b : Bool) {α : Type} (f : Unit → M L T α), (∃ e, f () μ = (.error e, μ)) →
      ∃ e, (check b >>= f) μ = (.error e, μ) := by
    intro b α f hf
    cases b
    · exact ⟨_, rfl⟩
    · exact hf
  unfold gghrd
  refine hc _ _ (hc _ _ (hc _ _ (hc _ _ (hc _ _ ?_))))
  rw [decide_eq_false (by omega)]
  exact ⟨_, rfl⟩

/-- **C69** footprint: `Q` and `Z` are not touched unless wanted. -/
theorem C69_gghrd_footprint [Field T] [StarRing T] [DecidableEq T] (o : RotOps T) (wantq wantz : Bool) (ilo ihi : Nat)
    (A B Q Z : MatV L) :
    Confined (fun l => A.Owns l ∨ B.Owns l ∨ (wantq = true ∧ Q.Owns l) ∨ (wantz = true ∧ Z.Owns l))
      (fun l => A.Owns l ∨ B.Owns l ∨ (wantq = true ∧ Q.Owns l) ∨ (wantz = true ∧ Z.Owns l))
      (gghrd o wantq wantz ilo ihi A B Q Z) :=
  (foot_gghrd ((covM_owns A).imp fun _ h => .inl h) ((covM_owns A).imp fun _ h => .inl h)
    ((covM_owns B).imp fun _ h => .inr (.inl h)) ((covM_owns B).imp fun _ h => .inr (.inl h))
    (fun w => (covM_owns Q).imp fun _ h => .inr (.inr (.inl ⟨w, h⟩)))
    (fun w => (covM_owns Q).imp fun _ h => .inr (.inr (.inl ⟨w, h⟩)))
    (fun w => (covM_owns Z).imp fun _ h => .inr (.inr (.inr ⟨w, h⟩)))
    (fun w => (covM_owns Z).imp fun _ h => .inr (.inr (.inr ⟨w, h⟩)))).confined

end TLA
