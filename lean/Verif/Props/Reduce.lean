import Verif.Props.House
import Verif.Proofs.Ungtr
set_option linter.unusedTactic false
set_option linter.unusedVariables false
set_option linter.unreachableTactic false
set_option linter.unusedSectionVars false

/-! # C58 to C61: two-sided unitary reductions -/

namespace TLA
open Finset
variable {L 𝕜 : Type} [DecidableEq L] [RCLike 𝕜] [DecidableEq 𝕜] {p : HhPar}

/-! ### C58: gehd2 -/

/-- **C58** gehd2 reduces a square matrix to upper Hessenberg form by a unitary similarity: with
`Q = H_ilo ... H_{ihi-2}` built from the reflectors it leaves below the subdiagonal and in `tau`,
`A = Q H Q^H`, `Q` is unitary, the subdiagonal it computes is real, and nothing but `A`, the entries
`ilo..ihi-1` of `tau` and the workspace is written. `A` must be upper Hessenberg in the columns outside
`ilo..ihi` and zero below the diagonal block; entries so large that nrm2 would scale are excluded. -/
theorem C58_gehd2 (hl : HhLaws 𝕜 p) (ilo ihi : Nat) (A : MatV L) (tau work : VecV L) (ok : QrOK A tau work)
    (hsq : A.m = A.n) (hlh : ilo < ihi) (hihi : ihi ≤ A.n) (ht : A.n - 1 ≤ tau.n)
    (hw : (gehd2Worksize ilo ihi A).size ≤ work.n) (μ : Store L 𝕜)
    (hb : frobSq A.n A.n (entry μ A) ≤ p.tbig ^ 2)
    (hh : ∀ r c, r < A.n → c < A.n → c < ilo ∨ ihi ≤ c → c + 1 < r → entry μ A r c = 0)
    (hz : ∀ r c, r < A.n → ihi ≤ r → c < ihi → entry μ A r c = 0) :
    ∃ ν, gehd2 (hhOps p) ilo ihi A tau work μ = (.ok 0, ν) ∧
      (let Q := hessQ A.n ilo ihi (entry ν A) (ventry ν tau)
       mat A.n A.n (entry μ A) = Q * mat A.n A.n (hessF (entry ν A)) * Q.conjTranspose ∧
       Q.conjTranspose * Q = 1) ∧
      (∀ i, ilo ≤ i → i < ihi - 1 → RCLike.im (entry ν A (i + 1) i) = 0) ∧
      (∀ l, ¬ A.Owns l → ¬ (tau.sub ilo (ihi - 1)).Owns l → ¬ work.Owns l → ν l = μ l) := by
  obtain ⟨_, ν, e, rfl, h⟩ := wp_iff.1 (wp_gehd2 hl ok hsq (by omega) hlh hihi ht hw (μ := μ) hb
    ⟨fun r c hr hc h1 => hh r c hr (by omega) (Or.inl hc) h1, hz⟩)
  have inv := h.inv
  refine ⟨ν, e, ⟨?_, reflProd_unitary fun i h0 h1 => inv.unit i h0 (by omega)⟩, fun i h0 h1 => ?_, ?_⟩
  · have hf : mat A.n A.n (hessF (entry ν A)) = mat A.n A.n (TLA.hz ilo ihi (ihi - 1) (entry ν A)) := by
      rw [mat_ext_iff]
      intro r c hr hc
      unfold hessF
      by_cases e : c + 1 < r
      · rw [if_pos e]
        by_cases b : (ilo ≤ c ∧ c < ihi - 1) ∧ c + 1 < r ∧ r < ihi
        · rw [hz_in b]
        · rw [hz_out b]
          by_cases b2 : c < ilo
          · exact (inv.shape.lo r c hr b2 e).symm
          · by_cases b3 : c < ihi
            · exact (inv.shape.hi r c hr (by omega) b3).symm
            · rw [inv.same r c hr hc (Or.inr (by omega)), hh r c hr hc (Or.inr (by omega)) e]
      · rw [if_neg e, hz_out (by omega)]
    rw [hf]
    exact inv.prod
  · exact RCLike.conj_eq_iff_im.1 (inv.real i h0 h1)
  · intro l hA hT hW
    by_cases ho : tau.Owns l
    · obtain ⟨i, hi, rfl⟩ := ho
      refine h.tn i hi ?_
      by_contra hc
      exact hT ⟨i - ilo, by simp only [VecV.sub]; omega, by simp only [VecV.sub]; congr 1; omega⟩
    · exact h.frame l hA ho hW

/-- The hypotheses of C58 are met by a matrix of ones with `ilo = 0`, `ihi = n`. -/
example : QrOK (mkM 0 3 3) (mkV 1 2) (mkV 2 3) ∧ (gehd2Worksize 0 3 (mkM 0 3 3)).size ≤ (mkV 2 3).n ∧
    HhLaws ℂ (doublePar false) ∧ frobSq 3 3 (entry (fun _ => (1 : ℂ)) (mkM 0 3 3)) ≤ (doublePar false).tbig ^ 2 := by
  refine ⟨⟨?_, ?_, ?_, ?_, ?_, ?_⟩, ?_, doublePar_laws _ (by simp), ?_⟩ <;> try adm
  simp only [entry, norm_one, mkM, doublePar, frobSq]
  simp only [one_pow, Finset.sum_const, Finset.card_range, nsmul_eq_mul, mul_one]
  rw [← pow_mul]
  refine le_trans ?_ (pow_le_pow_right₀ (by norm_num : (1 : ℝ) ≤ 2) (by norm_num : 4 ≤ 486 * 2))
  norm_num

/-- **C58** (deviation) gehd2 raises an error on an empty matrix, although `0 <= ilo <= ihi <= max(1,n)` admits
`n = 0`: the unsigned `n - 1` wraps around in the check of the length of `tau`. -/
theorem C58_gehd2_empty_violated (o : HhOps 𝕜 ℝ) (ilo ihi : Nat) (A : MatV L) (tau work : VecV L) (hm : A.m = 0)
    (hn : A.n = 0) (μ : Store L 𝕜) : gehd2 o ilo ihi A tau work μ = (.error .check, μ) := by
  unfold gehd2
  simp [hm, hn, check, bind, M.bind, M.fail, pure, M.pure]

/-- **C58** (deviation) gehd2 with `ilo = ihi = 0` on a non-empty matrix, admitted by the documentation, accesses
memory out of range: the unsigned `ihi - 1` wraps around in the loop bound. -/
theorem C58_gehd2_ihi0_violated (o : HhOps 𝕜 ℝ) (A : MatV L) (tau work : VecV L) (hsq : A.m = A.n)
    (hn : 0 < A.n) (ht : A.n - 1 ≤ tau.n) (μ : Store L 𝕜) : gehd2 o 0 0 A tau work μ = (.error .ub, μ) := by
  unfold gehd2
  have h2 : ¬ tau.n < A.n - 1 := by omega
  simp only [hsq, check, bind, M.bind, M.fail, h2, hn, decide_true, decide_false, Bool.not_false, Bool.and_self, if_true]
  rfl

example : ∃ (A : MatV (Nat × Nat)) (tau : VecV (Nat × Nat)), A.m = A.n ∧ 0 < A.n ∧ A.n - 1 ≤ tau.n :=
  ⟨⟨3, 3, fun i j => (0, i + 3 * j)⟩, ⟨2, fun i => (1, i)⟩, rfl, by decide, by decide⟩

/-! ### C59: unghr, unmhr -/

/-- **C59** unghr overwrites the output of gehd2 with the unitary factor `Q = H_ilo ... H_{ihi-2}` itself; only `A` and
the workspace are written. -/
theorem C59_unghr (isReal : Bool) (hreal : isReal = true → ∀ z : 𝕜, star z = z) (ilo ihi : Nat) (A : MatV L)
    (tau work : VecV L) (ok : QrOK A tau work) (hsq : A.m = A.n) (hlh : ilo < ihi) (hihi : ihi ≤ A.n)
    (ht : A.n ≤ tau.n + 1) (hw : (unghrWorksize ilo ihi A).size ≤ work.n) (μ : Store L 𝕜) :
    ∃ ν, unghr isReal ilo ihi A tau work μ = (.ok 0, ν) ∧
      mat A.n A.n (entry ν A) = hessQ A.n ilo ihi (entry μ A) (ventry μ tau) ∧
      ∀ l, ¬ A.Owns l → ¬ work.Owns l → ν l = μ l := by
  obtain ⟨_, ν, e, rfl, h⟩ := wp_iff.1 (wp_unghr hreal ok hsq hlh hihi ht hw (μ := μ))
  exact ⟨ν, e, h⟩

example : QrOK (mkM 0 4 4) (mkV 1 3) (mkV 2 200) ∧ (unghrWorksize 0 4 (mkM 0 4 4)).size ≤ (mkV 2 200).n ∧
    (unghrWorksize 1 3 (mkM 0 4 4)).size ≤ (mkV 2 200).n := by
  refine ⟨⟨?_, ?_, ?_, ?_, ?_, ?_⟩, ?_, ?_⟩ <;> adm

/-- **C59** unmhr applies `op(Q)` of the factor of gehd2 to a matrix from either side without forming it; only `C` and
the workspace are written. -/
theorem C59_unmhr (isReal : Bool) (hreal : isReal = true → ∀ z : 𝕜, star z = z) (side : Side) (trans : Op)
    (ilo ihi : Nat) (A : MatV L) (tau : VecV L) (C : MatV L) (work : VecV L)
    (hside : side = .Left ∨ side = .Right)
    (hop : trans = .NoTrans ∨ trans = .ConjTrans ∨ (trans = .Trans ∧ isReal = true))
    (hlh : ilo < ihi) (hm : ihi ≤ A.m) (hn : ihi ≤ A.n) (ht : ihi ≤ tau.n + 1)
    (hC : ihi ≤ if side = .Left then C.m else C.n)
    (inj : C.Inj) (winj : work.Inj) (AC : A.Disj C) (Aw : A.DisjV work) (tC : tau.DisjM C) (tw : tau.Disj work)
    (Cw : C.DisjV work) (hw : unmhrWorksize side ilo ihi C ≤ work.n) (μ : Store L 𝕜) :
    ∃ ν, unmhr isReal side trans ilo ihi A tau C work μ = (.ok 0, ν) ∧
      mat C.m C.n (entry ν C) = (if side = .Left then
        opQ trans (hessQ C.m ilo ihi (entry μ A) (ventry μ tau)) * mat C.m C.n (entry μ C)
        else mat C.m C.n (entry μ C) * opQ trans (hessQ C.n ilo ihi (entry μ A) (ventry μ tau))) ∧
      ∀ l, ¬ C.Owns l → ¬ work.Owns l → ν l = μ l := by
  obtain ⟨_, ν, e, rfl, h⟩ := wp_iff.1 (wp_unmhr hlh hm hn ht hC hside inj winj AC Aw tC tw Cw hw hop hreal (μ := μ))
  exact ⟨ν, e, h⟩

example : (mkM 2 4 2).Inj ∧ (mkV 3 8).Inj ∧ (mkM 0 4 4).Disj (mkM 2 4 2) ∧ (mkM 0 4 4).DisjV (mkV 3 8) ∧
    (mkV 1 3).DisjM (mkM 2 4 2) ∧ (mkV 1 3).Disj (mkV 3 8) ∧ (mkM 2 4 2).DisjV (mkV 3 8) ∧
    unmhrWorksize .Left 0 4 (mkM 2 4 2) ≤ (mkV 3 8).n := by
  refine ⟨?_, ?_, ?_, ?_, ?_, ?_, ?_, ?_⟩ <;> adm

/-- **C59** (deviation) unghr with `ilo = ihi = 0`, which its documentation allows, accesses memory out of range. -/
theorem C59_unghr_ihi0_violated (isReal : Bool) (A : MatV L) (tau work : VecV L)
    (ht : min A.m A.n ≤ tau.n + 1) (μ : Store L 𝕜) : unghr isReal 0 0 A tau work μ = (.error .ub, μ) := by
  unfold unghr
  have h2 : ¬ tau.n + 1 < min A.m A.n := by omega
  simp only [check, bind, M.bind, M.fail, h2, decide_false, Bool.not_false, if_true]
  rfl

/-! ### C60: gebd2 -/

theorem reflProd_last {q k : Nat} {t : Nat → 𝕜} {u : Nat → Nat → 𝕜} (hk : 0 < k) (h : ∀ r, r < q → u (k - 1) r = 0) :
    reflProd q 0 k t u = reflProd q 0 (k - 1) t u := by
  obtain ⟨j, rfl⟩ : ∃ j, k = j + 1 := ⟨k - 1, by omega⟩
  rw [reflProd_succ, Nat.add_sub_cancel]
  have : mat q q (reflF (t (0 + j)) (u (0 + j))) = 1 := by
    rw [← mat_idF, mat_ext_iff]
    intro r c hr hc
    unfold reflF idF
    rw [Nat.zero_add, show u j r = 0 from h r hr, mul_zero, zero_mul, sub_zero]
  rw [this, Matrix.mul_one]

/-- **C60** gebd2 on a matrix with at least as many rows as columns: `A = Q B Z^H` with `B` upper bidiagonal with real
entries, `Q = H_0 ... H_{n-1}` from the columns of the output and `tauv`, `Z = G_0 ... G_{n-2}` from its rows and
`tauw`, both unitary. -/
theorem C60_gebd2_upper (hl : HhLaws 𝕜 p) (A : MatV L) (tauv tauw work : VecV L) (ok : BrdOK A tauv tauw work)
    (hmn : A.n ≤ A.m) (htv : A.n ≤ tauv.n) (htw : A.n ≤ tauw.n)
    (hw : (gebd2Worksize A).size ≤ work.n) (μ : Store L 𝕜)
    (hb : frobSq A.m A.n (entry μ A) ≤ p.tbig ^ 2) :
    ∃ ν, gebd2 (hhOps p) A tauv tauw work μ = (.ok 0, ν) ∧
      (let Q := reflProd A.m 0 A.n (ventry ν tauv) (reflCol 0 A.m (entry ν A))
       let Z := reflProd A.n 0 (A.n - 1) (ventry ν tauw) (reflRow 1 A.n (entry ν A))
       mat A.m A.n (entry μ A) = Q * mat A.m A.n (bidUF (entry ν A)) * Z.conjTranspose ∧
       Q.conjTranspose * Q = 1 ∧ Z.conjTranspose * Z = 1) ∧
      (∀ i, i < A.n → RCLike.im (entry ν A i i) = 0) ∧
      (∀ i, i + 1 < A.n → RCLike.im (entry ν A i (i + 1)) = 0) ∧
      (∀ l, ¬ A.Owns l → ¬ (tauv.sub 0 A.n).Owns l → ¬ (tauw.sub 0 A.n).Owns l → ¬ work.Owns l → ν l = μ l) := by
  obtain ⟨_, ν, e, rfl, h⟩ := wp_iff.1 (wp_gebd2_ge hl ok hmn htv htw hw (μ := μ) hb)
  have inv := h.inv
  have hZ : reflProd A.n 0 A.n (ventry ν tauw) (reflRow 1 A.n (entry ν A)) =
      reflProd A.n 0 (A.n - 1) (ventry ν tauw) (reflRow 1 A.n (entry ν A)) := by
    by_cases h0 : A.n = 0
    · rw [h0]
    · refine reflProd_last (by omega) fun r hr => ?_
      unfold reflRow
      rw [if_neg (by omega), if_neg (by omega)]
  have hB : mat A.m A.n (bidUF (entry ν A)) = mat A.m A.n (maskF (bz A.n A.n) (entry ν A)) := by
    rw [mat_ext_iff]
    intro r c hr hc
    unfold bidUF
    by_cases b : r = c ∨ r + 1 = c
    · rw [if_pos b, mask_out (by unfold bz; omega)]
    · rw [if_neg b, mask_in (by unfold bz; omega)]
  refine ⟨ν, e, ⟨?_, ?_, ?_⟩, fun i hi => ?_, fun i hi => ?_, h.frame⟩
  · rw [hB, ← hZ]; exact inv.prod
  · exact reflProd_unitary fun i _ h1 => inv.unitv i (by omega)
  · exact reflProd_unitary fun i _ h1 => inv.unitw i (by omega)
  · exact RCLike.conj_eq_iff_im.1 (inv.reald i hi)
  · exact RCLike.conj_eq_iff_im.1 (inv.reale i (by omega) hi)

/-- **C60** gebd2 on a matrix with fewer rows than columns: `A = Q B Z^H` with `B` lower bidiagonal with real entries,
`Z = G_0 ... G_{m-1}` from the rows of the output and `tauw`, `Q = H_0 ... H_{m-2}` from its columns and `tauv`, both
unitary. -/
theorem C60_gebd2_lower (hl : HhLaws 𝕜 p) (A : MatV L) (tauv tauw work : VecV L) (ok : BrdOK A tauv tauw work)
    (hmn : A.m < A.n) (htv : A.m ≤ tauv.n) (htw : A.m ≤ tauw.n)
    (hw : (gebd2Worksize A).size ≤ work.n) (μ : Store L 𝕜)
    (hb : frobSq A.m A.n (entry μ A) ≤ p.tbig ^ 2) :
    ∃ ν, gebd2 (hhOps p) A tauv tauw work μ = (.ok 0, ν) ∧
      (let Q := reflProd A.m 0 (A.m - 1) (ventry ν tauv) (reflCol 1 A.m (entry ν A))
       let Z := reflProd A.n 0 A.m (ventry ν tauw) (reflRow 0 A.n (entry ν A))
       mat A.m A.n (entry μ A) = Q * mat A.m A.n (bidLF (entry ν A)) * Z.conjTranspose ∧
       Q.conjTranspose * Q = 1 ∧ Z.conjTranspose * Z = 1) ∧
      (∀ i, i < A.m → RCLike.im (entry ν A i i) = 0) ∧
      (∀ i, i + 1 < A.m → RCLike.im (entry ν A (i + 1) i) = 0) ∧
      (∀ l, ¬ A.Owns l → ¬ (tauv.sub 0 A.m).Owns l → ¬ (tauw.sub 0 A.m).Owns l → ¬ work.Owns l → ν l = μ l) := by
  have hw2 : larfWorksize .Right (A.m - 1) A.n ≤ work.n := by
    refine le_trans ?_ hw
    unfold gebd2Worksize
    by_cases h1 : A.n > 1
    · rw [if_pos h1]
      by_cases h2 : A.m > 1
      · simp only []
        rw [if_pos h2, minMax_ofSize]
        unfold larfWorksize
        simp
        split_ifs <;> omega
      · unfold larfWorksize
        rw [show A.m - 1 = 0 by omega]
        simp
    · unfold larfWorksize
      rw [show A.m - 1 = 0 by omega]
      simp
  have hb' : frobSq A.n A.m (starT (entry μ A)) ≤ p.tbig ^ 2 := by
    refine le_trans (le_of_eq ?_) hb
    unfold frobSq
    rw [Finset.sum_comm]
    refine Finset.sum_congr rfl fun r _ => Finset.sum_congr rfl fun c _ => ?_
    unfold starT
    rw [norm_star]
  obtain ⟨_, ν, e, rfl, h⟩ := wp_iff.1 (wp_gebd2_lt hl ok hmn htv htw hw hw2 (μ := μ) hb')
  have inv := h.inv
  have eZ : reflCol 0 A.n (starT (entry ν A)) = reflRow 0 A.n (entry ν A) := by
    funext j r; rfl
  have eQ : reflRow 1 A.m (starT (entry ν A)) = reflCol 1 A.m (entry ν A) := by
    funext j r
    unfold reflRow reflCol starT
    simp only [star_star]
  have i1 := inv.prod
  have i2 := inv.unitv
  have i3 := inv.unitw
  rw [eZ] at i1 i2
  rw [eQ] at i1 i3
  have hQ : reflProd A.m 0 A.m (ventry ν tauv) (reflCol 1 A.m (entry ν A)) =
      reflProd A.m 0 (A.m - 1) (ventry ν tauv) (reflCol 1 A.m (entry ν A)) := by
    by_cases h0 : A.m = 0
    · rw [h0]
    · refine reflProd_last (by omega) fun r hr => ?_
      unfold reflCol
      rw [if_neg (by omega), if_neg (by omega)]
  have hB : mat A.m A.n (bidLF (entry ν A)) =
      (mat A.n A.m (maskF (bz A.m A.m) (starT (entry ν A)))).conjTranspose := by
    rw [mat_conjTranspose, mat_ext_iff]
    intro r c hr hc
    unfold bidLF
    by_cases b : r = c ∨ c + 1 = r
    · rw [if_pos b, mask_out (by unfold bz; omega)]
      unfold starT
      rw [star_star]
    · rw [if_neg b, mask_in (by unfold bz; omega), star_zero]
  refine ⟨ν, e, ⟨?_, ?_, ?_⟩, fun i hi => ?_, fun i hi => ?_, fun l h1 h2 h3 h4 => h.frame l h1 h3 h2 h4⟩
  · have i1' := congrArg Matrix.conjTranspose i1
    rw [Matrix.conjTranspose_mul, Matrix.conjTranspose_mul, Matrix.conjTranspose_conjTranspose, ← hB, hQ,
      ← Matrix.mul_assoc] at i1'
    rw [← i1', mat_conjTranspose, mat_ext_iff]
    intro r c _ _
    unfold starT
    rw [star_star]
  · rw [← hQ]; exact reflProd_unitary fun i _ h1 => i3 i (by omega)
  · exact reflProd_unitary fun i _ h1 => i2 i (by omega)
  · have := inv.reald i hi
    unfold starT at this
    rw [star_star] at this
    exact RCLike.conj_eq_iff_im.1 this.symm
  · have := inv.reale i (by omega) hi
    unfold starT at this
    rw [star_star] at this
    exact RCLike.conj_eq_iff_im.1 this.symm

theorem frobSq_ones (m n c : Nat) (h : m * n ≤ 4) : frobSq m n (fun _ _ => (1 : ℂ)) ≤ (doublePar false).tbig ^ 2 := by
  simp only [norm_one, doublePar, frobSq]
  simp only [one_pow, Finset.sum_const, Finset.card_range, nsmul_eq_mul, mul_one]
  rw [← pow_mul]
  refine le_trans ?_ (pow_le_pow_right₀ (by norm_num : (1 : ℝ) ≤ 2) (by norm_num : 4 ≤ 486 * 2))
  have : ((m * n : Nat) : ℝ) ≤ 4 := by exact_mod_cast h
  push_cast at this
  linarith

/-- The hypotheses of C60 are met by tall and wide matrices. -/
example : BrdOK (mkM 0 3 2) (mkV 1 2) (mkV 2 2) (mkV 3 3) ∧ (gebd2Worksize (mkM 0 3 2)).size ≤ (mkV 3 3).n ∧
    BrdOK (mkM 0 2 3) (mkV 1 2) (mkV 2 2) (mkV 3 3) ∧ (gebd2Worksize (mkM 0 2 3)).size ≤ (mkV 3 3).n := by
  refine ⟨⟨⟨?_, ?_, ?_, ?_, ?_, ?_⟩, ⟨?_, ?_, ?_, ?_, ?_, ?_⟩, ?_⟩, ?_, ⟨⟨?_, ?_, ?_, ?_, ?_, ?_⟩, ⟨?_, ?_, ?_, ?_, ?_, ?_⟩, ?_⟩, ?_⟩ <;> adm

/-! ### C61: hetd2, ungtr -/

theorem tridQ_prod {uplo : Uplo} (hu : uplo = .Upper ∨ uplo = .Lower) (n : Nat) (V : Nat → Nat → 𝕜) (t : Nat → 𝕜) :
    tridQ uplo n V t = reflProd n 0 (n - 1) (fun a => t (tix uplo n a)) (fun a => tridCol uplo n V (tix uplo n a)) := by
  unfold tridQ reflProd
  rcases hu with rfl | rfl
  · rw [if_pos rfl]
    congr 1
    refine List.ext_getElem (by simp) fun i h1 h2 => ?_
    simp only [List.length_map, List.length_reverse, List.length_range] at h1
    simp only [List.getElem_map, List.getElem_reverse, List.getElem_range, List.length_range, tix, if_true, Nat.zero_add]
    rw [show n - 1 - 1 - i = n - 2 - i by omega]
  · rw [if_neg (by simp)]
    simp [tix]

/-- **C61** hetd2 reduces the Hermitian matrix held in one triangle of `A` to tridiagonal form by a unitary
similarity: `A = Q T Q^H` with `Q = H_{n-2} ... H_0` (Upper) or `H_0 ... H_{n-2}` (Lower) built from the reflectors left
in the triangle and `tau`, `T` the Hermitian tridiagonal matrix on the diagonal and off-diagonal of the output, all of
whose entries are real. The other triangle is neither read nor written. -/
theorem C61_hetd2 (hl : HhLaws 𝕜 p) (uplo : Uplo) (hu : uplo = .Upper ∨ uplo = .Lower) (A : MatV L) (tau : VecV L)
    (hA : A.Inj) (htau : tau.Inj) (hd : A.DisjV tau) (hsq : A.m = A.n) (hn0 : 0 < A.n) (htn : A.n - 1 ≤ tau.n)
    (μ : Store L 𝕜) (hb : frobSq A.n A.n (hermF uplo (entry μ A)) ≤ p.tbig ^ 2) :
    ∃ ν, hetd2 (hhOps p) (1 / 2) uplo A tau μ = (.ok 0, ν) ∧
      (let Q := tridQ uplo A.n (entry ν A) (ventry ν tau)
       mat A.n A.n (hermF uplo (entry μ A)) =
         Q * mat A.n A.n (hermF uplo (htridF (entry ν A))) * Q.conjTranspose ∧
       Q.conjTranspose * Q = 1) ∧
      (∀ i, i < A.n → RCLike.im (entry ν A i i) = 0) ∧
      (∀ i, i + 1 < A.n →
        RCLike.im (if uplo = .Upper then entry ν A i (i + 1) else entry ν A (i + 1) i) = 0) ∧
      (∀ r c, r < A.n → c < A.n → ¬ inTri uplo r c → entry ν A r c = entry μ A r c) ∧
      (∀ l, ¬ A.Owns l → ¬ (tau.sub 0 (A.n - 1)).Owns l → ν l = μ l) := by
  obtain ⟨_, ν, e, rfl, h⟩ := wp_iff.1 (wp_hetd2 hl hu hA htau hd hsq rfl hn0 htn (μ := μ) hb)
  have inv := h.inv
  have hT : mat A.n A.n (hermF uplo (htridF (entry ν A))) =
      mat A.n A.n (hermF uplo (maskF (tz uplo A.n (A.n - 1)) (entry ν A))) := by
    rw [mat_ext_iff]
    intro r c hr hc
    have key : ∀ r c, r < A.n → c < A.n → inTri uplo r c → htridF (entry ν A) r c =
        maskF (tz uplo A.n (A.n - 1)) (entry ν A) r c := by
      intro r c hr hc ht
      unfold htridF
      rcases hu with rfl | rfl
      · have ht' : r ≤ c := ht
        by_cases b : r + 1 < c
        · rw [if_neg (by omega), mask_in (by simp only [tz, if_true]; omega)]
        · rw [if_pos (by omega), mask_out (by simp only [tz, if_true]; omega)]
      · have ht' : c ≤ r := ht
        by_cases b : c + 1 < r
        · rw [if_neg (by omega), mask_in (by simp only [tz, reduceCtorEq, if_false]; omega)]
        · rw [if_pos (by omega), mask_out (by simp only [tz, reduceCtorEq, if_false]; omega)]
    exact hermF_congr2 (key r c hr hc) (key c r hc hr) hu
  refine ⟨ν, e, ⟨?_, ?_⟩, fun i hi => ?_, fun i hi => ?_, inv.other, h.frame⟩
  · rw [hT, tridQ_prod hu]; exact inv.prod
  · rw [tridQ_prod hu]; exact reflProd_unitary fun i _ h1 => inv.unit i (by omega)
  · refine RCLike.conj_eq_iff_im.1 ?_
    have h0 := inv.real0
    rcases hu with rfl | rfl
    · simp only [if_true] at h0
      by_cases b : i = A.n - 1
      · rw [b]; exact h0
      · exact inv.reald (A.n - 2 - i) 0 (A.n - 1 - (A.n - 2 - i)) _ i (by omega) (Or.inr ⟨rfl, rfl, rfl, rfl, by omega⟩)
    · simp only [reduceCtorEq, if_false] at h0
      by_cases b : i = 0
      · rw [b]; exact h0
      · exact inv.reald (i - 1) (i - 1 + 1) A.n _ i (by omega) (Or.inl ⟨rfl, rfl, rfl, rfl, by omega⟩)
  · refine RCLike.conj_eq_iff_im.1 ?_
    rcases hu with rfl | rfl
    · rw [if_pos rfl]
      exact inv.reale (A.n - 2 - i) 0 (A.n - 1 - (A.n - 2 - i)) (i + 1) i (by omega)
        (Or.inr ⟨rfl, rfl, rfl, by omega, by omega⟩)
    · rw [if_neg (by simp)]
      exact inv.reale i (i + 1) A.n i (i + 1) (by omega) (Or.inl ⟨rfl, rfl, rfl, rfl, rfl⟩)

/-- **C61** ungtr overwrites the output of hetd2 with the unitary factor `Q` itself; only `Q` and the workspace are
written. -/
theorem C61_ungtr (isReal : Bool) (hreal : isReal = true → ∀ z : 𝕜, star z = z) (uplo : Uplo)
    (hu : uplo = .Upper ∨ uplo = .Lower) (Q : MatV L) (tau work : VecV L) (ok : QrOK Q tau work)
    (hsq : Q.m = Q.n) (hn0 : 0 < Q.n) (ht : tau.n = Q.n - 1)
    (hw : 1 < Q.n → (ungqBlkWorksize (if uplo = .Upper then .Backward else .Forward) .Columnwise
      (if uplo = .Upper then Q.sub 0 (Q.n - 1) 0 (Q.n - 1) else Q.sub 1 Q.n 1 Q.n) (Q.n - 1) 32).size ≤ work.n)
    (μ : Store L 𝕜) :
    ∃ ν, ungtr isReal uplo Q tau work μ = (.ok 0, ν) ∧
      mat Q.n Q.n (entry ν Q) = tridQ uplo Q.n (entry μ Q) (ventry μ tau) ∧
      ∀ l, ¬ Q.Owns l → ¬ work.Owns l → ν l = μ l := by
  obtain ⟨_, ν, e, rfl, h⟩ := wp_iff.1 (wp_ungtr hreal hu ok hsq rfl hn0 ht hw (μ := μ))
  exact ⟨ν, e, h⟩

/-- The hypotheses of C61. -/
example : (mkM 0 2 2).Inj ∧ (mkV 1 1).Inj ∧ (mkM 0 2 2).DisjV (mkV 1 1) ∧ HhLaws ℂ (doublePar false) ∧
    frobSq 2 2 (hermF .Lower (entry (fun _ => (1 : ℂ)) (mkM 0 2 2))) ≤ (doublePar false).tbig ^ 2 ∧
    QrOK (mkM 0 4 4) (mkV 1 3) (mkV 2 200) ∧
    (ungqBlkWorksize .Backward .Columnwise ((mkM 0 4 4).sub 0 3 0 3) 3 32).size ≤ (mkV 2 200).n := by
  refine ⟨?_, ?_, ?_, doublePar_laws _ (by simp), ?_, ⟨?_, ?_, ?_, ?_, ?_, ?_⟩, ?_⟩ <;> try adm
  have : hermF .Lower (entry (fun _ => (1 : ℂ)) (mkM 0 2 2)) = fun _ _ => 1 := by
    funext i j
    unfold hermF entry
    split
    · simp [re_def]
    · split <;> simp
  have h2 := frobSq_ones 2 2 0 (by norm_num)
  rw [← this] at h2
  exact h2

end TLA
