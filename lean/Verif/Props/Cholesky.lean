import Verif.Proofs.PotrfBlk
import Verif.Props.Examples
import Mathlib.Data.Matrix.Diagonal

/-!
# C28 – C30: Cholesky factorization

potf2, potrf2, potrf_blocked, potrf_rl and the potrf dispatcher, in exact real or complex
arithmetic.  `thr` says whether the error macros throw (`true`: the default build, and
`opts.ec.internal` for potrf2) or the `int` result is returned (`false`).
-/

set_option linter.unusedTactic false
set_option linter.unreachableTactic false

namespace TLA
variable {L 𝕜 : Type} [DecidableEq L] [RCLike 𝕜]
open scoped ComplexOrder

/-! ### Specification -/

/-- The Hermitian matrix of order `n` given by the selected triangle of `A`. -/
noncomputable def hermMat (uplo : Uplo) (n : Nat) (μ : Store L 𝕜) (A : MatV L) :
    Matrix (Fin n) (Fin n) 𝕜 := mat n n (hermF uplo (entry μ A))

/-- The triangular matrix of order `n` given by the selected triangle of `A`. -/
def triMat (uplo : Uplo) (n : Nat) (μ : Store L 𝕜) (A : MatV L) :
    Matrix (Fin n) (Fin n) 𝕜 := mat n n (triF uplo .NonUnit (entry μ A))

/-- `H = Uᴴ U` resp. `H = L Lᴴ`, with positive real diagonal. -/
def IsCholFactor (uplo : Uplo) {n : Nat} (H F : Matrix (Fin n) (Fin n) 𝕜) : Prop :=
  H = (if uplo = .Upper then F.conjTranspose * F else F * F.conjTranspose) ∧
    ∀ i, ∃ d : ℝ, 0 < d ∧ F i i = (d : 𝕜)

/-- The leading principal minor of order `k` is positive definite. -/
def LeadPD (uplo : Uplo) (μ : Store L 𝕜) (A : MatV L) (k : Nat) : Prop :=
  (hermMat uplo k μ A).PosDef

/-- Complete contract of a Cholesky routine on an `n × n` view.  If the matrix is positive
definite the routine returns 0 and leaves its Cholesky factor.  Otherwise, `k` being the order of
the largest positive definite leading minor, it returns `k + 1`, or throws with code `code k` when
errors are enabled.  In all cases only the selected triangle is written. -/
def CholContract (thr : Bool) (code : Nat → Nat) (uplo : Uplo) (A : MatV L) (n : Nat)
    (prog : M L 𝕜 Nat) : Prop :=
  ∀ μ, (LeadPD uplo μ A n → ∃ ν, prog μ = (.ok 0, ν) ∧
        IsCholFactor uplo (hermMat uplo n μ A) (triMat uplo n ν A) ∧ SameOff A uplo μ ν) ∧
    ∀ k, k < n → LeadPD uplo μ A k → ¬ LeadPD uplo μ A (k + 1) → ∃ ν,
        prog μ = (if thr then .error (.runtime (code k)) else .ok (k + 1), ν) ∧ SameOff A uplo μ ν

/-! ### From the entry-wise results to the contract -/

theorem LeadPD.mono {uplo : Uplo} {μ : Store L 𝕜} {A : MatV L} {k n : Nat} (hkn : k ≤ n)
    (h : LeadPD uplo μ A n) : LeadPD uplo μ A k := by
  have := Matrix.PosDef.submatrix h (e := Fin.castLE hkn) (Fin.castLE_injective hkn)
  exact this

theorem LeadPD.zero (uplo : Uplo) (μ : Store L 𝕜) (A : MatV L) : LeadPD uplo μ A 0 := by
  refine ⟨by ext i; exact i.elim0, fun x hx => absurd (Subsingleton.elim x 0) hx⟩

/-- The two cases of the contract cover every input. -/
theorem LeadPD.cases (uplo : Uplo) (μ : Store L 𝕜) (A : MatV L) (n : Nat) :
    LeadPD uplo μ A n ∨ ∃ k, k < n ∧ LeadPD uplo μ A k ∧ ¬ LeadPD uplo μ A (k + 1) := by
  induction n with
  | zero => exact Or.inl (LeadPD.zero uplo μ A)
  | succ n ih =>
    rcases ih with h | ⟨k, h1, h2, h3⟩
    · by_cases h' : LeadPD uplo μ A (n + 1)
      · exact Or.inl h'
      · exact Or.inr ⟨n, by omega, h, h'⟩
    · exact Or.inr ⟨k, by omega, h2, h3⟩

/-- Only one order is reported. -/
theorem LeadPD.unique {uplo : Uplo} {μ : Store L 𝕜} {A : MatV L} {k k' : Nat}
    (h : LeadPD uplo μ A k) (h1 : ¬ LeadPD uplo μ A (k + 1))
    (h' : LeadPD uplo μ A k') (h1' : ¬ LeadPD uplo μ A (k' + 1)) : k = k' := by
  rcases Nat.lt_trichotomy k k' with hl | rfl | hl
  · exact absurd (h'.mono hl) h1
  · rfl
  · exact absurd (h.mono hl) h1'

theorem isCholFactor_of_rows {uplo : Uplo} (hu : uplo = .Upper ∨ uplo = .Lower) {A : MatV L}
    {n : Nat} {μ ν : Store L 𝕜}
    (H : CholRows (hermF uplo (entry μ A)) (rowsF uplo (entry ν A)) n n) :
    IsCholFactor uplo (hermMat uplo n μ A) (triMat uplo n ν A) := by
  have hp : ∀ i, i < n → ∃ d : ℝ, 0 < d ∧ entry ν A i i = (d : 𝕜) := by
    intro i hi
    obtain ⟨h1, h2⟩ := H.pos i hi
    refine ⟨_, h1, ?_⟩
    have h3 : rowsF uplo (entry ν A) i i = ((RCLike.re (rowsF uplo (entry ν A) i i) : ℝ) : 𝕜) := by
      rw [← RCLike.re_add_im (rowsF uplo (entry ν A) i i), h2]; simp
    rw [← h3]
    rcases hu with rfl | rfl
    · rfl
    · have h4 : star (rowsF .Lower (entry ν A) i i) = rowsF .Lower (entry ν A) i i := by
        rw [h3]; simp
      rw [← h4, rowsF_L, star_star]
  refine ⟨?_, fun i => ?_⟩
  · unfold hermMat triMat
    rw [chol_mul H (hermF_starC hu _)]
    rcases hu with rfl | rfl
    · rw [if_pos rfl]
      have : mat n n (fun i j => if i ≤ j then rowsF .Upper (entry ν A) i j else 0) =
          mat n n (triF .Upper .NonUnit (entry ν A)) := by
        rw [mat_ext_iff]; intro i j hi hj
        unfold triF
        by_cases hij : i = j
        · subst hij; simp [rowsF_U]
        · rw [if_neg hij]; exact if_congr Iff.rfl rfl rfl
      rw [this]
    · rw [if_neg (by decide)]
      have : mat n n (fun i j => if i ≤ j then rowsF .Lower (entry ν A) i j else 0) =
          (mat n n (triF .Lower .NonUnit (entry ν A))).conjTranspose := by
        rw [mat_conjTranspose, mat_ext_iff]; intro i j hi hj
        unfold triF
        by_cases hij : j = i
        · subst hij; simp [rowsF_L]
        · rw [if_neg hij]
          by_cases h : i ≤ j
          · rw [if_pos h, rowsF_L]; congr 1; exact (if_pos h).symm
          · rw [if_neg h]
            exact ((congrArg star (if_neg (show ¬ inTri .Lower j i from h))).trans (star_zero 𝕜)).symm
      rw [this, Matrix.conjTranspose_conjTranspose]
  · obtain ⟨d, h1, h2⟩ := hp i i.2
    refine ⟨d, h1, ?_⟩
    unfold triMat mat triF
    rw [if_pos rfl]; exact h2

theorem cholContract_of_wp {thr : Bool} {code : Nat → Nat} {uplo : Uplo}
    (hu : uplo = .Upper ∨ uplo = .Lower) {A : MatV L} {n : Nat} {prog : M L 𝕜 Nat}
    (h : ∀ μ, wp prog μ (CholRet thr uplo A n μ) (CholThrow thr code uplo A n μ)) :
    CholContract thr code uplo A n prog := by
  intro μ
  have hh := hermF_starC hu (entry μ A)
  have := h μ
  unfold wp at this
  rcases hp : prog μ with ⟨r, ν⟩
  rw [hp] at this
  have hpd : ∀ {ν}, CholRows (hermF uplo (entry μ A)) (rowsF uplo (entry ν A)) n n →
      LeadPD uplo μ A n := fun H => chol_posDef H hh
  have hnf : ∀ {k}, CholFail (hermF uplo (entry μ A)) k →
      LeadPD uplo μ A k ∧ ¬ LeadPD uplo μ A (k + 1) := fun H => cholFail_not H hh
  cases r with
  | ok info =>
    obtain ⟨o, ⟨rfl, H⟩ | ⟨rfl, k, hk, rfl, H⟩⟩ := this
    · exact ⟨fun _ => ⟨ν, rfl, isCholFactor_of_rows hu H, o⟩,
        fun k hk h1 h2 => absurd ((hpd H).mono hk) h2⟩
    · refine ⟨fun h => absurd (h.mono hk) (hnf H).2, fun k' hk' h1 h2 => ⟨ν, ?_, o⟩⟩
      obtain rfl := LeadPD.unique (hnf H).1 (hnf H).2 h1 h2
      rfl
  | error e =>
    obtain ⟨rfl, o, k, hk, rfl, H⟩ := this
    refine ⟨fun h => absurd (h.mono hk) (hnf H).2, fun k' hk' h1 h2 => ⟨ν, ?_, o⟩⟩
    obtain rfl := LeadPD.unique (hnf H).1 (hnf H).2 h1 h2
    rfl

/-- Zero result means positive definite, with the factor stored. -/
theorem CholContract.of_ok {thr : Bool} {code : Nat → Nat} {uplo : Uplo} {A : MatV L} {n : Nat}
    {prog : M L 𝕜 Nat} (h : CholContract thr code uplo A n prog) {μ ν : Store L 𝕜}
    (hp : prog μ = (.ok 0, ν)) : LeadPD uplo μ A n ∧
      IsCholFactor uplo (hermMat uplo n μ A) (triMat uplo n ν A) ∧ SameOff A uplo μ ν := by
  obtain ⟨h1, h2⟩ := h μ
  rcases LeadPD.cases uplo μ A n with hc | ⟨k, hk, a, b⟩
  · obtain ⟨ν', e, f, o⟩ := h1 hc
    rw [hp] at e
    obtain rfl : ν = ν' := congrArg Prod.snd e
    exact ⟨hc, f, o⟩
  · obtain ⟨ν', e, o⟩ := h2 k hk a b
    rw [hp] at e
    have := congrArg Prod.fst e
    cases thr with
    | true => simp at this
    | false => simp at this

/-! ### The theorems -/

/-- **C28** (potf2) If the unblocked algorithm returns 0, the selected triangle holds the Cholesky
factor, with positive diagonal, of the Hermitian matrix given by that triangle before the call;
every other cell is unchanged. -/
theorem C28_potf2 (thr : Bool) (uplo : Uplo) (hu : uplo = .Upper ∨ uplo = .Lower) (A : MatV L)
    (n : Nat) (hA : A.Inj) (hm : A.m = n) (hn : A.n = n) (μ ν : Store L 𝕜)
    (h : potf2 thr uplo A μ = (.ok 0, ν)) :
    IsCholFactor uplo (hermMat uplo n μ A) (triMat uplo n ν A) ∧ SameOff A uplo μ ν :=
  ((cholContract_of_wp hu (fun μ => wp_potf2 hu hA hm hn μ)).of_ok h).2

/-- **C28** (potrf2) The recursive algorithm likewise. -/
theorem C28_potrf2 (thr : Bool) (uplo : Uplo) (hu : uplo = .Upper ∨ uplo = .Lower) (A : MatV L)
    (n : Nat) (hA : A.Inj) (hm : A.m = n) (hn : A.n = n) (μ ν : Store L 𝕜)
    (h : potrf2 thr uplo A μ = (.ok 0, ν)) :
    IsCholFactor uplo (hermMat uplo n μ A) (triMat uplo n ν A) ∧ SameOff A uplo μ ν :=
  ((cholContract_of_wp hu (fun μ => wp_potrf2 hu n thr A μ hm hn hA)).of_ok h).2

/-- **C29** (potf2) Complete behaviour: success exactly on positive definite matrices, otherwise
the order of the first non-positive-definite leading minor is reported. -/
theorem C29_potf2 (thr : Bool) (uplo : Uplo) (hu : uplo = .Upper ∨ uplo = .Lower) (A : MatV L)
    (n : Nat) (hA : A.Inj) (hm : A.m = n) (hn : A.n = n) :
    CholContract (𝕜 := 𝕜) thr (· + 1) uplo A n (potf2 thr uplo A) :=
  cholContract_of_wp hu (fun μ => wp_potf2 hu hA hm hn μ)

/-- **C29** (potrf2) Complete behaviour of the recursive algorithm, for both settings of
`opts.ec.internal`. -/
theorem C29_potrf2 (thr : Bool) (uplo : Uplo) (hu : uplo = .Upper ∨ uplo = .Lower) (A : MatV L)
    (n : Nat) (hA : A.Inj) (hm : A.m = n) (hn : A.n = n) :
    CholContract (𝕜 := 𝕜) thr (· + 1) uplo A n (potrf2 thr uplo A) :=
  cholContract_of_wp hu (fun μ => wp_potrf2 hu n thr A μ hm hn hA)

/-- **C29** The contract covers every input: a result code `k + 1 > 0` is returned exactly when the
leading minor of order `k` is positive definite and that of order `k + 1` is not. -/
theorem C29_info_iff (uplo : Uplo) (hu : uplo = .Upper ∨ uplo = .Lower) (A : MatV L)
    (n : Nat) (hA : A.Inj) (hm : A.m = n) (hn : A.n = n) (μ : Store L 𝕜) :
    ∃ info ν, potrf2 false uplo A μ = (.ok info, ν) ∧ (info = 0 ↔ LeadPD uplo μ A n) ∧
      ∀ k, k < n → (info = k + 1 ↔ LeadPD uplo μ A k ∧ ¬ LeadPD uplo μ A (k + 1)) := by
  obtain ⟨h1, h2⟩ := C29_potrf2 (𝕜 := 𝕜) false uplo hu A n hA hm hn μ
  rcases LeadPD.cases uplo μ A n with hc | ⟨k, hk, a, b⟩
  · obtain ⟨ν, e, _⟩ := h1 hc
    refine ⟨0, ν, e, by simp [hc], fun k hk => ⟨fun h => by omega, fun h => absurd (hc.mono hk) h.2⟩⟩
  · obtain ⟨ν, e, _⟩ := h2 k hk a b
    refine ⟨k + 1, ν, e, ⟨fun h => by omega, fun h => absurd (h.mono hk) b⟩, fun k' hk' => ?_⟩
    exact ⟨fun h => by obtain rfl : k = k' := by omega
                       exact ⟨a, b⟩,
      fun h => by rw [LeadPD.unique a b h.1 h.2]⟩

/-- **C30** Left-looking blocked variant, every block size `nb ≥ 1`.  With errors enabled the
thrown code is the index inside the failing block (`k % nb + 1`), not the documented global one. -/
theorem C30_potrf_blocked (thr : Bool) (nb : Nat) (hnb : 0 < nb) (uplo : Uplo)
    (hu : uplo = .Upper ∨ uplo = .Lower) (A : MatV L)
    (n : Nat) (hA : A.Inj) (hm : A.m = n) (hn : A.n = n) :
    CholContract (𝕜 := 𝕜) thr (fun k => k % nb + 1) uplo A n (potrfBlocked thr nb uplo A) :=
  cholContract_of_wp hu (fun μ => wp_potrfBlocked hu hA hm hn hnb μ)

/-- **C30** Right-looking blocked variant, every block size `nb ≥ 1`. -/
theorem C30_potrf_rl (thr : Bool) (nb : Nat) (hnb : 0 < nb) (uplo : Uplo)
    (hu : uplo = .Upper ∨ uplo = .Lower) (A : MatV L)
    (n : Nat) (hA : A.Inj) (hm : A.m = n) (hn : A.n = n) :
    CholContract (𝕜 := 𝕜) thr (fun k => k % nb + 1) uplo A n (potrfRl thr nb uplo A) :=
  cholContract_of_wp hu (fun μ => wp_potrfRl hu hA hm hn hnb μ)

/-- The code reported by a throwing potrf. -/
def potrfCode (variant : PotrfVariant) (nb k : Nat) : Nat :=
  match variant with
  | .Blocked | .RightLooking => k % nb + 1
  | .Recursive | .Level2 => k + 1

/-- **C30** The dispatcher, all four variants. -/
theorem C30_potrf (dbg internal : Bool) (nb : Nat) (hnb : 0 < nb) (variant : PotrfVariant)
    (uplo : Uplo) (hu : uplo = .Upper ∨ uplo = .Lower) (A : MatV L)
    (n : Nat) (hA : A.Inj) (hm : A.m = n) (hn : A.n = n) :
    CholContract (𝕜 := 𝕜) (dbg && (internal || variant ≠ .Recursive)) (potrfCode variant nb) uplo A n
      (potrf dbg internal nb variant uplo A) := by
  refine cholContract_of_wp hu (fun μ => ?_)
  unfold potrf
  rw [wp_bind]
  refine wp_squareTriChecks hu (by omega) ?_
  cases variant with
  | Blocked =>
    rw [show potrfCode .Blocked nb = fun k => k % nb + 1 from rfl]; simpa using wp_potrfBlocked hu hA hm hn hnb μ
  | Recursive =>
    rw [show potrfCode .Recursive nb = fun k => k + 1 from rfl]; simpa using wp_potrf2 hu n (dbg && internal) A μ hm hn hA
  | Level2 =>
    rw [show potrfCode .Level2 nb = fun k => k + 1 from rfl]; simpa using wp_potf2 hu hA hm hn μ
  | RightLooking =>
    rw [show potrfCode .RightLooking nb = fun k => k % nb + 1 from rfl]; simpa using wp_potrfRl hu hA hm hn hnb μ

/-- **C30** On a positive definite matrix every variant, block size and error setting leaves
exactly the same memory. -/
theorem C30_variants_agree (uplo : Uplo) (hu : uplo = .Upper ∨ uplo = .Lower) (A : MatV L)
    (n : Nat) (hA : A.Inj) (hm : A.m = n) (hn : A.n = n) (μ : Store L 𝕜) (hpd : LeadPD uplo μ A n) :
    ∃ ν, potf2 true uplo A μ = (.ok 0, ν) ∧ ∀ dbg internal nb variant, 0 < nb →
      potrf dbg internal nb variant uplo A μ = (.ok 0, ν) := by
  -- a success of any variant determines the store
  have key : ∀ (thr : Bool) (prog : M L 𝕜 Nat) (code : Nat → Nat),
      wp prog μ (CholRet thr uplo A n μ) (CholThrow thr code uplo A n μ) →
      ∃ ν, prog μ = (.ok 0, ν) ∧ SameOff A uplo μ ν ∧
        CholRows (hermF uplo (entry μ A)) (rowsF uplo (entry ν A)) n n := by
    intro thr prog code h
    have hh := hermF_starC hu (entry μ A)
    unfold wp at h
    rcases hp : prog μ with ⟨r, ν⟩
    rw [hp] at h
    cases r with
    | ok info =>
      obtain ⟨o, ⟨rfl, H⟩ | ⟨rfl, k, hk, rfl, H⟩⟩ := h
      · exact ⟨ν, rfl, o, H⟩
      · exact absurd (hpd.mono hk) (cholFail_not H hh).2
    | error e =>
      obtain ⟨rfl, o, k, hk, rfl, H⟩ := h
      exact absurd (hpd.mono hk) (cholFail_not H hh).2
  obtain ⟨ν, e, o, H⟩ := key true _ _ (wp_potf2 hu hA hm hn μ)
  refine ⟨ν, e, fun dbg internal nb variant hnb => ?_⟩
  have : ∃ thr code, wp (potrf dbg internal nb variant uplo A) μ (CholRet thr uplo A n μ)
      (CholThrow thr code uplo A n μ) := by
    unfold potrf
    simp only [wp_bind]
    cases variant with
    | Blocked => exact ⟨dbg, _, wp_squareTriChecks hu (by omega) (wp_potrfBlocked hu hA hm hn hnb μ)⟩
    | Recursive => exact ⟨_, _, wp_squareTriChecks hu (by omega)
        (wp_potrf2 hu n (dbg && internal) A μ hm hn hA)⟩
    | Level2 => exact ⟨dbg, _, wp_squareTriChecks hu (by omega) (wp_potf2 hu hA hm hn μ)⟩
    | RightLooking => exact ⟨dbg, _, wp_squareTriChecks hu (by omega) (wp_potrfRl hu hA hm hn hnb μ)⟩
  obtain ⟨thr, code, hw⟩ := this
  obtain ⟨ν', e', o', H'⟩ := key thr _ code hw
  rw [e']
  congr 1
  funext l
  by_cases hl : ∀ i j, i < A.m → j < A.n → inTri uplo i j → A.cell i j ≠ l
  · rw [o l hl, o' l hl]
  · push Not at hl
    obtain ⟨i, j, hi, hj, ht, rfl⟩ := hl
    rcases hu with rfl | rfl
    · exact (chol_unique H' H i j ht (by omega))
    · exact star_injective (chol_unique H' H j i ht (by omega))

/-- **C28/C29** The unselected triangle has no influence: on two memories that agree on the
selected triangle every variant gives the same result code, and on success the same factor. -/
theorem C28_other_triangle_irrelevant (dbg internal : Bool) (nb : Nat) (hnb : 0 < nb)
    (variant : PotrfVariant) (uplo : Uplo) (hu : uplo = .Upper ∨ uplo = .Lower) (A : MatV L)
    (n : Nat) (hA : A.Inj) (hm : A.m = n) (hn : A.n = n) (μ μ' : Store L 𝕜)
    (heq : ∀ i j, i < n → j < n → inTri uplo i j → entry μ A i j = entry μ' A i j) :
    (potrf dbg internal nb variant uplo A μ).1 = (potrf dbg internal nb variant uplo A μ').1 := by
  have hH : ∀ k, k ≤ n → hermMat uplo k μ A = hermMat uplo k μ' A := by
    intro k hk
    unfold hermMat
    rw [mat_ext_iff]
    intro i j hi hj
    unfold hermF
    have ht : ∀ i, inTri uplo i i := by rcases hu with rfl | rfl <;> exact fun i => le_refl i
    rw [heq i i (by omega) (by omega) (ht i)]
    by_cases hij : i = j
    · rw [if_pos hij, if_pos hij]
    · rw [if_neg hij, if_neg hij]
      by_cases h : inTri uplo i j
      · rw [if_pos h, if_pos h, heq i j (by omega) (by omega) h]
      · rw [if_neg h, if_neg h, heq j i (by omega) (by omega)]
        rcases hu with rfl | rfl
        · exact (Nat.le_of_lt (Nat.lt_of_not_le h))
        · exact (Nat.le_of_lt (Nat.lt_of_not_le h))
  have hL : ∀ k, k ≤ n → (LeadPD uplo μ A k ↔ LeadPD uplo μ' A k) := by
    intro k hk; unfold LeadPD; rw [hH k hk]
  have hc := C30_potrf (𝕜 := 𝕜) dbg internal nb hnb variant uplo hu A n hA hm hn
  rcases LeadPD.cases uplo μ A n with h | ⟨k, hk, a, b⟩
  · obtain ⟨ν, e, _⟩ := (hc μ).1 h
    obtain ⟨ν', e', _⟩ := (hc μ').1 ((hL n (le_refl n)).1 h)
    rw [e, e']
  · obtain ⟨ν, e, _⟩ := (hc μ).2 k hk a b
    obtain ⟨ν', e', _⟩ := (hc μ').2 k hk ((hL k (by omega)).1 a) (fun h => b ((hL _ hk).2 h))
    rw [e, e']

/-- **C30** (deviation) `opts.nb = 0` is accepted, and both blocked variants then never finish. -/
theorem C30_nb_zero_diverges (dbg internal : Bool) (variant : PotrfVariant)
    (hv : variant = .Blocked ∨ variant = .RightLooking) (uplo : Uplo)
    (hu : uplo = .Upper ∨ uplo = .Lower) (A : MatV L) (n : Nat) (hpos : 0 < n) (hA : A.Inj)
    (hm : A.m = n) (hn : A.n = n) (μ : Store L 𝕜) :
    ∃ ν, potrf dbg internal 0 variant uplo A μ = (.error .diverge, ν) := by
  have h0 : ∀ μ : Store L 𝕜, wp (potf2 dbg uplo (A.sub 0 0 0 0)) μ (fun r ν => r = 0 ∧ ν = μ) := by
    intro μ
    rcases hu with rfl | rfl <;>
    · unfold potf2 squareTriChecks
      simp only [wp_bind, MatV.sub]
      rw [forStep]
      simp [check]
  have key : wp (potrf dbg internal 0 variant uplo A) μ (fun _ _ => False)
      (fun e _ => e = .diverge) := by
    unfold potrf
    rw [wp_bind]
    refine wp_squareTriChecks hu (by omega) ?_
    rcases hv with rfl | rfl
    · show wp (potrfBlocked dbg 0 uplo A) μ _ _
      unfold potrfBlocked
      simp only [wp_bind, hm]
      refine wp_squareTriChecks hu (by omega) ?_
      rw [if_neg (by omega), if_neg (by omega), forStep, dif_pos hpos]
      simp only [wp_bind]
      unfold potrfBlockedStep
      simp only [wp_bind, Nat.zero_min, Nat.add_zero]
      have hH := fun μ : Store L 𝕜 => wp_leftHerk (μ := μ) (n := n) hu hA hm hn (le_refl 0) (by omega)
      have hP := fun μ : Store L 𝕜 => wp_leftPanel (μ := μ) (n := n) hu hA hm hn (le_refl 0) (by omega)
        (fun i hi => by omega)
      rcases hu with rfl | rfl
      · rw [if_pos rfl]
        simp only [if_true, wp_bind] at hH hP ⊢
        refine wp_slice (by omega) (by omega) (by omega) (by omega) ?_
        refine wp_slice (by omega) (by omega) (by omega) (by omega) ?_
        refine wp_mono (hH _) ?_ (fun _ _ h => h.elim)
        intro _ ν1 _
        refine wp_mono (h0 _) ?_ (fun _ _ h => h.elim)
        rintro _ ν ⟨rfl, rfl⟩
        rw [if_neg (by decide), if_pos hpos]
        simp only [wp_bind]
        refine wp_slice (by omega) (by omega) (by omega) (by omega) ?_
        refine wp_slice (by omega) (by omega) (by omega) (by omega) ?_
        refine wp_mono (hP _) ?_ (fun _ _ h => h.elim)
        intro _ ν2 h2
        refine wp_mono h2 ?_ (fun _ _ h => h.elim)
        intro _ ν3 _
        simp
      · rw [if_neg (by decide)]
        simp only [if_false, reduceCtorEq, wp_bind] at hH hP ⊢
        refine wp_slice (by omega) (by omega) (by omega) (by omega) ?_
        refine wp_slice (by omega) (by omega) (by omega) (by omega) ?_
        refine wp_mono (hH _) ?_ (fun _ _ h => h.elim)
        intro _ ν1 _
        refine wp_mono (h0 _) ?_ (fun _ _ h => h.elim)
        rintro _ ν ⟨rfl, rfl⟩
        rw [if_neg (by decide), if_pos hpos]
        simp only [wp_bind]
        refine wp_slice (by omega) (by omega) (by omega) (by omega) ?_
        refine wp_slice (by omega) (by omega) (by omega) (by omega) ?_
        refine wp_mono (hP _) ?_ (fun _ _ h => h.elim)
        intro _ ν2 h2
        refine wp_mono h2 ?_ (fun _ _ h => h.elim)
        intro _ ν3 _
        simp
    · show wp (potrfRl dbg 0 uplo A) μ _ _
      unfold potrfRl
      simp only [wp_bind, hm]
      refine wp_squareTriChecks hu (by omega) ?_
      rw [if_neg (by omega), if_neg (by omega), forStep, dif_pos hpos]
      simp only [wp_bind]
      unfold potrfRlStep
      simp only [wp_bind, Nat.zero_min, Nat.add_zero]
      refine wp_slice (by omega) (by omega) (by omega) (by omega) ?_
      refine wp_mono (h0 _) ?_ (fun _ _ h => h.elim)
      rintro _ ν ⟨rfl, rfl⟩
      rw [if_neg (by decide), if_pos hpos, wp_bind]
      refine wp_mono (wp_cholPanel (n := n) hu hA hm hn (le_refl 0) (by omega) (fun i hi => by omega)
        (E := fun _ _ => False)) ?_ (fun _ _ h => h.elim)
      intro _ ν1 _
      simp
  unfold wp at key
  rcases hp : potrf dbg internal 0 variant uplo A μ with ⟨r, ν⟩
  rw [hp] at key
  cases r with
  | ok _ => exact key.elim
  | error e => exact ⟨ν, by rw [key]⟩

/-! ### Non-vacuity -/

/-- `diag(1, 2, …, n)` stored in array 0 (zero elsewhere). -/
noncomputable def diagStore : Store (Nat × Nat × Nat) ℝ := fun l => if l.2.1 = l.2.2 then (l.2.1 + 1 : ℝ) else 0

theorem diagStore_pd (uplo : Uplo) (n : Nat) : LeadPD uplo diagStore (mkM 0 n n) n := by
  have : hermMat uplo n diagStore (mkM 0 n n) = Matrix.diagonal (fun i : Fin n => ((i : Nat) + 1 : ℝ)) := by
    ext i j
    unfold hermMat mat hermF entry
    simp only [mkM, diagStore]
    by_cases h : (i : Nat) = j
    · have h' : i = j := Fin.ext h
      subst h'
      simp [re_def]
    · have h' : i ≠ j := fun e => h (congrArg Fin.val e)
      simp [h, h', Ne.symm h]
  unfold LeadPD
  rw [this]
  exact Matrix.PosDef.diagonal (fun i => by positivity)

example (nb : Nat) (hnb : 0 < nb) : ∃ ν, potrf true true nb .Blocked .Lower (mkM 0 5 5) diagStore = (.ok 0, ν) ∧
    IsCholFactor .Lower (hermMat .Lower 5 diagStore (mkM 0 5 5)) (triMat .Lower 5 ν (mkM 0 5 5)) := by
  obtain ⟨ν, h, f, _⟩ := (C30_potrf (𝕜 := ℝ) true true nb hnb .Blocked .Lower (Or.inr rfl) (mkM 0 5 5) 5
    (mkM_inj _ _ _) rfl rfl diagStore).1 (diagStore_pd _ 5)
  exact ⟨ν, h, f⟩

/-- A case with failure: the zero matrix of order 3 is rejected at the first pivot. -/
example : ∃ ν, potrf2 (T := ℝ) true .Upper (mkM 0 3 3) (fun _ => 0) = (.error (.runtime 1), ν) := by
  obtain ⟨ν, h, _⟩ := (C29_potrf2 (𝕜 := ℝ) true .Upper (Or.inl rfl) (mkM 0 3 3) 3
    (mkM_inj _ _ _) rfl rfl (fun _ => 0)).2 0 (by omega) (LeadPD.zero _ _ _) (by
      intro h
      have h2 := h.diag_pos (i := 0)
      simp [hermMat, mat, hermF, entry, re_def] at h2)
  exact ⟨ν, h⟩

end TLA
