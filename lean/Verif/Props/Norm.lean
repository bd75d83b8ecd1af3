import Verif.SpecNorm
import Verif.Proofs.NormFro
import Verif.Proofs.Infnorm
import Verif.Proofs.FootNorm
import Verif.Props.House
import Verif.Props.Examples
import Mathlib.Analysis.Matrix.Normed

/-! # C48, C49: matrix norms -/

set_option linter.unusedSectionVars false
set_option linter.unusedVariables false

namespace TLA
open Finset
variable {L T R 𝕜 : Type} [DecidableEq L] [RCLike 𝕜] [DecidableEq 𝕜] {p : HhPar}

/-! ### Exact arithmetic -/

/-- The norm of an empty matrix is 0. -/
theorem isNorm_empty {nt : Norm} {m n : Nat} {a : Nat → Nat → 𝕜} (h : m = 0 ∨ n = 0) (hnt : nt ≠ .Two) :
    IsNorm nt m n a 0 := by
  unfold IsNorm
  cases nt with
  | Two => exact absurd rfl hnt
  | Max =>
    refine ⟨.inl rfl, ?_⟩
    rintro y (rfl | ⟨i, j, hi, hj, rfl⟩)
    · exact le_refl _
    · omega
  | One =>
    refine ⟨.inl rfl, ?_⟩
    rintro y (rfl | ⟨j, hj, rfl⟩)
    · exact le_refl _
    · obtain rfl : m = 0 := by omega
      simp
  | Inf =>
    refine ⟨.inl rfl, ?_⟩
    rintro y (rfl | ⟨j, hj, rfl⟩)
    · exact le_refl _
    · obtain rfl : n = 0 := by omega
      simp
  | Fro =>
    rcases h with rfl | rfl <;> simp

/-- **C48** lange returns the requested norm of the matrix and writes nothing: the largest absolute value,
the one norm, the infinity norm, and the Frobenius norm when no entry is dropped by the scaled sum of
squares. -/
theorem C48_lange (hl : HhLaws 𝕜 p) (htsml : 0 ≤ p.tsml) {nt : Norm} (hnt : nt ≠ .Two) (A : MatV L)
    (μ : Store L 𝕜) (hd : nt = .Fro → FroOK p A.m A.n (entry μ A)) :
    ∃ r, lange (hhOps p) nt A μ = (.ok r, μ) ∧ IsNorm nt A.m A.n (entry μ A) r := by
  suffices h : wp (lange (hhOps p) nt A) μ (fun r ν => ν = μ ∧ IsNorm nt A.m A.n (entry μ A) r) by
    obtain ⟨r, ν, e, rfl, h⟩ := wp_iff.1 h
    exact ⟨r, e, h⟩
  by_cases hz : A.m = 0 ∨ A.n = 0
  · unfold lange langeG
    simp only [wp_bind, wp_check]
    rw [if_pos (by cases nt <;> first | rfl | exact absurd rfl hnt), if_pos hz, wp_pure]
    exact ⟨rfl, isNorm_empty hz hnt⟩
  · by_cases hf : nt = .Fro
    · subst hf
      unfold lange langeG
      simp only [wp_bind, wp_check]
      rw [if_pos (show normOK .Fro = true from rfl), if_neg hz]
      exact wp_langeFro hl htsml (hd rfl)
    · refine wp_conseq (wp_langeG exact_laws hnt hf (by omega) (by omega)) ?_
      rintro x ν ⟨rfl, r, rfl, hr⟩
      refine ⟨rfl, ?_⟩
      have := hr.exact
      unfold IsNorm
      convert this using 1
      cases nt with
      | Two => exact absurd rfl hnt
      | Fro => exact absurd rfl hf
      | Max =>
        simp only [langeS, eq_iff_iff, IsGreatest]
        have : {x : ℝ | ∃ i j, i < A.m ∧ j < A.n ∧ x = ‖entry ν A i j‖} =
            {x | ∃ j < A.n, ∃ i, 0 ≤ i ∧ i < A.m ∧ x = ‖entry ν A i j‖} := by
          ext x
          constructor
          · rintro ⟨i, j, hi, hj, rfl⟩; exact ⟨j, hj, i, Nat.zero_le _, hi, rfl⟩
          · rintro ⟨j, hj, i, _, hi, rfl⟩; exact ⟨i, j, hi, hj, rfl⟩
        rw [this]
      | One =>
        simp only [langeS, sumV_exact, zero_add, eq_iff_iff, Nat.zero_le, true_and, range_eq_Ico]
      | Inf =>
        simp only [langeS, sumV_exact, zero_add, eq_iff_iff, Nat.zero_le, true_and, range_eq_Ico]

/-- Greatest elements of two sets each dominated by the other. -/
theorem isGreatest_swap {S S' : Set ℝ} {r : ℝ} (h : IsGreatest S r) (h1 : ∀ x ∈ S, ∃ y ∈ S', x ≤ y)
    (h2 : ∀ y ∈ S', ∃ x ∈ S, y ≤ x) : IsGreatest S' r := by
  have hub : r ∈ upperBounds S' := fun y hy => by
    obtain ⟨x, hx, hxy⟩ := h2 y hy
    exact hxy.trans (h.2 hx)
  obtain ⟨y, hy, hry⟩ := h1 r h.1
  exact ⟨(le_antisymm hry (hub hy)) ▸ hy, hub⟩

/-- Infinity norm of a triangular matrix from the row sums of lantr. -/
theorem isNorm_tri_inf {uplo : Uplo} (hu : uplo = .Upper ∨ uplo = .Lower) {diag : Diag} {m n : Nat} (hm : 0 < m)
    (hn : 0 < n) {a : Nat → Nat → 𝕜} {r : ℝ}
    (hr : IsGreatest ({0} ∪ {x | lantrS (hhOps p : HhOps 𝕜 ℝ).nops .Inf uplo diag m n a x}) r) :
    IsNorm .Inf m n (triF uplo diag a) r := by
  have hd0 : diag = .Unit → ‖triF uplo diag a 0 0‖ = 1 := by rintro rfl; simp [triF]
  unfold IsNorm
  refine isGreatest_swap hr ?_ ?_
  · rintro x (hx | ⟨i, _, hi, rfl⟩)
    · exact ⟨0, .inl rfl, le_of_eq hx⟩
    · by_cases hex : i < n ∨ uplo = .Lower ∨ diag = .NonUnit
      · exact ⟨_, .inr ⟨i, hi, rfl⟩, le_of_eq (triRow hu (by omega) hex)⟩
      · push Not at hex
        obtain ⟨h1, h2, h3⟩ := hex
        obtain rfl : uplo = .Upper := hu.resolve_right h2
        obtain rfl : diag = .Unit := by cases diag <;> first | rfl | exact absurd rfl h3
        refine ⟨_, .inr ⟨0, by omega, rfl⟩, ?_⟩
        unfold lantrRowV
        rw [if_pos rfl, if_neg (by simp), sumV_exact, Ico_eq_empty (by omega), sum_empty]
        have := single_le_sum (f := fun j => ‖triF .Upper .Unit a 0 j‖) (fun _ _ => norm_nonneg _)
          (mem_range.2 (show 0 < n by omega))
        rw [hd0 rfl] at this
        simpa using this
  · rintro y (hy | ⟨i, hi, rfl⟩)
    · exact ⟨0, .inl rfl, le_of_eq hy⟩
    · by_cases hex : i < n ∨ uplo = .Lower ∨ diag = .NonUnit
      · exact ⟨_, .inr ⟨i, Nat.zero_le _, hi, rfl⟩, le_of_eq (triRow hu (by omega) hex).symm⟩
      · push Not at hex
        obtain ⟨h1, h2, h3⟩ := hex
        obtain rfl : uplo = .Upper := hu.resolve_right h2
        refine ⟨0, .inl rfl, le_of_eq (sum_eq_zero fun j hj => ?_)⟩
        rw [mem_range] at hj
        rw [triF_out (by omega) (by simp only [inTri]; omega), norm_zero]

/-- **C48** lantr: the norm of the upper or lower triangular (trapezoidal) matrix, with unit diagonal if
asked; the other triangle is not looked at (and C40 says so). -/
theorem C48_lantr (hl : HhLaws 𝕜 p) (htsml : 0 ≤ p.tsml) {nt : Norm} (hnt : nt ≠ .Two) {uplo : Uplo}
    (hu : uplo = .Upper ∨ uplo = .Lower) (diag : Diag) (A : MatV L)
    (μ : Store L 𝕜) (hd : nt = .Fro → FroOK p A.m A.n (triF uplo diag (entry μ A))) :
    ∃ r, lantr (hhOps p) nt uplo diag A μ = (.ok r, μ) ∧
      IsNorm nt A.m A.n (triF uplo diag (entry μ A)) r := by
  suffices h : wp (lantr (hhOps p) nt uplo diag A) μ (fun r ν => ν = μ ∧
      IsNorm nt A.m A.n (triF uplo diag (entry μ A)) r) by
    obtain ⟨r, ν, e, rfl, h⟩ := wp_iff.1 h
    exact ⟨r, e, h⟩
  have hc : (!(uplo ≠ .Lower ∧ uplo ≠ .Upper : Bool)) = true := by rcases hu with rfl | rfl <;> rfl
  by_cases hz : A.m = 0 ∨ A.n = 0
  · unfold lantr lantrG
    simp only [wp_bind, wp_check]
    rw [if_pos (by cases nt <;> first | rfl | exact absurd rfl hnt), if_pos hc, if_pos hz, wp_pure]
    exact ⟨rfl, isNorm_empty hz hnt⟩
  · by_cases hf : nt = .Fro
    · subst hf
      unfold lantr lantrG
      simp only [wp_bind, wp_check]
      rw [if_pos (show normOK .Fro = true from rfl), if_pos hc, if_neg hz]
      exact wp_lantrFro hl htsml hu (by omega) (by omega) (hd rfl)
    · refine wp_conseq (wp_lantrG exact_laws hnt hf hu (by omega) (by omega)) ?_
      rintro x ν ⟨rfl, r, rfl, hr⟩
      refine ⟨rfl, ?_⟩
      have hr := hr.exact
      have hd0 : diag = .Unit → ‖triF uplo diag (entry ν A) 0 0‖ = 1 := by rintro rfl; simp [triF]
      unfold IsNorm
      cases nt with
      | Two => exact absurd rfl hnt
      | Fro => exact absurd rfl hf
      | Max =>
        refine isGreatest_swap hr ?_ ?_
        · rintro x (hx | ⟨i, j, hi, hj, ht, hn, rfl⟩)
          · rw [Set.mem_singleton_iff] at hx
            cases diag
            · exact ⟨0, .inl rfl, by simp [hx]⟩
            · exact ⟨1, .inr ⟨0, 0, by omega, by omega, (hd0 rfl).symm⟩, by simp [hx]⟩
          · refine ⟨_, .inr ⟨i, j, hi, hj, rfl⟩, ?_⟩
            by_cases hij : i = j
            · subst hij
              cases diag
              · simp [triF]
              · exact absurd rfl (hn rfl)
            · rw [triF_in hij ht]
        · rintro y (rfl | ⟨i, j, hi, hj, rfl⟩)
          · refine ⟨_, .inl rfl, ?_⟩
            split
            · exact zero_le_one
            · exact le_refl _
          · by_cases hij : i = j
            · subst hij
              cases diag
              · exact ⟨_, .inr ⟨i, i, hi, hj, by rcases hu with rfl | rfl <;> simp [inTri], by simp, rfl⟩, by simp [triF]⟩
              · exact ⟨_, .inl rfl, by simp [triF]⟩
            · by_cases ht : inTri uplo i j
              · exact ⟨_, .inr ⟨i, j, hi, hj, ht, fun _ => hij, rfl⟩, by rw [triF_in hij ht]⟩
              · refine ⟨_, .inl rfl, ?_⟩
                rw [triF_out hij ht, norm_zero]
                split
                · exact zero_le_one
                · exact le_refl _
      | Inf =>
        rw [if_neg (by simp)] at hr
        exact isNorm_tri_inf hu (by omega) (by omega) hr
      | One =>
        rw [if_neg (by simp)] at hr
        refine isGreatest_swap hr ?_ ?_
        · rintro x (hx | ⟨i, _, hi, rfl⟩)
          · exact ⟨0, .inl rfl, le_of_eq hx⟩
          · by_cases hex : i < A.m ∨ uplo = .Upper ∨ diag = .NonUnit
            · exact ⟨_, .inr ⟨i, hi, rfl⟩, le_of_eq (triCol hu (by omega) hex)⟩
            · push Not at hex
              obtain ⟨h1, h2, h3⟩ := hex
              obtain rfl : uplo = .Lower := hu.resolve_left h2
              obtain rfl : diag = .Unit := by cases diag <;> first | rfl | exact absurd rfl h3
              refine ⟨_, .inr ⟨0, by omega, rfl⟩, ?_⟩
              unfold lantrColV
              rw [if_neg (by simp), if_neg (by simp), sumV_exact, Ico_eq_empty (by omega), sum_empty]
              have := single_le_sum (f := fun i => ‖triF .Lower .Unit (entry ν A) i 0‖) (fun _ _ => norm_nonneg _)
                (mem_range.2 (show 0 < A.m by omega))
              rw [hd0 rfl] at this
              simpa using this
        · rintro y (hy | ⟨i, hi, rfl⟩)
          · exact ⟨0, .inl rfl, le_of_eq hy⟩
          · by_cases hex : i < A.m ∨ uplo = .Upper ∨ diag = .NonUnit
            · exact ⟨_, .inr ⟨i, Nat.zero_le _, hi, rfl⟩, le_of_eq (triCol hu (by omega) hex).symm⟩
            · push Not at hex
              obtain ⟨h1, h2, h3⟩ := hex
              obtain rfl : uplo = .Lower := hu.resolve_left h2
              refine ⟨0, .inl rfl, le_of_eq (sum_eq_zero fun j hj => ?_)⟩
              rw [mem_range] at hj
              rw [triF_out (by omega) (by simp only [inTri]; omega), norm_zero]

/-- The max, one and infinity norms of a matrix with symmetric absolute values from the sums `c j` and the
set of absolute values `S`. -/
theorem isNorm_sym {n : Nat} {F : Nat → Nat → 𝕜} {nt : Norm} (h1 : nt ≠ .Two) (h2 : nt ≠ .Fro) {S : ℝ → Prop} {r : ℝ}
    (hr : IsGreatest ({0} ∪ {x | S x}) r) (hs : ∀ i j, ‖F i j‖ = ‖F j i‖)
    (hS : ∀ v, S v ↔ if nt = .Max then ∃ i j, i < n ∧ j < n ∧ v = ‖F i j‖
      else ∃ j, j < n ∧ v = ∑ i ∈ range n, ‖F i j‖) : IsNorm nt n n F r := by
  have e : S = fun v => if nt = .Max then ∃ i j, i < n ∧ j < n ∧ v = ‖F i j‖
      else ∃ j, j < n ∧ v = ∑ i ∈ range n, ‖F i j‖ := funext fun v => propext (hS v)
  subst e
  unfold IsNorm
  cases nt with
  | Two => exact absurd rfl h1
  | Fro => exact absurd rfl h2
  | Max => simpa using hr
  | One => simpa using hr
  | Inf =>
    simp only [reduceCtorEq, if_false] at hr
    have : ∀ i, ∑ j ∈ range n, ‖F i j‖ = ∑ j ∈ range n, ‖F j i‖ := fun i => sum_congr rfl fun j _ => hs _ _
    simp only [this]
    exact hr

theorem symF_norm_symm {uplo : Uplo} (hu : uplo = .Upper ∨ uplo = .Lower) (a : Nat → Nat → 𝕜) (i j : Nat) :
    ‖symF uplo a i j‖ = ‖symF uplo a j i‖ := by
  by_cases h : i = j
  · subst h; rfl
  · have := inTri_swap hu h
    by_cases h' : inTri uplo i j
    · rw [symF_in h', symF_out (Ne.symm h) (this.1 h')]
    · rw [symF_out h h', symF_in (by by_contra hc; exact h' (this.2 hc))]

/-- **C48** lansy: the norm of the symmetric matrix given by one triangle. -/
theorem C48_lansy (hl : HhLaws 𝕜 p) (htsml : 0 ≤ p.tsml) {nt : Norm} (hnt : nt ≠ .Two) {uplo : Uplo}
    (hu : uplo = .Upper ∨ uplo = .Lower) (A : MatV L) (hA : A.m = A.n)
    (μ : Store L 𝕜) (hd : nt = .Fro → FroOK p A.m A.m (symF uplo (entry μ A))) :
    ∃ r, lansy (hhOps p) nt uplo A μ = (.ok r, μ) ∧ IsNorm nt A.m A.m (symF uplo (entry μ A)) r := by
  suffices h : wp (lansy (hhOps p) nt uplo A) μ (fun r ν => ν = μ ∧
      IsNorm nt A.m A.m (symF uplo (entry μ A)) r) by
    obtain ⟨r, ν, e, rfl, h⟩ := wp_iff.1 h
    exact ⟨r, e, h⟩
  have hc : (!(uplo ≠ .Lower ∧ uplo ≠ .Upper : Bool)) = true := by rcases hu with rfl | rfl <;> rfl
  by_cases hz : A.m = 0
  · unfold lansy lansyG
    simp only [wp_bind, wp_check]
    rw [if_pos (by cases nt <;> first | rfl | exact absurd rfl hnt), if_pos hc, if_pos hz, wp_pure]
    exact ⟨rfl, isNorm_empty (.inl hz) hnt⟩
  · by_cases hf : nt = .Fro
    · subst hf
      unfold lansy lansyG
      simp only [wp_bind, wp_check]
      rw [if_pos (show normOK .Fro = true from rfl), if_pos hc, if_neg hz]
      exact wp_lansyFro hl htsml hu hA (by omega) (fun i j _ ht => by rw [symF_in ht]) (symF_norm_symm hu _)
        (fun j => by simp [symF]) (hd rfl)
    · refine wp_conseq (wp_lansyG exact_laws hnt hf hu hA (by omega)) ?_
      rintro x ν ⟨rfl, r, rfl, hr⟩
      refine ⟨rfl, isNorm_sym hnt hf hr.exact (symF_norm_symm hu _) fun v => ?_⟩
      have hsums : (∃ j, 0 ≤ j ∧ j < A.m ∧ v = lansySumV (hhOps p : HhOps 𝕜 ℝ).nops uplo A.m (entry ν A) j) ↔
          ∃ j, j < A.m ∧ v = ∑ i ∈ range A.m, ‖symF uplo (entry ν A) i j‖ := by
        constructor
        · rintro ⟨j, _, hj, rfl⟩; exact ⟨j, hj, (symSum hu hj).1⟩
        · rintro ⟨j, hj, rfl⟩; exact ⟨j, Nat.zero_le _, hj, (symSum hu hj).1.symm⟩
      cases nt with
      | Two => exact absurd rfl hnt
      | Fro => exact absurd rfl hf
      | One => rw [if_neg (by simp)]; exact hsums
      | Inf => rw [if_neg (by simp)]; exact hsums
      | Max =>
        rw [if_pos rfl]
        constructor
        · rintro ⟨i, j, hi, hj, ht, rfl⟩
          exact ⟨i, j, hi, hj, by rw [symF_in ht]⟩
        · rintro ⟨i, j, hi, hj, rfl⟩
          by_cases ht : inTri uplo i j
          · exact ⟨i, j, hi, hj, ht, by rw [symF_in ht]⟩
          · have hij : i ≠ j := by
              rintro rfl
              exact ht (by rcases hu with rfl | rfl <;> simp [inTri])
            exact ⟨j, i, hj, hi, by by_contra hc; exact ht ((inTri_swap hu hij).2 hc), by rw [symF_out hij ht]⟩

/-- **C48** lanhe: the norm of the Hermitian matrix given by one triangle and the real parts of the
diagonal. -/
theorem C48_lanhe (hl : HhLaws 𝕜 p) (htsml : 0 ≤ p.tsml) {nt : Norm} (hnt : nt ≠ .Two) {uplo : Uplo}
    (hu : uplo = .Upper ∨ uplo = .Lower) (A : MatV L) (hA : A.m = A.n)
    (μ : Store L 𝕜) (hd : nt = .Fro → FroOK p A.m A.m (hermF uplo (entry μ A))) :
    ∃ r, lanhe (hhOps p) nt uplo A μ = (.ok r, μ) ∧ IsNorm nt A.m A.m (hermF uplo (entry μ A)) r := by
  suffices h : wp (lanhe (hhOps p) nt uplo A) μ (fun r ν => ν = μ ∧
      IsNorm nt A.m A.m (hermF uplo (entry μ A)) r) by
    obtain ⟨r, ν, e, rfl, h⟩ := wp_iff.1 h
    exact ⟨r, e, h⟩
  have hc : (!(uplo ≠ .Lower ∧ uplo ≠ .Upper : Bool)) = true := by rcases hu with rfl | rfl <;> rfl
  by_cases hz : A.m = 0
  · unfold lanhe lanheG
    simp only [wp_bind, wp_check]
    rw [if_pos (by cases nt <;> first | rfl | exact absurd rfl hnt), if_pos hc, if_pos hz, wp_pure]
    exact ⟨rfl, isNorm_empty (.inl hz) hnt⟩
  · by_cases hf : nt = .Fro
    · subst hf
      unfold lanhe lanheG
      simp only [wp_bind, wp_check]
      rw [if_pos (show normOK .Fro = true from rfl), if_pos hc, if_neg hz]
      exact wp_lansyFro hl htsml hu hA (by omega) (fun i j hij ht => by rw [hermF_in hij ht]) (hermF_norm_symm hu _)
        (fun j => by simp [hermF]) (hd rfl)
    · refine wp_conseq (wp_lanheG exact_laws hnt hf hu hA (by omega)) ?_
      rintro x ν ⟨rfl, r, rfl, hr⟩
      refine ⟨rfl, isNorm_sym hnt hf hr.exact (hermF_norm_symm hu _) fun v => ?_⟩
      have hsums : (∃ j, 0 ≤ j ∧ j < A.m ∧ v = lanheSumV (hhOps p : HhOps 𝕜 ℝ).nops uplo A.m (entry ν A) j) ↔
          ∃ j, j < A.m ∧ v = ∑ i ∈ range A.m, ‖hermF uplo (entry ν A) i j‖ := by
        constructor
        · rintro ⟨j, _, hj, rfl⟩; exact ⟨j, hj, (hermSum hu hj).1⟩
        · rintro ⟨j, hj, rfl⟩; exact ⟨j, Nat.zero_le _, hj, (hermSum hu hj).1.symm⟩
      cases nt with
      | Two => exact absurd rfl hnt
      | Fro => exact absurd rfl hf
      | One => rw [if_neg (by simp)]; exact hsums
      | Inf => rw [if_neg (by simp)]; exact hsums
      | Max =>
        rw [if_pos rfl]
        constructor
        · rintro ⟨j, hj, ⟨i, hi, hij, ht, rfl⟩ | rfl⟩
          · exact ⟨i, j, hi, hj, by rw [hermF_in hij ht]⟩
          · exact ⟨j, j, hj, hj, by simp [hermF]⟩
        · rintro ⟨i, j, hi, hj, rfl⟩
          by_cases hij : i = j
          · subst hij
            exact ⟨i, hi, .inr (by simp [hermF])⟩
          · by_cases ht : inTri uplo i j
            · exact ⟨j, hj, .inl ⟨i, hi, hij, ht, by rw [hermF_in hij ht]⟩⟩
            · exact ⟨i, hi, .inl ⟨j, hj, Ne.symm hij, by by_contra hc; exact ht ((inTri_swap hu hij).2 hc),
                by rw [hermF_out hij ht, norm_star]⟩⟩

/-! ### Any real type with NaN -/

section nan
variable {o : NOps T R} {nn : R → Prop}

/-- **C48** NaN: the max, one and infinity norms returned by lange are NaN exactly when the absolute value
of some entry is. -/
theorem C48_lange_nan (hl : NanLaws o nn) {nt : Norm} (h1 : nt ≠ .Two) (h2 : nt ≠ .Fro) (fro : M L T R) (A : MatV L)
    (μ : Store L T) :
    ∃ x, langeG o fro nt A μ = (.ok x, μ) ∧
      (o.isnan x = true ↔ ∃ i j, i < A.m ∧ j < A.n ∧ o.isnan (o.abs (entry μ A i j)) = true) := by
  by_cases hz : A.m = 0 ∨ A.n = 0
  · suffices h : wp (langeG o fro nt A) μ (fun x ν => ν = μ ∧ x = o.zero) by
      obtain ⟨x, ν, e, rfl, rfl⟩ := wp_iff.1 h
      refine ⟨_, e, ?_⟩
      rw [hl.zero]
      simp
      intro i j; omega
    unfold langeG
    simp only [wp_bind, wp_check]
    rw [if_pos (by cases nt <;> first | rfl | exact absurd rfl h1), if_pos hz, wp_pure]
    exact ⟨rfl, rfl⟩
  · obtain ⟨x, ν, e, rfl, r, rfl, hr⟩ := wp_iff.1 (wp_langeG hl h1 h2 (fro := fro) (A := A) (by omega) (by omega) (μ := μ))
    refine ⟨_, e, hr.nan.trans ?_⟩
    cases nt with
    | Two => exact absurd rfl h1
    | Fro => exact absurd rfl h2
    | Max =>
      constructor
      · rintro ⟨v, ⟨j, hj, i, _, hi, rfl⟩, hv⟩; exact ⟨i, j, hi, hj, hv⟩
      · rintro ⟨i, j, hi, hj, hv⟩; exact ⟨_, ⟨j, hj, i, Nat.zero_le _, hi, rfl⟩, hv⟩
    | Inf =>
      constructor
      · rintro ⟨v, ⟨i, _, hi, rfl⟩, hv⟩
        rw [(sumV_nan hl hl.nn_zero _).2, hl.zero] at hv
        obtain ⟨j, _, hj, hv⟩ := hv.resolve_left (by simp)
        exact ⟨i, j, hi, hj, hv⟩
      · rintro ⟨i, j, hi, hj, hv⟩
        exact ⟨_, ⟨i, Nat.zero_le _, hi, rfl⟩, ((sumV_nan hl hl.nn_zero _).2).2 (.inr ⟨j, Nat.zero_le _, hj, hv⟩)⟩
    | One =>
      constructor
      · rintro ⟨v, ⟨j, _, hj, rfl⟩, hv⟩
        rw [(sumV_nan hl hl.nn_zero _).2, hl.zero] at hv
        obtain ⟨i, _, hi, hv⟩ := hv.resolve_left (by simp)
        exact ⟨i, j, hi, hj, hv⟩
      · rintro ⟨i, j, hi, hj, hv⟩
        exact ⟨_, ⟨j, Nat.zero_le _, hj, rfl⟩, ((sumV_nan hl hl.nn_zero _).2).2 (.inr ⟨i, Nat.zero_le _, hi, hv⟩)⟩

theorem lantrRowV_nan (hl : NanLaws o nn) {uplo : Uplo} (hu : uplo = .Upper ∨ uplo = .Lower) (diag : Diag) {n i : Nat}
    (hn : 0 < n) (a : Nat → Nat → T) :
    o.isnan (lantrRowV o uplo diag n a i) = true ↔
      ∃ j, j < n ∧ inTri uplo i j ∧ (diag = .Unit → i ≠ j) ∧ o.isnan (o.abs (a i j)) = true := by
  have key : ∀ lo hi s, nn s → o.isnan s = false → (∀ j, lo ≤ j ∧ j < hi ↔ j < n ∧ inTri uplo i j ∧ (diag = .Unit → i ≠ j)) →
      (o.isnan (sumV o lo hi s fun j => a i j) = true ↔
      ∃ j, j < n ∧ inTri uplo i j ∧ (diag = .Unit → i ≠ j) ∧ o.isnan (o.abs (a i j)) = true) := by
    intro lo hi s h1 h2 h3
    rw [(sumV_nan hl h1 _).2, h2]
    simp only [Bool.false_eq_true, false_or]
    refine exists_congr fun j => ?_
    rw [← and_assoc, h3 j]
    tauto
  unfold lantrRowV
  rcases hu with rfl | rfl
  · rw [if_pos rfl]
    cases diag
    · rw [if_pos rfl]
      exact key _ _ _ hl.nn_zero hl.zero fun j => by simp only [inTri]; simp; omega
    · rw [if_neg (by simp)]
      exact key _ _ _ hl.nn_one hl.one fun j => by simp only [inTri]; simp; omega
  · rw [if_neg (by simp)]
    split
    · rename_i h
      refine key _ _ _ hl.nn_zero hl.zero fun j => ?_
      simp only [inTri]
      rcases h with rfl | h
      · simp; omega
      · constructor
        · rintro ⟨_, h'⟩; exact ⟨by omega, by omega, by omega⟩
        · rintro ⟨h', _⟩; exact ⟨by omega, by omega⟩
    · rename_i h
      push Not at h
      obtain rfl : diag = .Unit := by cases diag <;> first | rfl | exact absurd rfl h.1
      exact key _ _ _ hl.nn_one hl.one fun j => by simp only [inTri]; simp; omega

theorem lantrColV_nan (hl : NanLaws o nn) {uplo : Uplo} (hu : uplo = .Upper ∨ uplo = .Lower) (diag : Diag) {m j : Nat}
    (hm : 0 < m) (a : Nat → Nat → T) :
    o.isnan (lantrColV o uplo diag m a j) = true ↔
      ∃ i, i < m ∧ inTri uplo i j ∧ (diag = .Unit → i ≠ j) ∧ o.isnan (o.abs (a i j)) = true := by
  rw [lantrColV_tr uplo hu, lantrRowV_nan hl (by rcases hu with rfl | rfl <;> simp) diag hm]
  refine exists_congr fun i => and_congr_right fun _ => ?_
  have : inTri (if uplo = .Upper then .Lower else .Upper) j i ↔ inTri uplo i j := by
    rcases hu with rfl | rfl <;> simp [inTri]
  rw [this]
  refine and_congr_right fun _ => and_congr_left fun _ => ?_
  exact ⟨fun h h' => (h h').symm, fun h h' => (h h').symm⟩

/-- **C48** NaN, lantr: exactly when an entry of the triangle (without the diagonal if `Unit`) is NaN. -/
theorem C48_lantr_nan (hl : NanLaws o nn) {nt : Norm} (h1 : nt ≠ .Two) (h2 : nt ≠ .Fro) (fro : M L T R)
    {uplo : Uplo} (hu : uplo = .Upper ∨ uplo = .Lower) (diag : Diag) (A : MatV L) (μ : Store L T) :
    ∃ x, lantrG o fro nt uplo diag A μ = (.ok x, μ) ∧
      (o.isnan x = true ↔ ∃ i j, i < A.m ∧ j < A.n ∧ inTri uplo i j ∧ (diag = .Unit → i ≠ j) ∧
        o.isnan (o.abs (entry μ A i j)) = true) := by
  have hc : (!(uplo ≠ .Lower ∧ uplo ≠ .Upper : Bool)) = true := by rcases hu with rfl | rfl <;> rfl
  by_cases hz : A.m = 0 ∨ A.n = 0
  · suffices h : wp (lantrG o fro nt uplo diag A) μ (fun x ν => ν = μ ∧ x = o.zero) by
      obtain ⟨x, ν, e, rfl, rfl⟩ := wp_iff.1 h
      refine ⟨_, e, ?_⟩
      rw [hl.zero]
      simp
      intro i j; omega
    unfold lantrG
    simp only [wp_bind, wp_check]
    rw [if_pos (by cases nt <;> first | rfl | exact absurd rfl h1), if_pos hc, if_pos hz, wp_pure]
    exact ⟨rfl, rfl⟩
  · obtain ⟨x, ν, e, rfl, r, rfl, hr⟩ := wp_iff.1 (wp_lantrG hl h1 h2 (fro := fro) (A := A) hu (diag := diag)
      (by omega) (by omega) (μ := μ))
    refine ⟨_, e, hr.nan.trans ?_⟩
    cases nt with
    | Two => exact absurd rfl h1
    | Fro => exact absurd rfl h2
    | Max =>
      constructor
      · rintro ⟨v, ⟨i, j, hi, hj, ht, hn, rfl⟩, hv⟩; exact ⟨i, j, hi, hj, ht, hn, hv⟩
      · rintro ⟨i, j, hi, hj, ht, hn, hv⟩; exact ⟨_, ⟨i, j, hi, hj, ht, hn, rfl⟩, hv⟩
    | Inf =>
      constructor
      · rintro ⟨v, ⟨i, _, hi, rfl⟩, hv⟩
        obtain ⟨j, hj, h⟩ := (lantrRowV_nan hl hu diag (by omega) _).1 hv
        exact ⟨i, j, hi, hj, h⟩
      · rintro ⟨i, j, hi, hj, h⟩
        exact ⟨_, ⟨i, Nat.zero_le _, hi, rfl⟩, (lantrRowV_nan hl hu diag (by omega) _).2 ⟨j, hj, h⟩⟩
    | One =>
      constructor
      · rintro ⟨v, ⟨j, _, hj, rfl⟩, hv⟩
        obtain ⟨i, hi, h⟩ := (lantrColV_nan hl hu diag (by omega) _).1 hv
        exact ⟨i, j, hi, hj, h⟩
      · rintro ⟨i, j, hi, hj, h⟩
        exact ⟨_, ⟨j, Nat.zero_le _, hj, rfl⟩, (lantrColV_nan hl hu diag (by omega) _).2 ⟨i, hi, h⟩⟩

theorem lansySumV_nan (hl : NanLaws o nn) {uplo : Uplo} (hu : uplo = .Upper ∨ uplo = .Lower) {n j : Nat} (hj : j < n)
    (a : Nat → Nat → T) :
    o.isnan (lansySumV o uplo n a j) = true ↔ ∃ i, i < n ∧
      (inTri uplo i j ∧ o.isnan (o.abs (a i j)) = true ∨ inTri uplo j i ∧ o.isnan (o.abs (a j i)) = true) := by
  unfold lansySumV
  rcases hu with rfl | rfl
  all_goals
    first | rw [if_pos rfl] | rw [if_neg (by simp)]
    rw [(sumV_nan hl (sumV_nan hl hl.nn_zero _).1 _).2, (sumV_nan hl hl.nn_zero _).2, hl.zero]
    simp only [Bool.false_eq_true, false_or, inTri]
    constructor
    · rintro (⟨i, _, h2, h3⟩ | ⟨i, h1, h2, h3⟩)
      · first | exact ⟨i, by omega, .inl ⟨by omega, h3⟩⟩ | exact ⟨i, by omega, .inr ⟨by omega, h3⟩⟩
      · first | exact ⟨i, by omega, .inl ⟨by omega, h3⟩⟩ | exact ⟨i, by omega, .inr ⟨by omega, h3⟩⟩
    · rintro ⟨i, hi, ⟨h1, h2⟩ | ⟨h1, h2⟩⟩
      · rcases eq_or_ne i j with rfl | hij
        · exact .inl ⟨i, Nat.zero_le _, by omega, h2⟩
        · first | exact .inl ⟨i, Nat.zero_le _, by omega, h2⟩ | exact .inr ⟨i, by omega, hi, h2⟩
      · rcases eq_or_ne i j with rfl | hij
        · exact .inl ⟨i, Nat.zero_le _, by omega, h2⟩
        · first | exact .inl ⟨i, Nat.zero_le _, by omega, h2⟩ | exact .inr ⟨i, by omega, hi, h2⟩

theorem lanheSumV_nan (hl : NanLaws o nn) {uplo : Uplo} (hu : uplo = .Upper ∨ uplo = .Lower) {n j : Nat} (hj : j < n)
    (a : Nat → Nat → T) :
    o.isnan (lanheSumV o uplo n a j) = true ↔ o.isnan (o.absRe (a j j)) = true ∨ ∃ i, i < n ∧ i ≠ j ∧
      (inTri uplo i j ∧ o.isnan (o.abs (a i j)) = true ∨ inTri uplo j i ∧ o.isnan (o.abs (a j i)) = true) := by
  unfold lanheSumV
  rcases hu with rfl | rfl
  all_goals
    first | rw [if_pos rfl] | rw [if_neg (by simp)]
    rw [(sumV_nan hl (hl.nn_add _ _ (sumV_nan hl hl.nn_zero _).1 (hl.nn_absRe _)) _).2,
      hl.add _ _ (sumV_nan hl hl.nn_zero _).1 (hl.nn_absRe _), (sumV_nan hl hl.nn_zero _).2, hl.zero]
    simp only [Bool.false_eq_true, false_or, inTri]
    constructor
    · rintro ((⟨i, _, h2, h3⟩ | h) | ⟨i, h1, h2, h3⟩)
      · first | exact .inr ⟨i, by omega, by omega, .inl ⟨by omega, h3⟩⟩ | exact .inr ⟨i, by omega, by omega, .inr ⟨by omega, h3⟩⟩
      · exact .inl h
      · first | exact .inr ⟨i, by omega, by omega, .inl ⟨by omega, h3⟩⟩ | exact .inr ⟨i, by omega, by omega, .inr ⟨by omega, h3⟩⟩
    · rintro (h | ⟨i, hi, hij, ⟨h1, h2⟩ | ⟨h1, h2⟩⟩)
      · exact .inl (.inr h)
      · first | exact .inl (.inl ⟨i, Nat.zero_le _, by omega, h2⟩) | exact .inr ⟨i, by omega, hi, h2⟩
      · first | exact .inl (.inl ⟨i, Nat.zero_le _, by omega, h2⟩) | exact .inr ⟨i, by omega, hi, h2⟩

/-- **C48** NaN, lansy: exactly when an entry of the triangle is NaN. -/
theorem C48_lansy_nan (hl : NanLaws o nn) {nt : Norm} (h1 : nt ≠ .Two) (h2 : nt ≠ .Fro) (fro : M L T R)
    {uplo : Uplo} (hu : uplo = .Upper ∨ uplo = .Lower) (A : MatV L) (hA : A.m = A.n) (μ : Store L T) :
    ∃ x, lansyG o fro nt uplo A μ = (.ok x, μ) ∧
      (o.isnan x = true ↔ ∃ i j, i < A.m ∧ j < A.n ∧ inTri uplo i j ∧
        o.isnan (o.abs (entry μ A i j)) = true) := by
  have hc : (!(uplo ≠ .Lower ∧ uplo ≠ .Upper : Bool)) = true := by rcases hu with rfl | rfl <;> rfl
  by_cases hz : A.m = 0
  · suffices h : wp (lansyG o fro nt uplo A) μ (fun x ν => ν = μ ∧ x = o.zero) by
      obtain ⟨x, ν, e, rfl, rfl⟩ := wp_iff.1 h
      refine ⟨_, e, ?_⟩
      rw [hl.zero]
      simp
      intro i j; omega
    unfold lansyG
    simp only [wp_bind, wp_check]
    rw [if_pos (by cases nt <;> first | rfl | exact absurd rfl h1), if_pos hc, if_pos hz, wp_pure]
    exact ⟨rfl, rfl⟩
  · obtain ⟨x, ν, e, rfl, r, rfl, hr⟩ := wp_iff.1 (wp_lansyG hl h1 h2 (fro := fro) (A := A) hu hA (by omega) (μ := μ))
    refine ⟨_, e, hr.nan.trans ?_⟩
    have hsums : (∃ v, (∃ j, 0 ≤ j ∧ j < A.m ∧ v = lansySumV o uplo A.m (entry ν A) j) ∧ o.isnan v = true) ↔
        ∃ i j, i < A.m ∧ j < A.n ∧ inTri uplo i j ∧ o.isnan (o.abs (entry ν A i j)) = true := by
      constructor
      · rintro ⟨v, ⟨j, _, hj, rfl⟩, hv⟩
        obtain ⟨i, hi, h | h⟩ := (lansySumV_nan hl hu hj _).1 hv
        · exact ⟨i, j, hi, by omega, h⟩
        · exact ⟨j, i, hj, by omega, h⟩
      · rintro ⟨i, j, hi, hj, h⟩
        exact ⟨_, ⟨j, Nat.zero_le _, by omega, rfl⟩, (lansySumV_nan hl hu (by omega) _).2 ⟨i, hi, .inl h⟩⟩
    cases nt with
    | Two => exact absurd rfl h1
    | Fro => exact absurd rfl h2
    | Inf => exact hsums
    | One => exact hsums
    | Max =>
      constructor
      · rintro ⟨v, ⟨i, j, hi, hj, ht, rfl⟩, hv⟩; exact ⟨i, j, hi, by omega, ht, hv⟩
      · rintro ⟨i, j, hi, hj, ht, hv⟩; exact ⟨_, ⟨i, j, hi, by omega, ht, rfl⟩, hv⟩

/-- **C48** NaN, lanhe: exactly when an entry strictly inside the triangle or the real part of a diagonal
entry is NaN. -/
theorem C48_lanhe_nan (hl : NanLaws o nn) {nt : Norm} (h1 : nt ≠ .Two) (h2 : nt ≠ .Fro) (fro : M L T R)
    {uplo : Uplo} (hu : uplo = .Upper ∨ uplo = .Lower) (A : MatV L) (hA : A.m = A.n) (μ : Store L T) :
    ∃ x, lanheG o fro nt uplo A μ = (.ok x, μ) ∧
      (o.isnan x = true ↔ (∃ j, j < A.m ∧ o.isnan (o.absRe (entry μ A j j)) = true) ∨
        ∃ i j, i < A.m ∧ j < A.n ∧ i ≠ j ∧ inTri uplo i j ∧ o.isnan (o.abs (entry μ A i j)) = true) := by
  have hc : (!(uplo ≠ .Lower ∧ uplo ≠ .Upper : Bool)) = true := by rcases hu with rfl | rfl <;> rfl
  by_cases hz : A.m = 0
  · suffices h : wp (lanheG o fro nt uplo A) μ (fun x ν => ν = μ ∧ x = o.zero) by
      obtain ⟨x, ν, e, rfl, rfl⟩ := wp_iff.1 h
      refine ⟨_, e, ?_⟩
      rw [hl.zero]
      simp
      refine ⟨fun j => by omega, fun i => by omega⟩
    unfold lanheG
    simp only [wp_bind, wp_check]
    rw [if_pos (by cases nt <;> first | rfl | exact absurd rfl h1), if_pos hc, if_pos hz, wp_pure]
    exact ⟨rfl, rfl⟩
  · obtain ⟨x, ν, e, rfl, r, rfl, hr⟩ := wp_iff.1 (wp_lanheG hl h1 h2 (fro := fro) (A := A) hu hA (by omega) (μ := μ))
    refine ⟨_, e, hr.nan.trans ?_⟩
    have hsums : (∃ v, (∃ j, 0 ≤ j ∧ j < A.m ∧ v = lanheSumV o uplo A.m (entry ν A) j) ∧ o.isnan v = true) ↔
        (∃ j, j < A.m ∧ o.isnan (o.absRe (entry ν A j j)) = true) ∨
        ∃ i j, i < A.m ∧ j < A.n ∧ i ≠ j ∧ inTri uplo i j ∧ o.isnan (o.abs (entry ν A i j)) = true := by
      constructor
      · rintro ⟨v, ⟨j, _, hj, rfl⟩, hv⟩
        rcases (lanheSumV_nan hl hu hj _).1 hv with h | ⟨i, hi, hij, h | h⟩
        · exact .inl ⟨j, hj, h⟩
        · exact .inr ⟨i, j, hi, by omega, hij, h⟩
        · exact .inr ⟨j, i, hj, by omega, Ne.symm hij, h⟩
      · rintro (⟨j, hj, h⟩ | ⟨i, j, hi, hj, hij, h⟩)
        · exact ⟨_, ⟨j, Nat.zero_le _, hj, rfl⟩, (lanheSumV_nan hl hu hj _).2 (.inl h)⟩
        · exact ⟨_, ⟨j, Nat.zero_le _, by omega, rfl⟩, (lanheSumV_nan hl hu (by omega) _).2 (.inr ⟨i, hi, hij, .inl h⟩)⟩
    cases nt with
    | Two => exact absurd rfl h1
    | Fro => exact absurd rfl h2
    | Inf => exact hsums
    | One => exact hsums
    | Max =>
      constructor
      · rintro ⟨v, ⟨j, hj, ⟨i, hi, hij, ht, rfl⟩ | rfl⟩, hv⟩
        · exact .inr ⟨i, j, hi, by omega, hij, ht, hv⟩
        · exact .inl ⟨j, hj, hv⟩
      · rintro (⟨j, hj, h⟩ | ⟨i, j, hi, hj, hij, ht, h⟩)
        · exact ⟨_, ⟨j, hj, .inr rfl⟩, h⟩
        · exact ⟨_, ⟨j, by omega, .inl ⟨i, hi, hij, ht, rfl⟩⟩, h⟩

/-- **C48** the two norm is rejected by the argument check, before anything is read. -/
theorem C48_two (fro : M L T R) (uplo : Uplo) (diag : Diag) (A : MatV L) (μ : Store L T) :
    langeG o fro .Two A μ = (.error .check, μ) ∧ lantrG o fro .Two uplo diag A μ = (.error .check, μ) ∧
    lansyG o fro .Two uplo A μ = (.error .check, μ) ∧ lanheG o fro .Two uplo A μ = (.error .check, μ) :=
  ⟨rfl, rfl, rfl, rfl⟩

end nan

/-! ### Workspace variants -/

section infnorm

/-- **C49** infnorm_colmajor_work (real types): the infinity norm, writing only the workspace. -/
theorem C49_infnorm_colmajor (A : MatV L) (work : VecV L) (hw : work.Inj) (hd : A.DisjV work)
    (hk : A.m ≤ work.n) (μ : Store L ℝ) :
    ∃ r ν, infnormColmajor (hhOps p : HhOps ℝ ℝ).nops A work μ = (.ok r, ν) ∧
      IsNorm .Inf A.m A.n (entry μ A) r ∧ ∀ l, ¬ work.Owns l → ν l = μ l := by
  by_cases hz : A.m = 0 ∨ A.n = 0
  · refine ⟨0, μ, ?_, isNorm_empty hz (by simp), fun _ _ => rfl⟩
    unfold infnormColmajor
    simp only []
    rw [if_pos hz]; rfl
  · obtain ⟨x, ν, e, hfr, r, rfl, hr⟩ := wp_iff.1 (wp_infnormColmajor (o := (hhOps p : HhOps ℝ ℝ).nops) exact_laws
      hw hd hk (by omega) (by omega) (μ := μ))
    refine ⟨_, ν, e, ?_, hfr⟩
    have := hr.exact
    unfold IsNorm
    convert this using 4
    rename_i x
    unfold colmajorS
    simp only [sumV_exact, Nat.zero_le, true_and]
    refine exists_congr fun i => and_congr_right fun _ => ?_
    rw [range_eq_Ico, sum_eq_sum_Ico_succ_bot (by omega)]

/-- **C49** NaN, infnorm_colmajor_work. -/
theorem C49_infnorm_colmajor_nan {o : NOps T T} {nn : T → Prop} (hl : NanLaws o nn) (A : MatV L) (work : VecV L)
    (hw : work.Inj) (hd : A.DisjV work) (hk : A.m ≤ work.n) (μ : Store L T) :
    ∃ x ν, infnormColmajor o A work μ = (.ok x, ν) ∧
      (o.isnan x = true ↔ ∃ i j, i < A.m ∧ j < A.n ∧ o.isnan (o.abs (entry μ A i j)) = true) ∧
      ∀ l, ¬ work.Owns l → ν l = μ l := by
  by_cases hz : A.m = 0 ∨ A.n = 0
  · refine ⟨o.zero, μ, ?_, ?_, fun _ _ => rfl⟩
    · unfold infnormColmajor
      show (if A.m = 0 ∨ A.n = 0 then pure o.zero else _ : M L T T) μ = _
      rw [if_pos hz]; rfl
    · rw [hl.zero]; simp; intro i j; omega
  · obtain ⟨x, ν, e, hfr, r, rfl, hr⟩ := wp_iff.1 (wp_infnormColmajor hl hw hd hk (by omega) (by omega) (μ := μ))
    refine ⟨_, ν, e, hr.nan.trans ?_, hfr⟩
    constructor
    · rintro ⟨v, ⟨i, _, hi, rfl⟩, hv⟩
      rcases (sumV_nan hl (hl.nn_abs _) _).2.1 hv with h | ⟨j, _, hj, h⟩
      · exact ⟨i, 0, hi, by omega, h⟩
      · exact ⟨i, j, hi, hj, h⟩
    · rintro ⟨i, j, hi, hj, hv⟩
      refine ⟨_, ⟨i, Nat.zero_le _, hi, rfl⟩, (sumV_nan hl (hl.nn_abs _) _).2.2 ?_⟩
      rcases Nat.eq_zero_or_pos j with rfl | hj0
      · exact .inl hv
      · exact .inr ⟨j, hj0, hj, hv⟩

/-- **C49** infnorm_symmetric_colmajor_work and infnorm_hermitian_colmajor_work (real types): the infinity
norm (= one norm) of the symmetric matrix given by one triangle, writing only the workspace. -/
theorem C49_infnorm_sym {uplo : Uplo} (hu : uplo = .Upper ∨ uplo = .Lower) (A : MatV L) (hA : A.m = A.n)
    (work : VecV L) (hw : work.Inj) (hd : A.DisjV work)
    (hk : A.m ≤ work.n) (μ : Store L ℝ) (herm : Bool) :
    ∃ r ν, infnormSym (hhOps p : HhOps ℝ ℝ).nops (fun x => if herm then |re x| else |x|) uplo A work μ = (.ok r, ν) ∧
      IsNorm .Inf A.m A.m (symF uplo (entry μ A)) r ∧ ∀ l, ¬ work.Owns l → ν l = μ l := by
  have ef : (fun x : ℝ => if herm then |re x| else |x|) = (hhOps p : HhOps ℝ ℝ).nops.absRe := by
    funext x
    cases herm <;> rfl
  rw [ef]
  have hc : (!(uplo ≠ .Lower ∧ uplo ≠ .Upper : Bool)) = true := by rcases hu with rfl | rfl <;> rfl
  by_cases hz : A.m = 0
  · obtain ⟨x, ν, e, rfl, rfl⟩ := wp_iff.1 (show wp (infnormSym (hhOps p : HhOps ℝ ℝ).nops
        (hhOps p : HhOps ℝ ℝ).nops.absRe uplo A work) μ (fun x ν => ν = μ ∧ x = 0) by
      unfold infnormSym
      simp only [wp_bind, wp_check]
      rw [if_pos hc, if_pos hz, wp_pure]
      exact ⟨rfl, rfl⟩)
    exact ⟨0, ν, e, isNorm_empty (.inl hz) (by simp), fun _ _ => rfl⟩
  · obtain ⟨x, ν, e, hfr, r, rfl, hr⟩ := wp_iff.1 (wp_infnormSym (o := (hhOps p : HhOps ℝ ℝ).nops) exact_laws hu
      hw hd hk hA (by omega) (μ := μ))
    refine ⟨_, ν, e, ?_, hfr⟩
    refine isNorm_sym (by simp) (by simp) hr.exact (symF_norm_symm hu _) fun v => ?_
    rw [if_neg (by simp)]
    have hh : ∀ i j, ‖symF uplo (entry μ A) i j‖ = ‖hermF uplo (entry μ A) i j‖ := by
      intro i j
      rcases eq_or_ne i j with rfl | hij
      · unfold symF hermF
        rw [if_pos (.inl rfl), if_pos rfl]; rfl
      · by_cases ht : inTri uplo i j
        · rw [symF_in ht, hermF_in hij ht]
        · rw [symF_out hij ht, hermF_out hij ht, norm_star]
    simp only [hh]
    constructor
    · rintro ⟨j, _, hj, rfl⟩; exact ⟨j, hj, (hermSum hu hj).1⟩
    · rintro ⟨j, hj, rfl⟩; exact ⟨j, Nat.zero_le _, hj, (hermSum hu hj).1.symm⟩

/-- **C49** infnorm_triangular_colmajor_work (real types) returns the infinity norm of the triangular
matrix, writing only the workspace, when there are not more columns than rows and the matrix is not unit lower
triangular (see the two deviations below). -/
theorem C49_infnorm_triangular {uplo : Uplo} (hu : uplo = .Upper ∨ uplo = .Lower) (diag : Diag)
    (hud : uplo = .Upper ∨ diag = .NonUnit) (A : MatV L) (hA : A.n ≤ A.m)
    (work : VecV L) (hw : work.Inj) (hd : A.DisjV work)
    (hk : A.m ≤ work.n) (μ : Store L ℝ) :
    ∃ r ν, infnormTriangular (hhOps p : HhOps ℝ ℝ).nops uplo diag A work μ = (.ok r, ν) ∧
      IsNorm .Inf A.m A.n (triF uplo diag (entry μ A)) r ∧ ∀ l, ¬ work.Owns l → ν l = μ l := by
  have hc : (!(uplo ≠ .Lower ∧ uplo ≠ .Upper : Bool)) = true := by rcases hu with rfl | rfl <;> rfl
  by_cases hz : A.n = 0
  · obtain ⟨x, ν, e, rfl, rfl⟩ := wp_iff.1 (show wp (infnormTriangular (hhOps p : HhOps ℝ ℝ).nops
        uplo diag A work) μ (fun x ν => ν = μ ∧ x = 0) by
      unfold infnormTriangular
      simp only [wp_bind, wp_check]
      rw [if_pos hc, if_pos (.inr hz), wp_pure]
      exact ⟨rfl, rfl⟩)
    exact ⟨0, ν, e, isNorm_empty (.inr hz) (by simp), fun _ _ => rfl⟩
  · obtain ⟨x, ν, e, hfr, r, rfl, hr⟩ := wp_iff.1 (wp_infnormTriangular (o := (hhOps p : HhOps ℝ ℝ).nops) exact_laws hu
      (diag := diag) hud hw hd hk hA (by omega) (μ := μ))
    refine ⟨_, ν, e, ?_, hfr⟩
    exact isNorm_tri_inf hu (by omega) (by omega) hr.exact

/-- **C49** deviation: with more columns than rows infnorm_triangular_colmajor_work writes `w[m]`, past the
end of the vector `w` of length `m` (lapack/infnorm_triangular_colmajor.hpp:84-85). -/
theorem C49_infnorm_triangular_wide {o : NOps T T} {uplo : Uplo} (hu : uplo = .Upper ∨ uplo = .Lower) (diag : Diag)
    (A : MatV L) (hm : 0 < A.m) (hA : A.m < A.n) (work : VecV L) (hk : A.m ≤ work.n) (μ : Store L T) :
    ∃ ν, infnormTriangular o uplo diag A work μ = (.error .ub, ν) := by
  have key : wp (infnormTriangular o uplo diag A work) μ (fun _ _ => False) (fun e _ => e = .ub) := by
    have hc : (!(uplo ≠ .Lower ∧ uplo ≠ .Upper : Bool)) = true := by rcases hu with rfl | rfl <;> rfl
    unfold infnormTriangular
    simp only [wp_bind, hc]
    rw [if_neg (by omega)]
    unfold check
    simp only [if_true, wp_pure, wp_bind]
    have h1 : wp (reshapeW work A.m) μ (fun w ν => w = work.sub 0 A.m ∧ ν = μ) (fun e _ => e = .ub) :=
      wp_mono (wp_reshapeW_e hk) (fun _ _ h => h) (fun _ _ h => h.elim)
    refine wp_mono h1 ?_ (fun _ _ h => h)
    rintro w ν ⟨rfl, rfl⟩
    unfold infnormTriSums
    simp only [wp_bind]
    refine wp_forUp_ (fun k _ => k ≤ A.m) (Nat.zero_le _) (Nat.zero_le _) ?_ (fun _ h => by omega)
    intro i ν' _ h2 h3
    have hn : (work.sub 0 A.m).n = A.m := by simp [VecV.sub]
    by_cases hi : i < A.m
    · exact wp_vsetE (by rw [hn]; exact hi) hi
    · unfold VecV.set wp
      simp only [hn, if_neg hi]
  unfold wp at key
  rcases h : infnormTriangular o uplo diag A work μ with ⟨r, ν⟩
  rw [h] at key
  cases r with
  | ok _ => exact key.elim
  | error e => exact ⟨ν, by rw [show e = .ub from key]⟩

/-- **C49** deviation: for a unit lower triangular matrix the first column is skipped
(lapack/infnorm_triangular_colmajor.hpp:121), so for a 2 × 2 matrix the result is always 1. -/
theorem C49_infnorm_triangular_unit_lower (A : MatV L) (hm : A.m = 2) (hn : A.n = 2) (work : VecV L) (hw : work.Inj)
    (hd : A.DisjV work) (hk : 2 ≤ work.n) (μ : Store L ℝ) (h10 : entry μ A 1 0 ≠ 0) :
    ∃ ν, infnormTriangular (hhOps p : HhOps ℝ ℝ).nops .Lower .Unit A work μ = (.ok 1, ν) ∧
      ¬ IsNorm .Inf 2 2 (triF .Lower .Unit (entry μ A)) 1 := by
  have hbad : ¬ IsNorm .Inf 2 2 (triF .Lower .Unit (entry μ A)) 1 := by
    intro h
    have := h.2 (.inr ⟨1, by omega, rfl⟩)
    simp only [sum_range_succ, sum_range_zero, zero_add] at this
    rw [triF_in (by omega) (by simp [inTri])] at this
    simp [triF] at this
    exact h10 this
  obtain ⟨x, ν, e, rfl⟩ := wp_iff.1 (show wp (infnormTriangular (hhOps p : HhOps ℝ ℝ).nops .Lower .Unit A work) μ
      (fun x _ => x = 1) by
    unfold infnormTriangular
    simp only [wp_bind, wp_check]
    rw [if_pos (by rfl), if_neg (by omega)]
    simp only [wp_bind]
    refine wp_conseq (wp_reshapeW_e (by omega)) ?_
    rintro w ν ⟨hw', rfl⟩
    have hwn : w.n = A.m := by rw [hw']; simp [VecV.sub]
    have hwi : w.Inj := by rw [hw']; exact hw.sub (by omega)
    have hwd : A.DisjV w := fun i j hi hj => fun h => hd i j hi hj (sub_owns (by omega) (hw' ▸ h))
    unfold infnormTriSums
    simp only [wp_bind]
    refine wp_conseq (wp_fillW hwi (Nat.zero_le _) (by omega) (VState.start w ν)) ?_
    intro _ ν1 h1
    rw [if_neg (by simp), if_neg (by simp)]
    simp only [wp_bind]
    refine wp_conseq (wp_fillW hwi (Nat.zero_le _) (by omega) h1) ?_
    intro _ ν2 h2
    refine wp_conseq (wp_fillW hwi (by omega) (by omega) h2) ?_
    intro _ ν3 h3
    refine wp_conseq (wp_addCols hwi hwd le_rfl (by omega) (lo := fun j => j + 1) (hi := fun _ => A.m)
      (fun j _ => ⟨by omega, le_rfl, by omega⟩) h3) ?_
    intro _ ν4 h4
    rw [← hwn]
    refine wp_conseq (wp_maxW exact_laws) ?_
    rintro x ν5 ⟨rfl, r, rfl, hr⟩
    have h5 : ∀ i, i < w.n → ventry ν5 w i = 1 := by
      intro i hi
      refine (h4.val i hi).trans ?_
      rw [foldUp_id (fun j s h1 h2 => if_neg (by omega)), if_neg (by omega), if_pos (by omega)]
    have hg := hr.exact
    rcases hg.1 with h | ⟨i, _, hi, h⟩
    · have := hg.2 (.inr ⟨0, le_rfl, by omega, rfl⟩)
      rw [h5 0 (by omega), h] at this
      exact absurd this (by norm_num)
    · rw [h, h5 i hi])
  exact ⟨ν, e, hbad⟩

end infnorm

/-! ### The norms of Mathlib -/

section mathlib

/-- The Frobenius norm is Mathlib's. -/
theorem C48_frobenius {m n : Nat} {a : Nat → Nat → 𝕜} {r : ℝ} :
    IsNorm .Fro m n a r ↔ r = (Matrix.frobeniusNormedAddCommGroup (α := 𝕜) (m := Fin m) (n := Fin n)).norm (mat m n a) := by
  letI := Matrix.frobeniusNormedAddCommGroup (α := 𝕜) (m := Fin m) (n := Fin n)
  show _ ↔ r = ‖mat m n a‖
  rw [Matrix.frobenius_norm_def]
  unfold IsNorm
  simp only []
  rw [Real.sqrt_eq_rpow, ← Fin.sum_univ_eq_sum_range (fun i => ∑ j ∈ range n, ‖a i j‖ ^ 2)]
  have : ∀ i : Fin m, ∑ j ∈ range n, ‖a i j‖ ^ 2 = ∑ j : Fin n, ‖mat m n a i j‖ ^ (2 : ℝ) := fun i => by
    rw [← Fin.sum_univ_eq_sum_range (fun j => ‖a i j‖ ^ 2)]
    exact sum_congr rfl fun j _ => by rw [Real.rpow_two]; rfl
  simp only [this]

theorem isGreatest_sup {ι : Type} [Fintype ι] {f : ι → NNReal} {S : Set ℝ} {r : ℝ}
    (hS : ∀ x, x ∈ S ↔ x = 0 ∨ ∃ i, x = f i) : IsGreatest S r ↔ r = ((univ.sup f : NNReal) : ℝ) := by
  have hg : IsGreatest S ((univ.sup f : NNReal) : ℝ) := by
    constructor
    · rw [hS]
      by_cases hne : (univ : Finset ι).Nonempty
      · obtain ⟨i, _, hi⟩ := exists_mem_eq_sup univ hne f
        exact .inr ⟨i, by rw [hi]⟩
      · rw [not_nonempty_iff_eq_empty.1 hne]
        exact .inl (by simp)
    · intro x hx
      rcases (hS x).1 hx with rfl | ⟨i, rfl⟩
      · exact NNReal.coe_nonneg _
      · exact NNReal.coe_le_coe.2 (le_sup (mem_univ i))
  exact ⟨fun h => h.unique hg, fun h => h ▸ hg⟩

/-- The infinity norm is the operator norm with respect to the maximum norm of vectors. -/
theorem C48_linfty {m n : Nat} {a : Nat → Nat → 𝕜} {r : ℝ} :
    IsNorm .Inf m n a r ↔ r = (Matrix.linftyOpNormedAddCommGroup (α := 𝕜) (m := Fin m) (n := Fin n)).norm (mat m n a) := by
  letI := Matrix.linftyOpNormedAddCommGroup (α := 𝕜) (m := Fin m) (n := Fin n)
  show _ ↔ r = ‖mat m n a‖
  rw [Matrix.linfty_opNorm_def]
  unfold IsNorm
  refine isGreatest_sup fun x => ?_
  have : ∀ i : Fin m, ((∑ j : Fin n, ‖mat m n a i j‖₊ : NNReal) : ℝ) = ∑ j ∈ range n, ‖a i j‖ := fun i => by
    rw [← Fin.sum_univ_eq_sum_range (fun j => ‖a i j‖)]
    push_cast
    rfl
  simp only [this]
  refine or_congr Iff.rfl ⟨?_, ?_⟩
  · rintro ⟨i, hi, rfl⟩; exact ⟨⟨i, hi⟩, rfl⟩
  · rintro ⟨i, rfl⟩; exact ⟨i, i.2, rfl⟩

/-- The one norm is the infinity norm of the transpose. -/
theorem C48_one {m n : Nat} {a : Nat → Nat → 𝕜} {r : ℝ} :
    IsNorm .One m n a r ↔ IsNorm .Inf n m (fun i j => a j i) r := Iff.rfl

end mathlib

/-! ### The hypotheses are met -/

/-- Double precision constants, a 3 × 2 complex matrix: every norm is available. -/
example (μ : Store (Nat × Nat × Nat) ℂ) (nt : Norm) (hnt : nt ≠ .Two) (h : ∀ i j, i < 3 → j < 2 → ‖μ (0, i, j)‖ ≤ 1) :
    ∃ r, lange (hhOps (doublePar false)) nt (mkM 0 3 2) μ = (.ok r, μ) ∧ IsNorm nt 3 2 (entry μ (mkM 0 3 2)) r := by
  refine C48_lange (doublePar_laws false (by simp)) (by unfold doublePar; positivity) hnt (mkM 0 3 2) μ fun _ => .inl ?_
  have h1 : ∀ i ∈ range 3, ∑ j ∈ range 2, ‖entry μ (mkM 0 3 2) i j‖ ^ 2 ≤ 2 := by
    intro i hi
    refine (sum_le_card_nsmul _ _ 1 fun j hj => ?_).trans (by simp)
    exact pow_le_one₀ (norm_nonneg _) (h i j (mem_range.1 hi) (mem_range.1 hj))
  refine (sum_le_card_nsmul _ _ 2 h1).trans ?_
  unfold doublePar
  rw [← pow_mul]
  calc (mkM 0 3 2).m • (2 : ℝ) ≤ 2 ^ 3 := by norm_num [mkM]
    _ ≤ 2 ^ (486 * 2) := pow_le_pow_right₀ (by norm_num) (by norm_num)

/-- A float-like type: nonnegative rationals up to a largest one, infinity, NaN (signs are irrelevant
here). -/
def flNops (big : ℚ) : NOps (Fl ℚ) (Fl ℚ) where
  zero := .fin 0
  one := .fin 1
  add a b := match a, b with
    | .nan, _ => .nan
    | _, .nan => .nan
    | .inf, _ => .inf
    | _, .inf => .inf
    | .fin a, .fin b => if a + b > big then .inf else .fin (a + b)
  gt := Fl.gt
  isnan a := match a with
    | .nan => true
    | _ => false
  abs a := match a with
    | .fin a => .fin |a|
    | a => a
  absRe a := match a with
    | .fin a => .fin |a|
    | a => a

example (big : ℚ) : NanLaws (flNops big) (fun a => match a with | .fin a => 0 ≤ a | _ => True) where
  zero := rfl
  one := rfl
  gt_nan a b h := by cases a <;> cases b <;> simp_all [flNops, Fl.gt]
  irrefl a := by cases a <;> simp [flNops, Fl.gt]
  trans a b c h1 h2 h3 := by
    cases a <;> cases b <;> cases c <;> simp_all [flNops, Fl.gt]
    linarith
  nn_zero := le_refl _
  nn_one := zero_le_one
  nn_abs x := by cases x <;> simp [flNops]
  nn_absRe x := by cases x <;> simp [flNops]
  nn_add a b h1 h2 := by
    cases a <;> cases b <;> simp_all [flNops]
    rename_i a b
    by_cases h : big < a + b
    · simp [h]
    · simp [h, add_nonneg h1 h2]
  add a b h1 h2 := by
    cases a <;> cases b <;> simp_all [flNops]
    rename_i a b
    by_cases h : big < a + b <;> simp [h]

/-- Workspace variants: a 3 × 2 matrix and a workspace of 3 entries; a 2 × 3 matrix for the deviation. -/
example : (mkV 1 3).Inj ∧ (mkM 0 3 2).DisjV (mkV 1 3) ∧ (mkM 0 3 2).m ≤ (mkV 1 3).n ∧ (mkM 0 3 2).n ≤ (mkM 0 3 2).m ∧
    0 < (mkM 0 2 3).m ∧ (mkM 0 2 3).m < (mkM 0 2 3).n :=
  ⟨mkV_inj _ _, mkM_disjV (by decide), by decide, by decide, by decide, by decide⟩

/-! ### Footprints (C40, C44), for any scalar operations -/

section foot
variable [Zero T] [One T] [Add T] [Mul T] [Sub T] [Neg T] [Div T] [Star T] [ReIm T] [DecidableEq T]
variable {K : Type} [Field K] [LinearOrder K]

/-- lange. -/
theorem C44_lange (o : HhOps T K) (nt : Norm) (A : MatV L) :
    Confined (fun l => MatV.Owns A l) (fun _ => False) (lange o nt A : M L T K) :=
  (foot_lange (covM_owns A)).confined

/-- lantr: not the other triangle, nor a unit diagonal. -/
theorem C40_lantr (o : HhOps T K) (nt : Norm) (uplo : Uplo) (diag : Diag) (A : MatV L) :
    Confined (fun l => MatV.OwnsTri A uplo diag l) (fun _ => False) (lantr o nt uplo diag A : M L T K) :=
  (foot_lantr (covT_owns A uplo diag)).confined

/-- lansy. -/
theorem C40_lansy (o : HhOps T K) (nt : Norm) (uplo : Uplo) (A : MatV L) :
    Confined (fun l => MatV.OwnsTri A uplo .NonUnit l) (fun _ => False) (lansy o nt uplo A : M L T K) :=
  (foot_lansy (covT_owns A uplo .NonUnit)).confined

/-- lanhe. -/
theorem C40_lanhe (o : HhOps T K) (nt : Norm) (uplo : Uplo) (A : MatV L) :
    Confined (fun l => MatV.OwnsTri A uplo .NonUnit l) (fun _ => False) (lanhe o nt uplo A : M L T K) :=
  (foot_lanhe (covT_owns A uplo .NonUnit)).confined

/-- infnorm_colmajor_work. -/
theorem C44_infnorm_colmajor (o : NOps T T) (A : MatV L) (work : VecV L) :
    Confined (fun l => MatV.Owns A l ∨ VecV.Owns work l) (fun l => VecV.Owns work l) (infnormColmajor o A work : M L T T) :=
  (foot_infnormColmajor ((covM_owns A).imp fun _ h => .inl h) ((covV_owns work).imp fun _ h => .inr h)
    (covV_owns work)).confined

/-- infnorm_symmetric_colmajor_work, infnorm_hermitian_colmajor_work. -/
theorem C40_infnorm_sym (o : NOps T T) (absD : T → T) (uplo : Uplo) (A : MatV L) (work : VecV L) :
    Confined (fun l => MatV.OwnsTri A uplo .NonUnit l ∨ VecV.Owns work l) (fun l => VecV.Owns work l)
      (infnormSym o absD uplo A work : M L T T) :=
  (foot_infnormSym ((covT_owns A uplo .NonUnit).imp fun _ h => .inl h) ((covV_owns work).imp fun _ h => .inr h)
    (covV_owns work)).confined

/-- infnorm_triangular_colmajor_work. -/
theorem C40_infnorm_triangular (o : NOps T T) (uplo : Uplo) (diag : Diag) (A : MatV L) (work : VecV L) :
    Confined (fun l => MatV.OwnsTri A uplo diag l ∨ VecV.Owns work l) (fun l => VecV.Owns work l)
      (infnormTriangular o uplo diag A work : M L T T) :=
  (foot_infnormTriangular ((covT_owns A uplo diag).imp fun _ h => .inl h) ((covV_owns work).imp fun _ h => .inr h)
    (covV_owns work)).confined

end foot

end TLA
