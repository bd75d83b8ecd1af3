import Verif.Proofs.TrevcTop
import Verif.Props.Examples
set_option linter.unusedTactic false
set_option linter.unusedVariables false
set_option linter.unusedSimpArgs false
set_option linter.unreachableTactic false
set_option linter.unusedSectionVars false

/-! # C84: the eigenvectors of a complex upper triangular matrix (trevc)

`hetOps isReal isinf smin smax` are the scalar operations of exact arithmetic with `abs1` as size; `pr` are the constants of ladiv, of which only `pr.u ≠ 0` is
used, and of the scaling thresholds only `0 < sfmax`.
-/

namespace TLA
open Matrix Kernel
variable {L : Type} [DecidableEq L]
variable {isReal : Bool} {isinf : ℝ → Bool} {smin smax : ℝ} {pr : DivPar} {sfmin sfmax : ℝ} {n : Nat}

/-- The number of eigenvectors asked for. -/
def evCount (how : HowMny) (sel : Nat → Bool) (n : Nat) : Nat := if how = .Select then selRank sel n else n

/-- The column of the eigenvector `k`: `k` itself, or the number of selected ones before it. -/
def evCol (how : HowMny) (sel : Nat → Bool) (k : Nat) : Nat := if how = .Select then selRank sel k else k

/-- The eigenvector `z` is in column `c` of `V` after the call: as it is, or multiplied by the matrix `q` that `V` was on entry. -/
def EvStored (how : HowMny) (n : Nat) (q v : Nat → Nat → ℂ) (c : Nat) (z : Nat → ℂ) : Prop :=
  vec n (fun r => v r c) = if how = .Back then (mat n n q).mulVec (vec n z) else vec n z

/-- trevc accepts the arguments: `T` square of order n ≥ 1 with zeros below its diagonal, at least one side, V with n rows and a column for every eigenvector,
workspaces of sizes 3n and n, all of them apart from each other. -/
structure TrevcAdm (left right : Bool) (how : HowMny) (sel : Nat → Bool) (n : Nat) (T Vl Vr : MatV L) (rwn : Nat) (work : VecV L) (μ : Store L ℂ) : Prop where
  n0 : 0 < n
  tm : T.m = n
  tn : T.n = n
  tri : ∀ j, j + 1 < n → entry μ T (j + 1) j = 0
  sd : left = true ∨ right = true
  rw : n ≤ rwn
  wn : 3 * n ≤ work.n
  wi : work.Inj
  tw : T.DisjV work
  r : right = true → Vr.m = n ∧ evCount how sel n ≤ Vr.n ∧ Vr.Inj ∧ T.Disj Vr ∧ Vr.DisjV work
  l : left = true → Vl.m = n ∧ evCount how sel n ≤ Vl.n ∧ Vl.Inj ∧ T.Disj Vl ∧ Vl.DisjV work
  lr : left = true → right = true → Vl.Disj Vr ∧ Vr.Disj Vl

theorem evCount_eq (how : HowMny) (sel : Nat → Bool) (n : Nat) : selRank (trAct how sel) n = evCount how sel n := by
  unfold evCount
  by_cases c : how = .Select
  · rw [if_pos c]
    have e : trAct how sel = sel := by funext i; simp [trAct, c]
    rw [e]
  · rw [if_neg c, selRank_ne c]

theorem evCol_eq (how : HowMny) (sel : Nat → Bool) (k : Nat) : selRank (trAct how sel) k = evCol how sel k := evCount_eq how sel k

theorem trAct_iff {how : HowMny} {sel : Nat → Bool} {k : Nat} : trAct how sel k = true ↔ (how = .Select → sel k = true) := by
  unfold trAct
  by_cases c : how = .Select
  · simp [c]
  · simp [c]

theorem TrevcAdm.arg {left right : Bool} {how : HowMny} {sel : Nat → Bool} {T Vl Vr : MatV L} {rwn : Nat} {work : VecV L} {μ : Store L ℂ}
    (h : TrevcAdm left right how sel n T Vl Vr rwn work μ) : TrevcArg left right how sel n T Vl Vr rwn work :=
  ⟨h.tm, h.tn, h.rw, h.wn, h.sd, h.wi, h.tw,
    fun c => ⟨⟨h.tm, h.tn, (h.r c).1, (h.r c).2.2.1, h.wi, h.wn, (h.r c).2.2.2.1, h.tw, (h.r c).2.2.2.2⟩, by rw [evCount_eq]; exact (h.r c).2.1⟩,
    fun c => ⟨⟨h.tm, h.tn, (h.l c).1, (h.l c).2.2.1, h.wi, h.wn, (h.l c).2.2.2.1, h.tw, (h.l c).2.2.2.2⟩, by rw [evCount_eq]; exact (h.l c).2.1⟩, h.lr⟩

theorem evStored_of {how : HowMny} {q v : Nat → Nat → ℂ} {c : Nat} {z : Nat → ℂ} (h : ∀ r, r < n → v r c = trCol how q n z r) : EvStored how n q v c z := by
  unfold EvStored
  by_cases hB : how = .Back
  · rw [if_pos hB]
    funext ⟨r, hr⟩
    show v r c = ∑ s : Fin n, q r s * z s
    rw [h r hr, Fin.sum_univ_eq_sum_range (fun s => q r s * z s) n]
    unfold trCol
    rw [if_pos hB]
  · rw [if_neg hB]
    funext ⟨r, hr⟩
    show v r c = z r
    rw [h r hr]
    unfold trCol
    rw [if_neg hB]

/-- **C84, the eigenvectors.**  If the eigenvalues asked for are simple enough for the substitutions (the k-th differs from all before it for a right eigenvector and from
all after it for a left one), trevc succeeds, reports the number of eigenvectors and leaves `select` as it was.  For every k asked for, column `evCol k` of Vr holds a right
eigenvector of the upper triangle of T for `T(k,k)` and that of Vl a left one (`z^H T = T(k,k) z^H`), each with a positive number in position k and multiplied by the matrix
given on entry if the mode is Back; the other columns are as they were, and nothing but the matrices asked for and the workspace is written. -/
theorem C84_trevc (hu : pr.u ≠ 0) (hsf : 0 < sfmax) {left right : Bool} {how : HowMny} {sel : Nat → Bool} {T Vl Vr : MatV L} {rwn : Nat} {work : VecV L} {μ : Store L ℂ}
    (h : TrevcAdm left right how sel n T Vl Vr rwn work μ)
    (hr : right = true → ∀ k, k < n → (how = .Select → sel k = true) → ∀ i, i < k → entry μ T i i ≠ entry μ T k k)
    (hl : left = true → ∀ k, k < n → (how = .Select → sel k = true) → ∀ i, k < i → i < n → entry μ T i i ≠ entry μ T k k) :
    ∃ ν, trevc (hetOps isReal isinf smin smax) pr sfmin sfmax left right how sel T Vl Vr rwn work μ = (.ok (evCount how sel n, sel), ν) ∧
      (right = true → (∀ k, k < n → (how = .Select → sel k = true) → ∃ z, IsRightEv n (entry μ T) k z ∧ EvStored how n (entry μ Vr) (entry ν Vr) (evCol how sel k) z) ∧
        ∀ r j, r < n → evCount how sel n ≤ j → j < Vr.n → entry ν Vr r j = entry μ Vr r j) ∧
      (left = true → (∀ k, k < n → (how = .Select → sel k = true) → ∃ z, IsLeftEv n (entry μ T) k z ∧ EvStored how n (entry μ Vl) (entry ν Vl) (evCol how sel k) z) ∧
        ∀ r j, r < n → evCount how sel n ≤ j → j < Vl.n → entry ν Vl r j = entry μ Vl r j) ∧
      ∀ l, (right = true → ¬ Vr.Owns l) → (left = true → ¬ Vl.Owns l) → ¬ work.Owns l → ν l = μ l := by
  obtain ⟨_, ν, e, h0, hR, hL, hf⟩ := wp_iff.1 (wp_trevc (isReal := isReal) (isinf := isinf) (smin := smin) (smax := smax) (sfmin := sfmin) hu hsf h.n0 h.arg h.tri
    (fun c i k h1 h2 h3 => hr c k h2 (trAct_iff.1 h3) i h1) (fun c k i h1 h2 h3 => hl c k (by omega) (trAct_iff.1 h3) i h1 h2))
  refine ⟨ν, by rw [e, h0, evCount_eq], fun c => ?_, fun c => ?_, hf⟩
  · obtain ⟨G, hG, hI⟩ := hR c
    have hm := (h.r c).2.1
    refine ⟨fun k hk hs => ?_, fun r j hr hj hj2 => ?_⟩
    · obtain ⟨z, a1, a2⟩ := hI.done k (Nat.zero_le k) hk (trAct_iff.2 hs)
      have hlt := selRank_lt (j := n) hk (trAct_iff.2 hs)
      have hce := evCount_eq how sel n
      refine ⟨z, a1, ?_⟩
      rw [← evCol_eq]
      exact evStored_of fun r hr => by rw [← a2 r hr]; exact hG r _ hr (by omega)
    · show ν (Vr.cell r j) = _
      rw [hG r j hr hj2]
      exact hI.todo r j hr (Or.inr (by rw [evCount_eq]; exact hj))
  · obtain ⟨G, hG, hI⟩ := hL c
    have hm := (h.l c).2.1
    refine ⟨fun k hk hs => ?_, fun r j hr hj hj2 => ?_⟩
    · obtain ⟨z, a1, a2⟩ := hI.done k hk (trAct_iff.2 hs)
      have hlt := selRank_lt (j := n) hk (trAct_iff.2 hs)
      have hce := evCount_eq how sel n
      refine ⟨z, a1, ?_⟩
      rw [← evCol_eq]
      exact evStored_of fun r hr => by rw [← a2 r hr]; exact hG r _ hr (by omega)
    · show ν (Vl.cell r j) = _
      rw [hG r j hr hj2]
      exact hI.todo r j hr (by rw [evCount_eq]; exact hj)

/-- **C84, eigenvectors of A.**  In the mode Back, with a Schur factorization `A Q = Q T` and `Q` invertible, the columns of Vr are eigenvectors of A: nonzero, with
`A x = T(k,k) x`. -/
theorem C84_back_right {t q v : Nat → Nat → ℂ} {k : Nat} (hk : k < n) (A : Matrix (Fin n) (Fin n) ℂ) (hA : A * mat n n q = mat n n q * mat n n (triF .Upper .NonUnit t))
    (hq : IsUnit (mat n n q)) {z : Nat → ℂ} (hz : IsRightEv n t k z) (hs : EvStored .Back n q v k z) :
    A.mulVec (vec n fun r => v r k) = t k k • vec n (fun r => v r k) ∧ vec n (fun r => v r k) ≠ 0 := by
  unfold EvStored at hs
  rw [if_pos rfl] at hs
  obtain ⟨⟨s, s0, hzk⟩, _, hz⟩ := hz
  rw [hs]
  refine ⟨?_, fun h => ?_⟩
  · rw [Matrix.mulVec_mulVec, hA, ← Matrix.mulVec_mulVec, hz, Matrix.mulVec_smul]
  · obtain ⟨u, hu⟩ := hq
    have : (vec n z) = 0 := by
      have h2 := congrArg (fun w => (↑u⁻¹ : Matrix (Fin n) (Fin n) ℂ).mulVec w) h
      simp only [Matrix.mulVec_mulVec, ← hu, Units.inv_mul, Matrix.one_mulVec, Matrix.mulVec_zero] at h2
      exact h2
    have h3 := congrFun this ⟨k, hk⟩
    have h4 : z k = 0 := h3
    rw [hzk] at h4
    exact s0.ne' (by exact_mod_cast h4)

/-- The same for left eigenvectors, with `Q^H A = T Q^H`: `y^H A = T(k,k) y^H`. -/
theorem C84_back_left {t q v : Nat → Nat → ℂ} {k : Nat} (hk : k < n) (A : Matrix (Fin n) (Fin n) ℂ)
    (hA : (mat n n q)ᴴ * A = mat n n (triF .Upper .NonUnit t) * (mat n n q)ᴴ)
    (hq : IsUnit (mat n n q)) {z : Nat → ℂ} (hz : IsLeftEv n t k z) (hs : EvStored .Back n q v k z) :
    Matrix.vecMul (star (vec n fun r => v r k)) A = t k k • star (vec n fun r => v r k) ∧ vec n (fun r => v r k) ≠ 0 := by
  unfold EvStored at hs
  rw [if_pos rfl] at hs
  obtain ⟨⟨s, s0, hzk⟩, _, hz⟩ := hz
  rw [hs]
  refine ⟨?_, fun h => ?_⟩
  · rw [Matrix.star_mulVec, Matrix.vecMul_vecMul, hA, ← Matrix.vecMul_vecMul, hz, Matrix.smul_vecMul]
  · obtain ⟨u, hu⟩ := hq
    have : (vec n z) = 0 := by
      have h2 := congrArg (fun w => (↑u⁻¹ : Matrix (Fin n) (Fin n) ℂ).mulVec w) h
      simp only [Matrix.mulVec_mulVec, ← hu, Units.inv_mul, Matrix.one_mulVec, Matrix.mulVec_zero] at h2
      exact h2
    have h3 := congrFun this ⟨k, hk⟩
    have h4 : z k = 0 := h3
    rw [hzk] at h4
    exact s0.ne' (by exact_mod_cast h4)

/-- **C84, violated for repeated eigenvalues.**  Whenever the right eigenvector of an eigenvalue that occurs earlier on the diagonal is asked for (so for every
matrix with a repeated eigenvalue in the modes All and Back, the identity among them), trevc divides by zero instead of perturbing the divisor. -/
theorem C84_repeated_violated (hu : pr.u ≠ 0) (hsf : 0 < sfmax) {left : Bool} {how : HowMny} {sel : Nat → Bool} {T Vl Vr : MatV L} {rwn : Nat} {work : VecV L} {μ : Store L ℂ}
    (h : TrevcAdm left true how sel n T Vl Vr rwn work μ) {i k : Nat} (hik : i < k) (hk : k < n) (hs : how = .Select → sel k = true)
    (he : entry μ T i i = entry μ T k k) :
    (trevc (hetOps isReal isinf smin smax) pr sfmin sfmax left true how sel T Vl Vr rwn work μ).1 = .error .divz := by
  have key := wp_trevc_fail (isReal := isReal) (isinf := isinf) (smin := smin) (smax := smax) (sfmin := sfmin) hu hsf h.n0 h.arg h.tri hik hk (trAct_iff.2 hs) he
  unfold wp at key
  rcases hx : trevc (hetOps isReal isinf smin smax) pr sfmin sfmax left true how sel T Vl Vr rwn work μ with ⟨r, ν⟩
  rw [hx] at key
  cases r with
  | ok a => exact key.elim
  | error e => rw [show e = .divz from key]

/-! ### Examples -/

/-- Both sides, mode Back, a 3 by 3 matrix with diagonal 0, 1, 2 and ones above it. -/
example : TrevcAdm true true .Back (fun _ => false) 3 (mkM 0 3 3) (mkM 1 3 3) (mkM 2 3 3) 3 (mkV 3 9)
      (fun l => if l.1 = 0 ∧ l.2.1 = l.2.2 then (l.2.1 : ℂ) else if l.1 = 0 ∧ l.2.1 < l.2.2 then 1 else 0) ∧
    ∀ i k : Nat, i < k → ((i : ℂ)) ≠ (k : ℂ) := by
  refine ⟨⟨by decide, rfl, rfl, ?_, Or.inl rfl, le_rfl, le_rfl, mkV_inj _ _, mkM_disjV (by decide), fun _ => ⟨rfl, le_rfl, mkM_inj _ _ _, mkM_disj (by decide), mkM_disjV (by decide)⟩,
    fun _ => ⟨rfl, le_rfl, mkM_inj _ _ _, mkM_disj (by decide), mkM_disjV (by decide)⟩, fun _ _ => ⟨mkM_disj (by decide), mkM_disj (by decide)⟩⟩, fun i k h => ?_⟩
  · intro j hj
    simp [entry, mkM]
  · exact_mod_cast h.ne

/-- A selection. -/
example : evCount .Select (fun i => i == 2) 3 = 1 ∧ evCol .Select (fun i => i == 2) 2 = 0 := by decide

end TLA
