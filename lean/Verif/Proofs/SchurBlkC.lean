import Verif.Proofs.SchurBlkB

set_option linter.unusedTactic false
set_option linter.unusedSectionVars false
set_option linter.unusedVariables false
set_option linter.unreachableTactic false
set_option linter.unusedSimpArgs false

/-! schur_swap for real matrices: the similarity. -/

namespace TLA
open Matrix Finset
variable {L : Type} [DecidableEq L] {hp : HhPar}

/-- The embedding of the window. -/
def swJ (n l : Nat) (ι : Nat → Nat) : Matrix (Fin n) (Fin l) ℝ := Matrix.of fun r k => if ι k = r then 1 else 0

/-- The embedded transformation. -/
noncomputable def swU (n l : Nat) (ι : Nat → Nat) (H : Matrix (Fin l) (Fin l) ℝ) : Matrix (Fin n) (Fin n) ℝ :=
  1 + swJ n l ι * (H - 1) * (swJ n l ι)ᵀ

/-- `f` is multiplication by `H`. -/
def SwLin (l : Nat) (f : (Nat → ℝ) → Nat → ℝ) (H : Matrix (Fin l) (Fin l) ℝ) : Prop := ∀ y, vec l (f y) = H.mulVec (vec l y)

variable {ι : Nat → Nat} {n l : Nat} {f : (Nat → ℝ) → Nat → ℝ} {H : Matrix (Fin l) (Fin l) ℝ}

theorem swJ_orth (hι : ∀ a b, a < l → b < l → ι a = ι b → a = b) (hn : ∀ k, k < l → ι k < n) : (swJ n l ι)ᵀ * swJ n l ι = 1 := by
  ext a b
  rw [Matrix.mul_apply, Matrix.one_apply]
  simp only [swJ, Matrix.transpose_apply, Matrix.of_apply, ite_mul, one_mul, zero_mul]
  rw [sum_eq_single (⟨ι a, hn a a.2⟩ : Fin n) (fun r _ hr => if_neg fun h => hr (Fin.ext h.symm)) (fun h => absurd (mem_univ _) h), if_pos rfl]
  dsimp only
  by_cases e : a = b
  · rw [if_pos e, if_pos (by rw [e])]
  · rw [if_neg e, if_neg fun h => e (Fin.ext (hι _ _ a.2 b.2 h.symm))]

theorem swU_orth (hι : ∀ a b, a < l → b < l → ι a = ι b → a = b) (hn : ∀ k, k < l → ι k < n) (hH : H * Hᵀ = 1) :
    swU n l ι H * (swU n l ι H)ᵀ = 1 := by
  have hJ := swJ_orth hι hn
  obtain ⟨J, e⟩ : ∃ J, J = swJ n l ι := ⟨_, rfl⟩
  unfold swU
  rw [← e] at hJ ⊢
  simp only [Matrix.transpose_add, Matrix.transpose_one, Matrix.transpose_mul, Matrix.transpose_transpose, Matrix.transpose_sub]
  have h1 : J * (H - 1) * Jᵀ * (J * ((Hᵀ - 1) * Jᵀ)) = J * ((H - 1) * (Hᵀ - 1)) * Jᵀ := by
    rw [show J * (H - 1) * Jᵀ * (J * ((Hᵀ - 1) * Jᵀ)) = J * (H - 1) * (Jᵀ * J) * (Hᵀ - 1) * Jᵀ by simp only [Matrix.mul_assoc], hJ, Matrix.mul_one]
    simp only [Matrix.mul_assoc]
  rw [add_mul, mul_add, mul_add, Matrix.one_mul, Matrix.one_mul, Matrix.mul_one, h1, ← Matrix.mul_assoc J (Hᵀ - 1)]
  have h2 : (H - 1) * (Hᵀ - 1) = - (H - 1) - (Hᵀ - 1) := by
    rw [Matrix.sub_mul, Matrix.mul_sub, hH, Matrix.one_mul, Matrix.mul_one]; abel
  rw [h2]
  simp only [Matrix.mul_sub, Matrix.sub_mul, Matrix.mul_neg, Matrix.neg_mul]
  abel

theorem swJ_mul {m : Nat} (hn : ∀ k, k < l → ι k < n) (M : Matrix (Fin n) (Fin m) ℝ) (k : Fin l) (c : Fin m) :
    ((swJ n l ι)ᵀ * M) k c = M ⟨ι k, hn k k.2⟩ c := by
  rw [Matrix.mul_apply]
  simp only [swJ, Matrix.transpose_apply, Matrix.of_apply, ite_mul, one_mul, zero_mul]
  rw [sum_eq_single (⟨ι k, hn k k.2⟩ : Fin n) (fun r _ hr => if_neg fun h => hr (Fin.ext h.symm)) (fun h => absurd (mem_univ _) h), if_pos rfl]

theorem swEmb_mat (hι : ∀ a b, a < l → b < l → ι a = ι b → a = b) (hn : ∀ k, k < l → ι k < n) (hf : SwLin l f H) (m : Nat) (F : Nat → Nat → ℝ) :
    mat n m (fun r c => swEmb ι l f (fun r => F r c) r) = swU n l ι H * mat n m F := by
  have e0 : swU n l ι H * mat n m F = mat n m F + swJ n l ι * ((H - 1) * ((swJ n l ι)ᵀ * mat n m F)) := by
    unfold swU
    rw [Matrix.add_mul, Matrix.one_mul, Matrix.mul_assoc, Matrix.mul_assoc]
  rw [e0]
  ext r c
  rw [Matrix.add_apply, Matrix.mul_apply]
  show swEmb ι l f (fun r => F r c) r = F r c + _
  unfold swEmb
  rw [← Fin.sum_univ_eq_sum_range (fun k => if ι k = (r : ℕ) then f (fun i => F (ι i) c) k - F (ι k) c else 0)]
  congr 1
  refine sum_congr rfl fun k _ => ?_
  simp only [swJ, Matrix.of_apply, ite_mul, one_mul, zero_mul]
  refine if_congr Iff.rfl ?_ rfl
  rw [Matrix.sub_mul, Matrix.one_mul, Matrix.sub_apply]
  have e2 := swJ_mul hn (mat n m F) k c
  have e3 : (H * ((swJ n l ι)ᵀ * mat n m F)) k c = f (fun i => F (ι i) c) k := by
    have := congrFun (hf fun i => F (ι i) c) k
    rw [show f (fun i => F (ι i) c) k = vec l (f (fun i => F (ι i) c)) k from rfl, this, Matrix.mul_apply]
    exact sum_congr rfl fun i _ => by rw [swJ_mul hn]; rfl
  rw [show (swJ n l ι)ᵀ = (Matrix.of fun r k => if ι ↑k = ↑r then (1 : ℝ) else 0 : Matrix (Fin n) (Fin l) ℝ)ᵀ from rfl] at e2 e3
  rw [e2, e3]
  rfl

theorem swEmb_matR (hι : ∀ a b, a < l → b < l → ι a = ι b → a = b) (hn : ∀ k, k < l → ι k < n) (hf : SwLin l f H) (m : Nat) (F : Nat → Nat → ℝ) :
    mat m n (fun r c => swEmb ι l f (F r) c) = mat m n F * (swU n l ι H)ᵀ := by
  have := congrArg Matrix.transpose (swEmb_mat hι hn hf m fun r c => F c r)
  rw [Matrix.transpose_mul] at this
  exact this

theorem swEmb_zero (hf : SwLin l f H) {x : Nat → ℝ} (h : ∀ k, k < l → x (ι k) = 0) (r : Nat) : swEmb ι l f x r = x r := by
  unfold swEmb
  rw [sum_eq_zero fun k hk => ?_, add_zero]
  have hk := mem_range.1 hk
  have := congrFun (hf fun i => x (ι i)) ⟨k, hk⟩
  rw [show vec l (fun i => x (ι i)) = 0 from by
    funext i; exact h i i.2, Matrix.mulVec_zero] at this
  rw [show f (fun i => x (ι i)) k = 0 from this, h k hk, sub_self, ite_self]

/-- The similarity on all entries. -/
noncomputable def swBoth (ι : Nat → Nat) (l : Nat) (f : (Nat → ℝ) → Nat → ℝ) (F : Nat → Nat → ℝ) : Nat → Nat → ℝ := fun r c =>
  swEmb ι l f (fun c => swEmb ι l f (fun r => F r c) r) c

theorem swBoth_mat (hι : ∀ a b, a < l → b < l → ι a = ι b → a = b) (hn : ∀ k, k < l → ι k < n) (hf : SwLin l f H) (F : Nat → Nat → ℝ) :
    mat n n (swBoth ι l f F) = swU n l ι H * mat n n F * (swU n l ι H)ᵀ := by
  have := swEmb_matR hι hn hf n (fun r c => swEmb ι l f (fun r => F r c) r)
  rw [swEmb_mat hι hn hf] at this
  exact this

theorem swBoth_win (hι : ∀ a b, a < l → b < l → ι a = ι b → a = b) (hf : SwLin l f H) (F : Nat → Nat → ℝ) :
    mat l l (fun r c => swBoth ι l f F (ι r) (ι c)) = H * mat l l (fun r c => F (ι r) (ι c)) * Hᵀ := by
  have e : ∀ a b, a < l → b < l → swBoth ι l f F (ι a) (ι b) = f (fun b => f (fun a => F (ι a) (ι b)) a) b := by
    intro a b ha hb
    unfold swBoth
    rw [swEmb_in hι _ _ hb]
    congr 1
    funext i
    exact swEmb_in hι f (fun r => F r (ι i)) ha
  have e1 : mat l l (fun a b => f (fun a => F (ι a) (ι b)) a) = H * mat l l (fun r c => F (ι r) (ι c)) := by
    ext a b
    have := congrFun (hf fun a => F (ι a) (ι b)) a
    rw [Matrix.mul_apply]
    exact this
  rw [← e1]
  ext a b
  show swBoth ι l f F (ι a) (ι b) = _
  rw [e a b a.2 b.2, Matrix.mul_apply]
  have := congrFun (hf fun b => f (fun a => F (ι a) (ι b)) a) b
  rw [show f (fun b => f (fun a => F (ι a) (ι b)) a) b = vec l (f (fun b => f (fun a => F (ι a) (ι b)) ↑a)) b from rfl, this]
  show ∑ i, H b i * _ = _
  exact sum_congr rfl fun i _ => by rw [mul_comm]; rfl

theorem swBoth_out {F : Nat → Nat → ℝ} {r c : Nat} (hr : ∀ k, k < l → ι k ≠ r) (hc : ∀ k, k < l → ι k ≠ c) :
    swBoth ι l f F r c = F r c := by
  unfold swBoth
  rw [swEmb_out _ _ hc, swEmb_out _ _ hr]

/-- Zeros of a row across the window stay. -/
theorem swBoth_zr (hf : SwLin l f H) {F : Nat → Nat → ℝ} {r : Nat} (hr : ∀ k, k < l → ι k ≠ r) (z : ∀ k, k < l → F r (ι k) = 0) (c : Nat) :
    swBoth ι l f F r c = F r c := by
  unfold swBoth
  rw [show (fun c => swEmb ι l f (fun r => F r c) r) = F r from funext fun c => swEmb_out _ _ hr, swEmb_zero hf z]

theorem swBoth_zc (hf : SwLin l f H) {F : Nat → Nat → ℝ} {c : Nat} (hc : ∀ k, k < l → ι k ≠ c) (z : ∀ k, k < l → F (ι k) c = 0) (r : Nat) :
    swBoth ι l f F r c = F r c := by
  unfold swBoth
  rw [swEmb_out _ _ hc, swEmb_zero hf (x := fun r => F r c) z]

variable {wantq : Bool} {A Q : MatV L} {μ ν : Store L ℝ} {FA FQ : Nat → Nat → ℝ}

/-- What is assumed of the numbering of the window. -/
structure SwIdx (ι : Nat → Nat) (l j0 n : Nat) : Prop where
  inj : ∀ a b, a < l → b < l → ι a = ι b → a = b
  lo : ∀ k, k < l → j0 ≤ ι k
  hi : ∀ k, k < l → ι k < j0 + l
  n : j0 + l ≤ n
  one : 1 < l

theorem SwIdx.lt {j0 : Nat} (h : SwIdx ι l j0 n) {k : Nat} (hk : k < l) : ι k < n := by
  have := h.hi k hk; have := h.n; omega

theorem wp_swSim (ok : SchurOK wantq A Q) {j0 : Nat} (hi : SwIdx ι l j0 A.n) (g : (Nat → ℝ) × ℝ × (Nat → ℝ) × ℝ) (h : SwMem wantq A Q μ FA FQ ν)
    (zl : ∀ r k, j0 ≤ r → r < A.n → k < j0 → FA r k = 0) (zb : ∀ r k, j0 + l ≤ r → r < A.n → k < j0 + l → FA r k = 0) :
    wp (swSim wantq A Q ι l j0 g) ν (fun _ ν' => SwMem wantq A Q μ (swBoth ι l (swP l g.1 g.2.1 g.2.2.1 g.2.2.2) FA)
      (fun r c => swEmb ι l (swP l g.1 g.2.1 g.2.2.1 g.2.2.2) (FQ r) c) ν') := by
  have k1 := ok.Am
  have k2 := ok.Qm
  have k3 := ok.Qn
  have kn := hi.n
  have hl := hi.one
  have hf : SwLin l (swP l g.1 g.2.1 g.2.2.1 g.2.2.2) (swM l g.1 g.2.1 g.2.2.1 g.2.2.2) := swP_mulVec (by omega) _ _ _ _
  obtain ⟨F, hF⟩ : ∃ F, F = swP l g.1 g.2.1 g.2.2.1 g.2.2.2 := ⟨_, rfl⟩
  unfold swSim
  simp only [wp_bind]
  refine wp_conseq (wp_swApply ok.injA hi.inj (fun k hk => by rw [k1]; exact hi.lt hk) hl g.1 g.2.2.1 g.2.1 g.2.2.2 (by omega) (le_refl _) h.st) ?_
  intro _ ν1 h1
  refine wp_conseq (wp_swApplyR ok.injA hi.inj (fun k hk => hi.lt hk) hl g.1 g.2.2.1 g.2.1 g.2.2.2 (by omega) h1) ?_
  intro _ ν2 h2
  rw [← hF] at h2 hf ⊢
  have m2 : SwMem wantq A Q μ (swBoth ι l F FA) FQ ν2 := h.setA ok (h2.congr fun r c hr hc => by
    have e1 : (fun c => if j0 ≤ c ∧ c < A.n then swEmb ι l F (fun r => FA r c) r else FA r c) = fun c => if c < A.n then swEmb ι l F (fun r => FA r c) r else FA r c := by
      funext c
      by_cases e : c < A.n
      · rw [if_pos e]
        by_cases e2 : j0 ≤ c
        · rw [if_pos ⟨e2, e⟩]
        · rw [if_neg (by omega), swEmb_zero hf (x := fun r => FA r c)]
          exact fun k hk => zl _ _ (hi.lo k hk) (hi.lt hk) (by omega)
      · rw [if_neg e, if_neg (by omega)]
    by_cases e : r < j0 + l
    · rw [if_pos e, e1]
      unfold swBoth
      unfold swEmb
      beta_reduce
      rw [if_pos hc]
      congr 1
      refine sum_congr rfl fun k hk => if_congr Iff.rfl ?_ rfl
      have hk := mem_range.1 hk
      rw [if_pos (hi.lt hk)]
      congr 1
      have q1 := congrFun (hf fun i => if ι i < A.n then FA r (ι i) + ∑ k ∈ range l, (if ι k = r then F (fun i_1 => FA (ι i_1) (ι i)) k - FA (ι k) (ι i) else 0) else FA r (ι i)) ⟨k, hk⟩
      have q2 := congrFun (hf fun i => FA r (ι i) + ∑ k ∈ range l, (if ι k = r then F (fun i_1 => FA (ι i_1) (ι i)) k - FA (ι k) (ι i) else 0)) ⟨k, hk⟩
      refine Eq.trans q2 (Eq.trans (congrFun (congrArg _ ?_) _) q1.symm)
      exact vec_ext_iff.2 fun i hi' => by rw [if_pos (hi.lt hi')]
    · rw [if_neg e]
      have hne : ∀ k, k < l → ι k ≠ r := fun k hk => by have := hi.hi k hk; omega
      rw [swBoth_zr hf hne (fun k hk => zb _ _ (by omega) (by omega) (hi.hi k hk))]
      by_cases e2 : j0 ≤ c ∧ c < A.n
      · rw [if_pos e2, swEmb_out _ _ hne]
      · rw [if_neg e2])
  rw [wp_ite]
  split
  · next w =>
    refine wp_conseq (wp_swApplyR (ok.injQ w) hi.inj (fun k hk => by rw [k3]; exact hi.lt hk) hl g.1 g.2.2.1 g.2.1 g.2.2.2 (by omega)
      (⟨m2.q w, fun _ _ => rfl⟩ : MState Q ν2 FQ ν2)) ?_
    intro _ ν3 h3
    rw [← hF] at h3
    exact m2.setQ ok w (h3.congr fun r c hr hc => by rw [if_pos (by omega)])
  · next w =>
    rw [wp_pure]
    exact ⟨m2.a, fun w' => absurd w' w, m2.frame⟩

end TLA
