import Verif.Proofs.TikAlg
import Verif.Proofs.KernelRot
import Verif.SpecSvd
set_option linter.unusedVariables false
set_option linter.unusedTactic false

/-! # Algebra of Elden's reduction of a bidiagonal Tikhonov problem -/

namespace TLA
open Finset Matrix Kernel
variable {𝕜 : Type} [RCLike 𝕜]

/-- Entry `j` of the diagonal of the second block after `i` steps. -/
def tkS (lam low : ℝ) (i j : Nat) : ℝ := if j < i then 0 else if j = i then low else lam

/-- `e_{j-1} y_{j-1}`. -/
def tkP {R : Type} [Zero R] (f : Nat → R) (j : Nat) : R := if j = 0 then 0 else f (j - 1)

/-- After `i` steps the normal equations are those of the bidiagonal matrix stacked on a diagonal one. -/
structure TkInv (n k : Nat) (lam : ℝ) (d0 e0 : Nat → ℝ) (c0 : Nat → Nat → 𝕜) (i : Nat) (low : ℝ) (d e : Nat → ℝ) (c w : Nat → Nat → 𝕜) : Prop where
  diag : ∀ j, j < n → d j * d j + tkP (fun j => e j * e j) j + tkS lam low i j * tkS lam low i j = d0 j * d0 j + tkP (fun j => e0 j * e0 j) j + lam * lam
  off : ∀ j, j + 1 < n → d j * e j = d0 j * e0 j
  rhs : ∀ j a, j < n → a < k → (d j : 𝕜) * c j a + tkP (fun j => (e j : 𝕜) * c j a) j + (tkS lam low i j : 𝕜) * w j a =
    (d0 j : 𝕜) * c0 j a + tkP (fun j => (e0 j : 𝕜) * c0 j a) j
  w0 : ∀ j a, i < j → j < n → a < k → w j a = 0
  nz : ∀ j, j < i → j < n → d j ≠ 0
  alt : i < n → (lam ≠ 0 ∧ low ≠ 0) ∨ (lam = 0 ∧ low = 0 ∧ ∀ j, i ≤ j → j < n → d j ≠ 0)

theorem Kernel.RotOK.sqr {a b r c s : ℝ} (h : RotOK a b r c s) : r * r = a * a + b * b := by
  have h1 := h.unit
  have h2 := h.top
  have h3 := h.bot
  rw [← h2]
  linear_combination (a * a + b * b) * h1 - (-s * a + c * b) * h3

theorem Kernel.RotOK.ne {a b r c s : ℝ} (h : RotOK a b r c s) (hab : a ≠ 0 ∨ b ≠ 0) : r ≠ 0 := by
  intro h0
  have := h.sqr
  rw [h0] at this
  rcases hab with q | q
  · have := mul_self_pos.2 q; nlinarith [mul_self_nonneg b]
  · have := mul_self_pos.2 q; nlinarith [mul_self_nonneg a]

theorem Kernel.RotOK.rc {a b r c s : ℝ} (h : RotOK a b r c s) : r * c = a := by
  have h1 := h.unit
  have h2 := h.top
  have h3 := h.bot
  rw [← h2]; linear_combination a * h1 + s * h3

theorem Kernel.RotOK.rs {a b r c s : ℝ} (h : RotOK a b r c s) : r * s = b := by
  have h1 := h.unit
  have h2 := h.top
  have h3 := h.bot
  rw [← h2]; linear_combination b * h1 - c * h3

/-- The step keeps the equations. -/
theorem TkInv.next {n k : Nat} {lam : ℝ} {d0 e0 : Nat → ℝ} {c0 : Nat → Nat → 𝕜} {i : Nat} {low : ℝ} {d e d' e' : Nat → ℝ} {c w c' w' : Nat → Nat → 𝕜}
    (inv : TkInv n k lam d0 e0 c0 i low d e c w) (hi : i < n) {r cs sn r2 c2 s2 : ℝ} (h1 : RotOK (d i) low r cs sn)
    (h2 : i + 1 < n → RotOK lam (-sn * e i) r2 c2 s2) (hd : ∀ j, d' j = if j = i then r else d j)
    (he : ∀ j, j + 1 < n → e' j = if j = i then cs * e i else e j)
    (hc : ∀ j a, j < n → a < k → c' j a = if j = i then (cs : 𝕜) * c i a + (sn : 𝕜) * w i a else c j a)
    (hw : ∀ j a, i < j → j < n → a < k → w' j a = if j = i + 1 then (s2 : 𝕜) * ((cs : 𝕜) * w i a - (sn : 𝕜) * c i a) else w j a) :
    TkInv n k lam d0 e0 c0 (i + 1) r2 d' e' c' w' := by
  have u := h1.unit
  have u1 : (cs : 𝕜) * cs + (sn : 𝕜) * sn = 1 := by exact_mod_cast u
  have rc : (r : 𝕜) * cs = (d i : ℝ) := by exact_mod_cast h1.rc
  have rs : (r : 𝕜) * sn = (low : ℝ) := by exact_mod_cast h1.rs
  refine ⟨fun j hj => ?_, fun j hj => ?_, fun j a hj ha => ?_, fun j a hij hj ha => ?_, fun j hj hj' => ?_, fun hn => ?_⟩
  · rw [← inv.diag j hj]
    rcases lt_trichotomy j i with q | rfl | q
    · have e1 : tkP (fun j => e' j * e' j) j = tkP (fun j => e j * e j) j := by
        unfold tkP; split_ifs with z
        · rfl
        · beta_reduce; rw [he _ (by omega), if_neg (by omega)]
      rw [e1, hd, if_neg (by omega)]
      unfold tkS; rw [if_pos (by omega), if_pos q]
    · have e1 : tkP (fun j => e' j * e' j) j = tkP (fun j => e j * e j) j := by
        unfold tkP; split_ifs with z
        · rfl
        · beta_reduce; rw [he _ (by omega), if_neg (by omega)]
      rw [e1, hd, if_pos rfl, h1.sqr]
      unfold tkS; rw [if_pos (by omega), if_neg (by omega), if_pos rfl]
      ring
    · rw [hd, if_neg (by omega)]
      by_cases q2 : j = i + 1
      · subst q2
        have e1 : tkP (fun j => e' j * e' j) (i + 1) = cs * e i * (cs * e i) := by
          unfold tkP; rw [if_neg (by omega)]; beta_reduce; rw [he _ (by omega), if_pos (by omega)]
        have e2 : tkP (fun j => e j * e j) (i + 1) = e i * e i := by
          unfold tkP; rw [if_neg (by omega)]; rfl
        rw [e1, e2]
        unfold tkS; rw [if_neg (by omega), if_pos rfl, if_neg (by omega), if_neg (by omega), (h2 hj).sqr]
        linear_combination (e i * e i) * u
      · have e1 : tkP (fun j => e' j * e' j) j = tkP (fun j => e j * e j) j := by
          unfold tkP; split_ifs with z
          · rfl
          · beta_reduce; rw [he _ (by omega), if_neg (by omega)]
        rw [e1]
        unfold tkS; rw [if_neg (by omega), if_neg (by omega), if_neg (by omega), if_neg (by omega)]
  · rw [← inv.off j hj, hd, he j hj]
    by_cases q : j = i
    · subst q; rw [if_pos rfl, if_pos rfl, ← mul_assoc, h1.rc]
    · rw [if_neg q, if_neg q]
  · rw [← inv.rhs j a hj ha, hd, hc j a hj ha]
    rcases lt_trichotomy j i with q | rfl | q
    · have e1 : tkP (fun j => (e' j : 𝕜) * c' j a) j = tkP (fun j => (e j : 𝕜) * c j a) j := by
        unfold tkP; split_ifs with z
        · rfl
        · beta_reduce; rw [he _ (by omega), if_neg (by omega), hc _ _ (by omega) ha, if_neg (by omega)]
      rw [e1, if_neg (by omega), if_neg (by omega)]
      unfold tkS; rw [if_pos (by omega), if_pos q]; simp
    · have e1 : tkP (fun j => (e' j : 𝕜) * c' j a) j = tkP (fun j => (e j : 𝕜) * c j a) j := by
        unfold tkP; split_ifs with z
        · rfl
        · beta_reduce; rw [he _ (by omega), if_neg (by omega), hc _ _ (by omega) ha, if_neg (by omega)]
      rw [e1, if_pos rfl, if_pos rfl]
      unfold tkS; rw [if_pos (by omega), if_neg (by omega), if_pos rfl]
      simp only [RCLike.ofReal_zero, zero_mul]
      linear_combination c j a * rc + w j a * rs
    · rw [if_neg (by omega), if_neg (by omega)]
      by_cases q2 : j = i + 1
      · subst q2
        have e1 : tkP (fun j => (e' j : 𝕜) * c' j a) (i + 1) = ((cs * e i : ℝ) : 𝕜) * ((cs : 𝕜) * c i a + (sn : 𝕜) * w i a) := by
          unfold tkP; rw [if_neg (by omega)]; beta_reduce
          rw [he _ (by omega), if_pos (by omega), hc _ _ (by omega) ha, if_pos (by omega)]
        have e2 : tkP (fun j => (e j : 𝕜) * c j a) (i + 1) = (e i : 𝕜) * c i a := by
          unfold tkP; rw [if_neg (by omega)]; rfl
        rw [e1, e2, hw _ _ (by omega) hj ha, if_pos rfl, inv.w0 _ _ (by omega) hj ha]
        unfold tkS; rw [if_neg (by omega), if_pos rfl]
        have rs2 : (r2 : 𝕜) * s2 = ((-sn * e i : ℝ) : 𝕜) := by exact_mod_cast (h2 hj).rs
        push_cast at rs2 ⊢
        linear_combination ((cs : 𝕜) * w i a - (sn : 𝕜) * c i a) * rs2 + (e i : 𝕜) * c i a * u1
      · have e1 : tkP (fun j => (e' j : 𝕜) * c' j a) j = tkP (fun j => (e j : 𝕜) * c j a) j := by
          unfold tkP; split_ifs with z
          · rfl
          · beta_reduce; rw [he _ (by omega), if_neg (by omega), hc _ _ (by omega) ha, if_neg (by omega)]
        rw [e1, hw _ _ q hj ha, if_neg q2]
        unfold tkS; rw [if_neg (by omega), if_neg (by omega), if_neg (by omega), if_neg (by omega)]
  · rw [hw _ _ (by omega) hj ha, if_neg (by omega), inv.w0 _ _ (by omega) hj ha]
  · rw [hd]
    by_cases q : j = i
    · rw [if_pos q]
      refine h1.ne ?_
      rcases inv.alt hi with ⟨_, h⟩ | ⟨_, _, h⟩
      · exact .inr h
      · exact .inl (h i le_rfl hi)
    · rw [if_neg q]; exact inv.nz j (by omega) hj'
  · rcases inv.alt hi with ⟨h, _⟩ | ⟨hl, hz, h⟩
    · exact .inl ⟨h, (h2 hn).ne (.inl h)⟩
    · have s0 : sn = 0 := by
        have := h1.bot
        rw [hz] at this
        have hd0 := h i le_rfl hi
        have : sn * d i = 0 := by linarith
        exact (mul_eq_zero.1 this).resolve_right hd0
      refine .inr ⟨hl, ?_, fun j hj hj' => ?_⟩
      · have := (h2 hn).sqr
        rw [hl, s0] at this
        have : r2 * r2 = 0 := by rw [this]; ring
        exact mul_self_eq_zero.1 this
      · rw [hd, if_neg (by omega)]; exact h j (by omega) hj'

/-- Solving with the final bidiagonal matrix solves the regularised normal equations. -/
theorem TkInv.solve {n k : Nat} {lam low : ℝ} {d0 e0 : Nat → ℝ} {c0 : Nat → Nat → 𝕜} {d e : Nat → ℝ} {c w x : Nat → Nat → 𝕜}
    (inv : TkInv n k lam d0 e0 c0 n low d e c w)
    (hx : ∀ j a, j < n → a < k → (d j : 𝕜) * x j a + (if j + 1 < n then (e j : 𝕜) * x (j + 1) a else 0) = c j a) :
    ((mat n n fun i j => ((bidR false d0 e0 i j : ℝ) : 𝕜))ᴴ * (mat n n fun i j => ((bidR false d0 e0 i j : ℝ) : 𝕜)) + ((lam : 𝕜) ^ 2) • 1) * mat n k x =
      (mat n n fun i j => ((bidR false d0 e0 i j : ℝ) : 𝕜))ᴴ * mat n k c0 := by
  have hl : ∀ (d e : Nat → ℝ) (y : Nat → Nat → 𝕜), (mat n n fun i j => ((bidR false d e i j : ℝ) : 𝕜)) * mat n k y =
      mat n k fun i a => (d i : 𝕜) * y i a + (if i + 1 < n then (e i : 𝕜) * y (i + 1) a else 0) := by
    intro d e y
    rw [mat_mul, mat_ext_iff]
    intro i a hi ha
    beta_reduce
    by_cases q : i + 1 < n
    · rw [if_pos q, Finset.sum_eq_add (a := i) (b := i + 1) (by omega)]
      · unfold bidR; rw [if_pos rfl, if_neg (by omega), if_pos ⟨rfl, rfl⟩]
      · intro t _ ht
        unfold bidR; rw [if_neg (fun h => ht.1 h.symm), if_neg (fun h => ht.2 h.2.symm), if_neg (by simp)]; simp
      · intro h; exact absurd (mem_range.2 hi) h
      · intro h; exact absurd (mem_range.2 q) h
    · rw [if_neg q, Finset.sum_eq_single i]
      · unfold bidR; rw [if_pos rfl, add_zero]
      · intro t ht hne
        have := mem_range.1 ht
        unfold bidR; rw [if_neg (fun h => hne h.symm), if_neg (by omega), if_neg (by simp)]; simp
      · intro h; exact absurd (mem_range.2 hi) h
  have hr : ∀ (d e : Nat → ℝ) (y : Nat → Nat → 𝕜), (mat n n fun i j => ((bidR false d e i j : ℝ) : 𝕜))ᴴ * mat n k y =
      mat n k fun i a => (d i : 𝕜) * y i a + tkP (fun j => (e j : 𝕜) * y j a) i := by
    intro d e y
    rw [mat_conjTranspose, mat_mul, mat_ext_iff]
    intro i a hi ha
    beta_reduce
    unfold tkP
    by_cases q : i = 0
    · rw [if_pos q, Finset.sum_eq_single i]
      · unfold bidR; rw [if_pos rfl, add_zero]; simp
      · intro t ht hne
        unfold bidR; rw [if_neg hne, if_neg (by omega), if_neg (by simp)]; simp
      · intro h; exact absurd (mem_range.2 hi) h
    · rw [if_neg q, Finset.sum_eq_add (a := i) (b := i - 1) (by omega)]
      · unfold bidR; rw [if_pos rfl, if_neg (by omega), if_pos ⟨rfl, by omega⟩]; simp
      · intro t _ ht
        unfold bidR; rw [if_neg ht.1, if_neg (by omega), if_neg (by simp)]; simp
      · intro h; exact absurd (mem_range.2 hi) h
      · intro h; exact absurd (mem_range.2 (by omega)) h
  rw [Matrix.add_mul, Matrix.mul_assoc, hl, hr, hr, Matrix.smul_mul, Matrix.one_mul, mat_smul, mat_add, mat_ext_iff]
  intro j a hj ha
  beta_reduce
  have Hr := inv.rhs j a hj ha
  have Hd : ((d j * d j + tkP (fun j => e j * e j) j + tkS lam low n j * tkS lam low n j : ℝ) : 𝕜) =
      ((d0 j * d0 j + tkP (fun j => e0 j * e0 j) j + lam * lam : ℝ) : 𝕜) := congrArg _ (inv.diag j hj)
  have e0S : tkS lam low n j = 0 := by unfold tkS; rw [if_pos hj]
  rw [e0S] at Hr Hd
  have Hx := hx j a hj ha
  have Ho : j + 1 < n → (d j : 𝕜) * e j = (d0 j : 𝕜) * e0 j := fun h => by exact_mod_cast inv.off j h
  have Ho' : 0 < j → (d (j - 1) : 𝕜) * e (j - 1) = (d0 (j - 1) : 𝕜) * e0 (j - 1) := fun h => by
    exact_mod_cast inv.off (j - 1) (by omega)
  have Hx' : 0 < j → (d (j - 1) : 𝕜) * x (j - 1) a + (e (j - 1) : 𝕜) * x j a = c (j - 1) a := fun h => by
    have := hx (j - 1) a (by omega) ha
    rw [if_pos (by omega), show j - 1 + 1 = j by omega] at this
    exact this
  unfold tkP at *
  by_cases z : j = 0
  · simp only [if_pos z] at *
    push_cast at Hd
    simp only [RCLike.ofReal_zero, zero_mul, add_zero, mul_zero] at Hd Hr
    rw [← Hr]
    simp only [add_zero]
    by_cases q : j + 1 < n
    · rw [if_pos q] at Hx ⊢
      linear_combination -(x j a) * Hd - x (j + 1) a * Ho q + (d j : 𝕜) * Hx
    · rw [if_neg q] at Hx ⊢
      linear_combination -(x j a) * Hd + (d j : 𝕜) * Hx
  · simp only [if_neg z] at *
    push_cast at Hd
    simp only [RCLike.ofReal_zero, zero_mul, add_zero, mul_zero] at Hd Hr
    rw [← Hr]
    have e1 : j - 1 + 1 = j := by omega
    rw [e1, if_pos hj]
    have Hx2 := Hx' (by omega)
    have Ho2 := Ho' (by omega)
    by_cases q : j + 1 < n
    · rw [if_pos q] at Hx ⊢
      linear_combination -(x j a) * Hd - x (j + 1) a * Ho q + (d j : 𝕜) * Hx + (e (j - 1) : 𝕜) * Hx2 - x (j - 1) a * Ho2
    · rw [if_neg q] at Hx ⊢
      linear_combination -(x j a) * Hd + (d j : 𝕜) * Hx + (e (j - 1) : 𝕜) * Hx2 - x (j - 1) a * Ho2

/-- From the bidiagonal problem to the original one. -/
theorem elden_normal {m n k : Nat} (hle : n ≤ m) {lam : ℝ} {A0 B B0 B1 Y : Nat → Nat → 𝕜} {Q : Matrix (Fin m) (Fin m) 𝕜} {Z : Matrix (Fin n) (Fin n) 𝕜}
    {X : Matrix (Fin n) (Fin k) 𝕜} (hA : mat m n A0 = Q * mat m n B * Zᴴ) (hQ : Qᴴ * Q = 1) (hZ : Zᴴ * Z = 1) (hB : ∀ i j, j < i → B i j = 0)
    (hb : mat m k B1 = Qᴴ * mat m k B0) (hX : X = Z * mat n k Y)
    (h : ((mat n n B)ᴴ * mat n n B + ((lam : 𝕜) ^ 2) • 1) * mat n k Y = (mat n n B)ᴴ * mat n k B1) :
    ((mat m n A0)ᴴ * mat m n A0 + ((lam : 𝕜) ^ 2) • 1) * X = (mat m n A0)ᴴ * mat m k B0 := by
  have t1 : (mat m n B)ᴴ * mat m n B = (mat n n B)ᴴ * mat n n B := mul_top hle fun i j hi _ hj => hB i j (by omega)
  have t2 : (mat m n B)ᴴ * mat m k B1 = (mat n n B)ᴴ * mat n k B1 := mul_top hle fun i j hi _ hj => hB i j (by omega)
  have g : (mat m n A0)ᴴ * mat m n A0 = Z * ((mat n n B)ᴴ * mat n n B) * Zᴴ := by
    rw [← t1, hA, conjTranspose_mul, conjTranspose_mul, conjTranspose_conjTranspose]
    calc Z * ((mat m n B)ᴴ * Qᴴ) * (Q * mat m n B * Zᴴ) = Z * ((mat m n B)ᴴ * (Qᴴ * Q) * mat m n B) * Zᴴ := by simp only [Matrix.mul_assoc]
      _ = _ := by rw [hQ, Matrix.mul_one]
  have r : (mat m n A0)ᴴ * mat m k B0 = Z * ((mat n n B)ᴴ * mat n k B1) := by
    rw [← t2, hA, conjTranspose_mul, conjTranspose_mul, conjTranspose_conjTranspose, hb]
    simp only [Matrix.mul_assoc]
  rw [g, r, hX, ← h, Matrix.add_mul, Matrix.add_mul, Matrix.mul_add, Matrix.smul_mul, Matrix.smul_mul, Matrix.one_mul, Matrix.one_mul, Matrix.mul_smul]
  congr 1
  calc Z * ((mat n n B)ᴴ * mat n n B) * Zᴴ * (Z * mat n k Y) = Z * ((mat n n B)ᴴ * mat n n B) * (Zᴴ * Z) * mat n k Y := by simp only [Matrix.mul_assoc]
    _ = _ := by rw [hZ, Matrix.mul_one]; simp only [Matrix.mul_assoc]

/-- The diagonal of the bidiagonal factor of a matrix of full column rank. -/
theorem bid_diag_ne {m n : Nat} (hle : n ≤ m) {A0 B : Nat → Nat → 𝕜} {Q : Matrix (Fin m) (Fin m) 𝕜} {Z : Matrix (Fin n) (Fin n) 𝕜}
    (hA : mat m n A0 = Q * mat m n B * Zᴴ) (hQ : Qᴴ * Q = 1) (hZ : Zᴴ * Z = 1) (hB : ∀ i j, j < i → B i j = 0)
    (hinj : Function.Injective (mat m n A0).mulVec) {i : Nat} (hi : i < n) : B i i ≠ 0 := by
  have hZ' : Z * Zᴴ = 1 := mul_eq_one_comm.1 hZ
  have iZ : Function.Injective Z.mulVec := fun u v h => by
    have := congrArg (Zᴴ).mulVec h
    simpa [Matrix.mulVec_mulVec, hZ] using this
  have hP := tik_posDef (A := mat m n A0 * Z) (lam := 0) (.inr (fun u v h => by
    rw [← Matrix.mulVec_mulVec, ← Matrix.mulVec_mulVec] at h
    exact iZ (hinj h)))
  have hT : ∀ a b, triF .Upper .NonUnit B a b = B a b := fun a b => by
    by_cases q : a ≤ b
    · exact triU_above q
    · rw [triU_below (by omega), hB a b (by omega)]
  have hT' : triF .Upper .NonUnit B = B := by funext a b; exact hT a b
  refine triU_diag_ne (G := B) hP ?_ hi
  rw [hT', hA]
  simp only [RCLike.ofReal_zero, ne_eq, OfNat.ofNat_ne_zero, not_false_eq_true, zero_pow, zero_smul, add_zero]
  rw [Matrix.mul_assoc, Matrix.mul_assoc, hZ, Matrix.mul_one, conjTranspose_mul]
  rw [show (mat m n B)ᴴ * Qᴴ * (Q * mat m n B) = (mat m n B)ᴴ * (Qᴴ * Q) * mat m n B by simp only [Matrix.mul_assoc], hQ, Matrix.mul_one]
  exact (mul_top hle fun i j hi _ hj => hB i j (by omega)).symm

end TLA
