import Verif.SpecSvd
import Verif.Proofs.SteqrAlg
set_option linter.unusedTactic false
set_option linter.unusedVariables false
set_option linter.unusedSimpArgs false
set_option linter.unreachableTactic false

/-! # Algebra of the implicit bidiagonal QR sweeps -/

namespace TLA
open Finset Matrix

/-- An upper bidiagonal matrix over the integers with a bulge at `k`: diagonal entry `a` at `k`, entries `u` at `(k-1,k)`,
`b` at `(k,k+1)` and `w` at `(k-1,k+1)`. -/
def bidZ (d e : ℤ → ℝ) (k : ℤ) (u w a b : ℝ) (r v : ℤ) : ℝ :=
  if r = v then (if r = k then a else d r)
  else if r + 1 = v then (if v = k then u else if r = k then b else e r)
  else if r = k - 1 ∧ v = k + 1 then w else 0

variable {d e : ℤ → ℝ} {k : ℤ} {u w a b : ℝ}

/-- One step of the bulge chase. -/
theorem bidZ_step {d' e' : ℤ → ℝ} {cr sr cl sl u' w' a' b' : ℝ} (h1 : -sr * u + cr * w = 0)
    (h2 : -sl * (cr * a + sr * b) + cl * (sr * d (k + 1)) = 0)
    (hdk : d' k = cl * (cr * a + sr * b) + sl * (sr * d (k + 1))) (hek : e' (k - 1) = cr * u + sr * w)
    (hu : u' = cl * (-sr * a + cr * b) + sl * (cr * d (k + 1))) (hw : w' = sl * e (k + 1))
    (ha : a' = -sl * (-sr * a + cr * b) + cl * (cr * d (k + 1))) (hb : b' = cl * e (k + 1))
    (hd : ∀ j, j ≠ k → j ≠ k + 1 → d' j = d j) (he : ∀ j, j ≠ k - 1 → j ≠ k → j ≠ k + 1 → e' j = e j) (r v : ℤ) :
    prZ k cr sr (fun v => prZ k cl sl (fun r => bidZ d e k u w a b r v) r) v = bidZ d' e' (k + 1) u' w' a' b' r v := by
  have hk1 : k + 1 ≠ k := by omega
  have Z : ∀ r v, bidZ d e k u w a b r v = bidZ d e k u w a b r v := fun _ _ => rfl
  -- the entries involved
  have kk : bidZ d e k u w a b k k = a := by simp [bidZ]
  have kk1 : bidZ d e k u w a b k (k + 1) = b := by simp [bidZ]
  have k1k : bidZ d e k u w a b (k + 1) k = 0 := by unfold bidZ; rw [if_neg (by omega), if_neg (by omega), if_neg (by omega)]
  have k1k1 : bidZ d e k u w a b (k + 1) (k + 1) = d (k + 1) := by simp [bidZ]
  have rowk : ∀ v, v ≠ k → v ≠ k + 1 → bidZ d e k u w a b k v = 0 := by
    intro v h1 h2; unfold bidZ; rw [if_neg (by omega), if_neg (by omega), if_neg (by omega)]
  have rowk1 : ∀ v, v ≠ k → v ≠ k + 1 → bidZ d e k u w a b (k + 1) v = if v = k + 2 then e (k + 1) else 0 := by
    intro v h1 h2; unfold bidZ
    split_ifs <;> first | omega | rfl
  have colk : ∀ r, r ≠ k → r ≠ k + 1 → bidZ d e k u w a b r k = if r = k - 1 then u else 0 := by
    intro v h1 h2; unfold bidZ
    split_ifs <;> first | omega | rfl
  have colk1 : ∀ r, r ≠ k → r ≠ k + 1 → bidZ d e k u w a b r (k + 1) = if r = k - 1 then w else 0 := by
    intro v h1 h2; unfold bidZ
    split_ifs <;> first | omega | rfl
  unfold prZ
  by_cases v1 : v = k
  · subst v1
    rw [if_pos rfl]
    by_cases r1 : r = v
    · subst r1
      simp only [if_true, kk, kk1, k1k, k1k1]
      rw [show bidZ d' e' (r + 1) u' w' a' b' r r = d' r from by simp [bidZ], hdk]
      ring
    · by_cases r2 : r = v + 1
      · subst r2
        simp only [if_neg hk1, if_true, kk, kk1, k1k, k1k1]
        rw [show bidZ d' e' (v + 1) u' w' a' b' (v + 1) v = 0 from by
          unfold bidZ; rw [if_neg (by omega), if_neg (by omega), if_neg (by omega)]]
        linear_combination h2
      · simp only [if_neg r1, if_neg r2, colk r r1 r2, colk1 r r1 r2]
        by_cases r3 : r = v - 1
        · rw [if_pos r3, if_pos r3, show bidZ d' e' (v + 1) u' w' a' b' r v = e' (v - 1) from by
            unfold bidZ; rw [if_neg (by omega), if_pos (by omega), if_neg (by omega), if_neg (by omega), r3], hek]
        · rw [if_neg r3, if_neg r3, show bidZ d' e' (v + 1) u' w' a' b' r v = 0 from by
            unfold bidZ; rw [if_neg (by omega), if_neg (by omega), if_neg (by omega)]]
          ring
  · by_cases v2 : v = k + 1
    · subst v2
      simp only [if_neg hk1, if_true]
      by_cases r1 : r = k
      · subst r1
        simp only [if_true, kk, kk1, k1k, k1k1]
        rw [show bidZ d' e' (r + 1) u' w' a' b' r (r + 1) = u' from by simp [bidZ], hu]
        ring
      · by_cases r2 : r = k + 1
        · subst r2
          simp only [if_neg hk1, if_true, kk, kk1, k1k, k1k1]
          rw [show bidZ d' e' (k + 1) u' w' a' b' (k + 1) (k + 1) = a' from by simp [bidZ], ha]
          ring
        · simp only [if_neg r1, if_neg r2, colk r r1 r2, colk1 r r1 r2]
          by_cases r3 : r = k - 1
          · rw [if_pos r3, if_pos r3, h1]
            unfold bidZ; rw [if_neg (by omega), if_neg (by omega), if_neg (by omega)]
          · rw [if_neg r3, if_neg r3, show bidZ d' e' (k + 1) u' w' a' b' r (k + 1) = 0 from by
              unfold bidZ; rw [if_neg (by omega), if_neg (by omega), if_neg (by omega)]]
            ring
    · simp only [if_neg v1, if_neg v2]
      by_cases r1 : r = k
      · subst r1
        simp only [if_true, rowk v v1 v2, rowk1 v v1 v2]
        by_cases v3 : v = r + 2
        · rw [if_pos v3, show bidZ d' e' (r + 1) u' w' a' b' r v = w' from by
            unfold bidZ; rw [if_neg (by omega), if_neg (by omega), if_pos (by omega)], hw]
          ring
        · rw [if_neg v3, show bidZ d' e' (r + 1) u' w' a' b' r v = 0 from by
            unfold bidZ; rw [if_neg (by omega), if_neg (by omega), if_neg (by omega)]]
          ring
      · by_cases r2 : r = k + 1
        · subst r2
          simp only [if_neg hk1, if_true, rowk v v1 v2, rowk1 v v1 v2]
          by_cases v3 : v = k + 2
          · rw [if_pos v3, show bidZ d' e' (k + 1) u' w' a' b' (k + 1) v = b' from by
              unfold bidZ; rw [if_neg (by omega), if_pos (by omega), if_neg (by omega), if_pos rfl], hb]
            ring
          · rw [if_neg v3, show bidZ d' e' (k + 1) u' w' a' b' (k + 1) v = 0 from by
              unfold bidZ; rw [if_neg (by omega), if_neg (by omega), if_neg (by omega)]]
            ring
        · simp only [if_neg r1, if_neg r2]
          unfold bidZ
          by_cases q1 : r = v
          · rw [if_pos q1, if_pos q1, if_neg r1, if_neg r2, hd r r1 r2]
          · rw [if_neg q1, if_neg q1]
            by_cases q2 : r + 1 = v
            · rw [if_pos q2, if_pos q2, if_neg v1, if_neg r1, if_neg v2, if_neg r2, he r (by omega) r1 r2]
            · rw [if_neg q2, if_neg q2, if_neg (by omega), if_neg (by omega)]

/-- Matrix form, for an injective numbering `f` of the coordinates with neighbours `x`, `y`. -/
theorem bidZ_mat {n : Nat} {f : Nat → ℤ} (hf : Function.Injective f) {x y : Nat} (hx : x < n) (hy : y < n) (hxy : f y = f x + 1)
    {d e d' e' : ℤ → ℝ} {u w a b cr sr cl sl u' w' a' b' : ℝ} (h1 : -sr * u + cr * w = 0)
    (h2 : -sl * (cr * a + sr * b) + cl * (sr * d (f x + 1)) = 0)
    (hdk : d' (f x) = cl * (cr * a + sr * b) + sl * (sr * d (f x + 1))) (hek : e' (f x - 1) = cr * u + sr * w)
    (hu : u' = cl * (-sr * a + cr * b) + sl * (cr * d (f x + 1))) (hw : w' = sl * e (f x + 1))
    (ha : a' = -sl * (-sr * a + cr * b) + cl * (cr * d (f x + 1))) (hb : b' = cl * e (f x + 1))
    (hd : ∀ j, j ≠ f x → j ≠ f x + 1 → d' j = d j) (he : ∀ j, j ≠ f x - 1 → j ≠ f x → j ≠ f x + 1 → e' j = e j) :
    rotMat n x y cl sl * mat n n (fun r v => bidZ d e (f x) u w a b (f r) (f v)) * (rotMat n x y cr sr)ᵀ =
      mat n n (fun r v => bidZ d' e' (f x + 1) u' w' a' b' (f r) (f v)) := by
  have hne : x ≠ y := fun h => by subst h; omega
  rw [← mat_colMap_rot hx hy hne, ← mat_rowMap_rot hx hy hne, mat_ext_iff]
  intro r v _ _
  rw [← bidZ_step h1 h2 hdk hek hu hw ha hb hd he (f r) (f v)]
  have pr : ∀ (c s : ℝ) (g : ℤ → ℝ) (t : Nat), pairRot x y c s (fun t => g (f t)) t = prZ (f x) c s g (f t) := by
    intro c s g t
    unfold pairRot prZ
    by_cases e1 : t = x
    · subst e1; rw [if_pos rfl, if_pos rfl, ← hxy]
    · rw [if_neg e1, if_neg (fun h => e1 (hf h))]
      by_cases e2 : t = y
      · subst e2; rw [if_pos rfl, if_pos hxy, ← hxy]; rfl
      · rw [if_neg e2, if_neg (fun h => e2 (hf (h.trans hxy.symm)))]
  show pairRot x y cr sr (fun v => pairRot x y cl sl (fun r => bidZ d e (f x) u w a b (f r) (f v)) r) v = _
  rw [show (fun v => pairRot x y cl sl (fun r => bidZ d e (f x) u w a b (f r) (f v)) r) =
    fun v => (fun q => prZ (f x) cl sl (fun r => bidZ d e (f x) u w a b r q) (f r)) (f v) from
      funext fun v => pr cl sl (fun r => bidZ d e (f x) u w a b r (f v)) r]
  exact pr cr sr (fun q => prZ (f x) cl sl (fun r => bidZ d e (f x) u w a b r q) (f r)) v

/-- `G` moves only the coordinates below `m`. -/
def ActsBelow {n : Nat} (m : Nat) (G : Matrix (Fin n) (Fin n) ℝ) : Prop :=
  ∀ δ : Fin n → ℝ, (∀ i : Fin n, (i : Nat) < m → δ i = 1) → G * diagonal δ = diagonal δ * G

theorem ActsBelow.one {n m : Nat} : ActsBelow m (1 : Matrix (Fin n) (Fin n) ℝ) := fun δ _ => by simp

theorem ActsBelow.mul {n m : Nat} {G H : Matrix (Fin n) (Fin n) ℝ} (hG : ActsBelow m G) (hH : ActsBelow m H) : ActsBelow m (G * H) := by
  intro δ h
  rw [Matrix.mul_assoc, hH δ h, ← Matrix.mul_assoc, hG δ h, Matrix.mul_assoc]

theorem ActsBelow.tr {n m : Nat} {G : Matrix (Fin n) (Fin n) ℝ} (hG : ActsBelow m G) : ActsBelow m Gᵀ := by
  intro δ h
  have := congrArg transpose (hG δ h)
  rw [transpose_mul, transpose_mul, diagonal_transpose] at this
  exact this.symm

theorem ActsBelow.rot {n m x y : Nat} (hx : x < m) (hy : y < m) (c s : ℝ) : ActsBelow m (rotMat n x y c s) := by
  intro δ h
  ext i j
  rw [mul_diagonal, diagonal_mul]
  simp only [rotMat, mat, of_apply, rotF]
  have hi : (i : Nat) = x ∨ (i : Nat) = y → δ i = 1 := fun q => h i (by omega)
  have hj : (j : Nat) = x ∨ (j : Nat) = y → δ j = 1 := fun q => h j (by omega)
  by_cases q1 : (i : Nat) = x
  · rw [if_pos q1, hi (.inl q1)]
    split_ifs with q2 q3
    · rw [hj (.inl q2)]; ring
    · rw [hj (.inr q3)]; ring
    · ring
  · rw [if_neg q1]
    by_cases q2 : (i : Nat) = y
    · rw [if_pos q2, hi (.inr q2)]
      split_ifs with q3 q4
      · rw [hj (.inl q3)]; ring
      · rw [hj (.inr q4)]; ring
      · ring
    · rw [if_neg q2]
      split_ifs with q3
      · rw [show i = j from Fin.ext q3]; ring
      · ring

/-- `W0 = P W Q` with orthogonal `P`, `Q` moving only coordinates below `m` and `W` bidiagonal up to the bulge at `k`. -/
structure SvInv (n m : Nat) (f : Nat → ℤ) (W0 : Matrix (Fin n) (Fin n) ℝ) (k : ℤ) (u w a b : ℝ) (dz ez : ℤ → ℝ)
    (P Q : Matrix (Fin n) (Fin n) ℝ) : Prop where
  orthP : Pᵀ * P = 1
  orthQ : Q * Qᵀ = 1
  actP : ActsBelow m P
  actQ : ActsBelow m Q
  eq : W0 = P * mat n n (fun r v => bidZ dz ez k u w a b (f r) (f v)) * Q

theorem SvInv.step {n m : Nat} {f : Nat → ℤ} (hf : Function.Injective f) {W0 : Matrix (Fin n) (Fin n) ℝ} {x y : Nat}
    (hx : x < n) (hy : y < n) (hxm : x < m) (hym : y < m) (hxy : f y = f x + 1) {d e d' e' : ℤ → ℝ} {u w a b cr sr cl sl u' w' a' b' : ℝ} {P Q : Matrix (Fin n) (Fin n) ℝ}
    (h : SvInv n m f W0 (f x) u w a b d e P Q) (hr : cr * cr + sr * sr = 1) (hl : cl * cl + sl * sl = 1) (h1 : -sr * u + cr * w = 0)
    (h2 : -sl * (cr * a + sr * b) + cl * (sr * d (f x + 1)) = 0)
    (hdk : d' (f x) = cl * (cr * a + sr * b) + sl * (sr * d (f x + 1))) (hek : e' (f x - 1) = cr * u + sr * w)
    (hu : u' = cl * (-sr * a + cr * b) + sl * (cr * d (f x + 1))) (hw : w' = sl * e (f x + 1))
    (ha : a' = -sl * (-sr * a + cr * b) + cl * (cr * d (f x + 1))) (hb : b' = cl * e (f x + 1))
    (hd : ∀ j, j ≠ f x → j ≠ f x + 1 → d' j = d j) (he : ∀ j, j ≠ f x - 1 → j ≠ f x → j ≠ f x + 1 → e' j = e j) :
    SvInv n m f W0 (f x + 1) u' w' a' b' d' e' (P * (rotMat n x y cl sl)ᵀ) (rotMat n x y cr sr * Q) := by
  have hne : x ≠ y := fun h => by subst h; omega
  obtain ⟨oP, oQ, aP, aQ, eq⟩ := h
  refine ⟨?_, ?_, aP.mul (ActsBelow.rot hxm hym _ _).tr, (ActsBelow.rot hxm hym _ _).mul aQ, ?_⟩
  · rw [transpose_mul, transpose_transpose, Matrix.mul_assoc, ← Matrix.mul_assoc Pᵀ, oP, Matrix.one_mul, rotMat_orth' hx hy hne hl]
  · rw [transpose_mul, Matrix.mul_assoc, ← Matrix.mul_assoc Q, oQ, Matrix.one_mul, rotMat_orth' hx hy hne hr]
  · rw [← bidZ_mat hf hx hy hxy h1 h2 hdk hek hu hw ha hb hd he, eq]
    have ol := rotMat_orth hx hy hne hl
    have or' := rotMat_orth hx hy hne hr
    generalize mat n n (fun r v => bidZ d e (f x) u w a b (f r) (f v)) = W
    generalize rotMat n x y cl sl = A at ol
    generalize rotMat n x y cr sr = B at or'
    calc P * W * Q = P * (1 * W * 1) * Q := by rw [Matrix.one_mul, Matrix.mul_one]
      _ = P * ((Aᵀ * A) * W * (Bᵀ * B)) * Q := by rw [ol, or']
      _ = _ := by simp only [Matrix.mul_assoc]

theorem SvInv.congr {n m : Nat} {f : Nat → ℤ} {W0 : Matrix (Fin n) (Fin n) ℝ} {k : ℤ} {u w a b : ℝ} {d e d' e' : ℤ → ℝ}
    {P Q : Matrix (Fin n) (Fin n) ℝ} (h : SvInv n m f W0 k u w a b d e P Q) {u' w' a' b' : ℝ} (hu : u' = u) (hw : w' = w) (ha : a' = a)
    (hb : b' = b) (hd : ∀ j, j ≠ k → d' j = d j) (he : ∀ j, j ≠ k - 1 → j ≠ k → e' j = e j) :
    SvInv n m f W0 k u' w' a' b' d' e' P Q := by
  subst hu hw ha hb
  refine ⟨h.orthP, h.orthQ, h.actP, h.actQ, ?_⟩
  rw [h.eq]
  congr 2
  rw [mat_ext_iff]
  intro r v _ _
  unfold bidZ
  by_cases q1 : f r = f v
  · rw [if_pos q1, if_pos q1]
    by_cases q : f r = k
    · rw [if_pos q, if_pos q]
    · rw [if_neg q, if_neg q, hd _ q]
  · rw [if_neg q1, if_neg q1]
    by_cases q2 : f r + 1 = f v
    · rw [if_pos q2, if_pos q2]
      by_cases q : f v = k
      · rw [if_pos q, if_pos q]
      · rw [if_neg q, if_neg q]
        by_cases q' : f r = k
        · rw [if_pos q', if_pos q']
        · rw [if_neg q', if_neg q', he _ (by omega) q']
    · rw [if_neg q2, if_neg q2]

/-! ### The two numberings -/

theorem bid_up {n : Nat} {d e : Nat → ℝ} (k : ℤ) :
    mat n n (bidR false d e) = mat n n (fun r v => bidZ (dUp d) (eUp n e) k (eUp n e (k - 1)) 0 (dUp d k) (eUp n e k) (r : ℤ) (v : ℤ)) := by
  rw [mat_ext_iff]
  intro r v hr hv
  unfold bidR bidZ
  by_cases q1 : r = v
  · rw [if_pos q1, if_pos (by omega)]
    by_cases q : (r : ℤ) = k
    · rw [if_pos q, ← q]; simp [dUp]
    · rw [if_neg q]; simp [dUp]
  · rw [if_neg q1, if_neg (show ¬ (r : ℤ) = v by omega)]
    by_cases q2 : r + 1 = v
    · rw [if_pos ⟨rfl, q2⟩, if_pos (show (r : ℤ) + 1 = v by omega)]
      have ev : eUp n e r = e r := by unfold eUp; rw [if_pos (by omega)]; rfl
      by_cases q : (v : ℤ) = k
      · rw [if_pos q, ← q, show (v : ℤ) - 1 = r by omega, ev]
      · rw [if_neg q]
        by_cases q' : (r : ℤ) = k
        · rw [if_pos q', ← q', ev]
        · rw [if_neg q', ev]
    · rw [if_neg (by tauto), if_neg (by simp), if_neg (show ¬ (r : ℤ) + 1 = v by omega)]
      split_ifs <;> rfl

theorem bid_dn {n : Nat} {d e : Nat → ℝ} (k : ℤ) :
    (mat n n (bidR false d e))ᵀ =
      mat n n (fun r v => bidZ (dDn d) (eDn n e) k (eDn n e (k - 1)) 0 (dDn d k) (eDn n e k) (-(r : ℤ)) (-(v : ℤ))) := by
  rw [show (mat n n (bidR false d e))ᵀ = mat n n (fun r v => bidR false d e v r) from rfl, mat_ext_iff]
  intro r v hr hv
  unfold bidR bidZ
  by_cases q1 : r = v
  · rw [if_pos q1.symm, if_pos (by omega)]
    by_cases q : -(r : ℤ) = k
    · rw [if_pos q, ← q, q1]; simp [dDn]
    · rw [if_neg q, q1]; simp [dDn]
  · rw [if_neg (Ne.symm q1), if_neg (show ¬ -(r : ℤ) = -v by omega)]
    by_cases q2 : v + 1 = r
    · rw [if_pos ⟨rfl, q2⟩, if_pos (show -(r : ℤ) + 1 = -v by omega)]
      have ev : eDn n e (-r) = e v := by unfold eDn; rw [if_pos (by omega)]; congr 1; omega
      by_cases q : -(v : ℤ) = k
      · rw [if_pos q, ← q, show -(v : ℤ) - 1 = -r by omega, ev]
      · rw [if_neg q]
        by_cases q' : -(r : ℤ) = k
        · rw [if_pos q', ← q', ev]
        · rw [if_neg q', ev]
    · rw [if_neg (by tauto), if_neg (by simp), if_neg (show ¬ -(r : ℤ) + 1 = -v by omega)]
      split_ifs <;> rfl

/-- Start of a sweep. -/
theorem SvInv.start {n m : Nat} {f : Nat → ℤ} {W0 : Matrix (Fin n) (Fin n) ℝ} {k : ℤ} {dz ez : ℤ → ℝ}
    (h0 : ez (k - 1) = 0) (h : W0 = mat n n (fun r v => bidZ dz ez k (ez (k - 1)) 0 (dz k) (ez k) (f r) (f v))) :
    SvInv n m f W0 k 0 0 (dz k) (ez k) dz ez 1 1 := by
  refine ⟨by simp, by simp, ActsBelow.one, ActsBelow.one, ?_⟩
  rw [h, h0]
  simp

theorem rotMat_swap {n x y : Nat} (hne : x ≠ y) (c s : ℝ) : rotMat n x y c (-s) = rotMat n y x c s := by
  ext i j
  simp only [rotMat, mat, of_apply, rotF]
  split_ifs <;> first | rfl | omega | simp

end TLA
