import Verif.Core
import Verif.Model.Kernel
import Mathlib.Data.Real.Basic
import Mathlib.Data.Matrix.Basic
import Mathlib.Logic.Equiv.Basic
import Mathlib.Algebra.Order.Group.Abs

/-!
# lasy2: small Sylvester equations

As in Model/Kernel.lean: exact arithmetic, `none` for a division by zero.  The local arrays T16, btmp, tmp and jpiv are functions on
`Fin 4`; the loops over them that assign every element once are written as the function they compute.
-/

namespace TLA.Kernel

/-- The local state of the elimination (lasy2.hpp:101-105, 75). -/
structure La2State where
  T : Fin 4 → Fin 4 → ℝ
  b : Fin 4 → ℝ
  piv : Fin 4 → Fin 4
  info : Nat

/-- lasy2.hpp:157-166: the search for the pivot; the loops visit the pairs in lexicographic order. -/
noncomputable def la2Pivot (T : Fin 4 → Fin 4 → ℝ) (i : Fin 4) : ℝ × Fin 4 × Fin 4 :=
  ((List.finRange 4 ×ˢ List.finRange 4).filter fun x => i ≤ x.1 ∧ i ≤ x.2).foldl
    (fun acc x => if |T x.1 x.2| ≥ acc.1 then (|T x.1 x.2|, x.1, x.2) else acc) (0, i, i)

/-- lasy2.hpp:180-184 and 194-198: a small pivot is replaced by `smin`. -/
noncomputable def la2Guard (smin : ℝ) (i : Fin 4) (T : Fin 4 → Fin 4 → ℝ) (r k : Fin 4) : ℝ :=
  if |T i i| < smin ∧ r = i ∧ k = i then smin else T r k

/-- lasy2.hpp:185-191: elimination. -/
noncomputable def la2Elim (i : Fin 4) (T : Fin 4 → Fin 4 → ℝ) (b : Fin 4 → ℝ) (piv : Fin 4 → Fin 4) (info : Nat) : Option La2State :=
  if T i i = 0 then none
  else
    some ⟨fun r k => if i < r then (if k = i then T r i / T i i else if i < k then T r k - T r i / T i i * T i k else T r k) else T r k,
      fun r => if i < r then b r - T r i / T i i * b i else b r, piv, info⟩

/-- One pass of the loop lasy2.hpp:153-192.  Lines 167-179 exchange rows and columns only if the indices differ, which changes nothing. -/
noncomputable def la2Step (smin : ℝ) (i : Fin 4) (st : La2State) : Option La2State :=
  let p := (la2Pivot st.T i).2.1
  let q := (la2Pivot st.T i).2.2
  let T1 := fun r k => st.T (Equiv.swap i p r) (Equiv.swap i q k)
  let b1 := fun r => st.b (Equiv.swap i p r)
  la2Elim i (la2Guard smin i T1) b1 (fun k => if k = i then q else st.piv k) (if |T1 i i| < smin then 1 else st.info)

/-- lasy2.hpp:210-217: back substitution. -/
noncomputable def la2Back (T : Fin 4 → Fin 4 → ℝ) (b : Fin 4 → ℝ) : Option (Fin 4 → ℝ) := do
  let u3 ← dv 1 (T 3 3)
  let t3 := b 3 * u3
  let u2 ← dv 1 (T 2 2)
  let t2 := b 2 * u2 - (u2 * T 2 3) * t3
  let u1 ← dv 1 (T 1 1)
  let t1 := b 1 * u1 - (u1 * T 1 2) * t2 - (u1 * T 1 3) * t3
  let u0 ← dv 1 (T 0 0)
  let t0 := b 0 * u0 - (u0 * T 0 1) * t1 - (u0 * T 0 2) * t2 - (u0 * T 0 3) * t3
  pure ![t0, t1, t2, t3]

/-- lasy2.hpp:113-145: the matrix of the Kronecker form. -/
noncomputable def la2Kron (tl tr : Op) (sgn : ℝ) (TL TR : Nat → Nat → ℝ) : Fin 4 → Fin 4 → ℝ :=
  let a := if tl = .Trans then TL 1 0 else TL 0 1
  let a' := if tl = .Trans then TL 0 1 else TL 1 0
  let b := if tr = .Trans then sgn * TR 0 1 else sgn * TR 1 0
  let b' := if tr = .Trans then sgn * TR 1 0 else sgn * TR 0 1
  ![![TL 0 0 + sgn * TR 0 0, a, b, 0],
    ![a', TL 1 1 + sgn * TR 0 0, 0, b],
    ![b', 0, TL 0 0 + sgn * TR 1 1, a],
    ![0, b', a', TL 1 1 + sgn * TR 1 1]]

/-- lasy2.hpp:107-111. -/
noncomputable def la2Smin (eps small : ℝ) (TL TR : Nat → Nat → ℝ) : ℝ :=
  max (eps * max (max (max |TR 0 0| |TR 0 1|) (max |TR 1 0| |TR 1 1|)) (max (max |TL 0 0| |TL 0 1|) (max |TL 1 0| |TL 1 1|))) small

/-- Outcome of a call: return value, `scale`, `xnorm` and the elements of `X`. -/
structure La2Out where
  info : Nat
  scale : ℝ
  xnorm : ℝ
  X : Nat → Nat → ℝ

/-- lasy2.hpp:200-203: whether the right hand side has to be scaled. -/
noncomputable def la2Big (small : ℝ) (T : Fin 4 → Fin 4 → ℝ) (b : Fin 4 → ℝ) : Bool :=
  decide ((8 * small) * |b 0| > |T 0 0| ∨ (8 * small) * |b 1| > |T 1 1| ∨ (8 * small) * |b 2| > |T 2 2| ∨ (8 * small) * |b 3| > |T 3 3|)

/-- lasy2.hpp:194-231: the last pivot, scaling, back substitution, interchanges and norm. -/
noncomputable def la2Finish (smin small : ℝ) (st : La2State) : Option La2Out :=
  let info := if |st.T 3 3| < smin then 1 else st.info
  let T := la2Guard smin 3 st.T
  (if la2Big small T st.b then dv (1 / 8) (max (max |st.b 0| |st.b 1|) (max |st.b 2| |st.b 3|)) else some 1 : Option ℝ).bind fun scale =>
  (la2Back T (fun r => if la2Big small T st.b then st.b r * scale else st.b r)).bind fun t =>
  let z := fun k => t (Equiv.swap 2 (st.piv 2) (Equiv.swap 1 (st.piv 1) (Equiv.swap 0 (st.piv 0) k)))
  some ⟨info, scale, max (|z 0| + |z 2|) (|z 1| + |z 3|),
    fun i j => if j = 0 then (if i = 0 then z 0 else z 1) else (if i = 0 then z 2 else z 3)⟩

/-- lasy2.hpp:77-92: order one. -/
noncomputable def la2One (small sgn tl tr b : ℝ) : Option La2Out := do
  let tau := tl + sgn * tr
  let tiny := |tau| < small
  let tau1 := if tiny then small else tau
  let bet := if tiny then small else |tau|
  let scale ← (if small * |b| > bet then dv 1 |b| else pure 1 : Option ℝ)
  let x ← dv (b * scale) tau1
  pure ⟨if tiny then 1 else 0, scale, |x|, fun _ _ => x⟩

/-- lapack/lasy2.hpp:42-235 with `isign = sgn`.  `.error ()` is the exception of lines 94-96. -/
noncomputable def lasy2 (eps small : ℝ) (tl tr : Op) (sgn : ℝ) (n1 n2 : Nat) (TL TR B X0 : Nat → Nat → ℝ) : Option (Except Unit La2Out) :=
  if n1 = 0 ∨ n2 = 0 then some (.ok ⟨0, 1, 0, X0⟩)
  else if n1 = 1 ∧ n2 = 1 then (la2One small sgn (TL 0 0) (TR 0 0) (B 0 0)).map .ok
  else if (n1 = 2 ∧ n2 = 1) ∨ (n1 = 1 ∧ n2 = 2) then some (.error ())
  else if n1 = 2 ∧ n2 = 2 then do
    let smin := la2Smin eps small TL TR
    let s1 ← la2Step smin 0 ⟨la2Kron tl tr sgn TL TR, ![B 0 0, B 1 0, B 0 1, B 1 1], fun _ => 0, 0⟩
    let s2 ← la2Step smin 1 s1
    let s3 ← la2Step smin 2 s2
    let r ← la2Finish smin small s3
    pure (.ok r)
  else some (.ok ⟨0, 1, 0, X0⟩)

end TLA.Kernel
