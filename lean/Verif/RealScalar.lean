import Verif.Model.Chol
import Mathlib.Analysis.RCLike.Basic
import Mathlib.Analysis.Complex.Basic

/-!
# Exact scalars: the real and the complex numbers

Interpretation of `real`, `imag`, `sqrt`, `<`, `<=` over `ℝ` and `ℂ` (any `RCLike` field).
This is where the theorems about factorizations leave floating point: arithmetic is exact.
-/

namespace TLA
variable {𝕜 : Type} [RCLike 𝕜]

noncomputable instance instReImRC : ReIm 𝕜 :=
  ⟨fun z => ((RCLike.re z : ℝ) : 𝕜), fun z => ((RCLike.im z : ℝ) : 𝕜)⟩

noncomputable instance instRealOpsRC : RealOps 𝕜 where
  sqrt z := ((Real.sqrt (RCLike.re z) : ℝ) : 𝕜)
  lt a b := decide (RCLike.re a < RCLike.re b)
  le a b := decide (RCLike.re a ≤ RCLike.re b)

theorem re_def (z : 𝕜) : (re z : 𝕜) = ((RCLike.re z : ℝ) : 𝕜) := rfl
theorem im_def (z : 𝕜) : (im z : 𝕜) = ((RCLike.im z : ℝ) : 𝕜) := rfl

/-- The real and the complex numbers are exact scalars in the sense of Core.lean. -/
instance instExactRC : ExactScalar 𝕜 where
  re_add a b := by simp [re_def]
  re_mul a b := by simp [re_def, im_def, RCLike.mul_re]
  star_re a := by simp [re_def]
  star_im a := by simp [im_def]
  re_of_star a h := by
    rw [re_def]; exact RCLike.conj_eq_iff_re.1 (by simpa using h)
  im_of_star a h := by
    have := RCLike.conj_eq_iff_im.1 (by simpa using h)
    simp [im_def, this]
  re_star a := by simp [re_def]
  im_star a := by simp [im_def]
  add_star a := by
    have := RCLike.add_conj a
    simp only [re_def]
    rw [show star a = (starRingEnd 𝕜) a from rfl, this]; ring

end TLA
