import Verif.Proofs.QrRoutines
import Verif.Proofs.HouseApply
import Verif.Proofs.HouseGenLoops

/-! From the loop invariants of the factorization and generation routines to statements about
`houseQ`. -/

set_option linter.unusedSectionVars false

namespace TLA
open Finset
variable {L 𝕜 : Type} [DecidableEq L] [RCLike 𝕜] [DecidableEq 𝕜] {p : HhPar}

theorem reverse_range_map {α : Type} (k : Nat) (f : Nat → α) :
    (List.range k).reverse.map f = (List.range k).map (fun i => f (k - 1 - i)) := by
  apply List.ext_getElem
  · simp
  · intro i h1 h2
    simp at h1 h2 ⊢

theorem houseQ_cols (dir : Direction) (m n k : Nat) (G : Nat → Nat → 𝕜) (g : Nat → 𝕜) :
    houseQ dir .Columnwise m k (fun r i => G r (qcol dir n k i)) g =
      ((List.range k).map fun i => qH dir m n k G g (qidx dir k i)).prod := by
  cases dir with
  | Forward => rfl
  | Backward =>
    unfold houseQ
    simp only []
    rw [reverse_range_map]
    rfl

theorem houseQ_rows (dir : Direction) (q k : Nat) (V : Nat → Nat → 𝕜) (t : Nat → 𝕜) :
    houseQ dir .Rowwise q k V t =
      (houseQ dir .Columnwise q k (fun r i => star (V i r)) t).conjTranspose := by
  have h : ∀ i, houseH dir .Rowwise q k V t i = houseH dir .Columnwise q k (fun r i => star (V i r)) t i :=
    fun i => rfl
  cases dir with
  | Forward =>
    unfold houseQ
    simp only []
    rw [Matrix.conjTranspose_list_prod]
    simp only [List.map_map, ← List.map_reverse]
    rfl
  | Backward =>
    unfold houseQ
    simp only []
    rw [Matrix.conjTranspose_list_prod]
    simp only [List.map_map, ← List.map_reverse, List.reverse_reverse]
    rfl

theorem QRInv.houseQ {dir : Direction} {m n k : Nat} {A0 G : Nat → Nat → 𝕜} {g : Nat → 𝕜}
    (h : QRInv dir m n k A0 k G g) :
    mat m n A0 = houseQ dir .Columnwise m k (fun r i => G r (qcol dir n k i)) g * mat m n (qR dir m n k G) ∧
    (houseQ dir .Columnwise m k (fun r i => G r (qcol dir n k i)) g).conjTranspose *
      houseQ dir .Columnwise m k (fun r i => G r (qcol dir n k i)) g = 1 := by
  rw [houseQ_cols]
  exact ⟨h.prod.symm, conj_prod_unitary _ _ fun i hi => h.unit i (List.mem_range.1 hi)⟩

theorem QRInv.diag {dir : Direction} {m n k : Nat} {A0 G : Nat → Nat → 𝕜} {g : Nat → 𝕜}
    (h : QRInv dir m n k A0 k G g) {i : Nat} (hi : i < k) :
    star (G (hpiv dir m k i) (qcol dir n k i)) = G (hpiv dir m k i) (qcol dir n k i) := by
  have := h.real (qidx dir k i) (by unfold qidx; split <;> omega)
  have e : qidx dir k (qidx dir k i) = i := by unfold qidx; split <;> omega
  rwa [e] at this

/-- The first or last `n` columns of `houseQ`, generated. -/
theorem UInv.houseQ {dir : Direction} {m n k j : Nat} {G0 G : Nat → Nat → 𝕜} {t : Nat → 𝕜} (hk : k ≤ n)
    (hj : j = if dir = .Forward then 0 else k)
    (h : UInv dir m n k (fun i => mat m m (reflF (t i) (houseVec dir .Columnwise m k
      (fun r i => G0 r (qcol dir n k i)) i))) G0 j G) :
    mat m n G = houseQ dir .Columnwise m k (fun r i => G0 r (qcol dir n k i)) t * mat m n (eyeF dir m n) := by
  obtain ⟨F, hF, hd, -⟩ := h.new
  have e : mat m n G = mat m n F := by
    rw [mat_ext_iff]
    intro r c hr hc
    refine hd r c hr hc ?_
    unfold ungDone
    rw [hj]
    split <;> simp_all
  rw [e, hF]
  congr 1
  unfold TLA.houseQ ungList
  subst hj
  cases dir with
  | Forward => simp [List.range_eq_range']; rfl
  | Backward => simp; rfl

end TLA
