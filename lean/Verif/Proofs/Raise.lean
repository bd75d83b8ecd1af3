import Verif.Model.Chol
import Verif.Wp

/-! Error macros and argument checks. -/

namespace TLA
variable {L T : Type}

@[simp] theorem wp_raise {thr : Bool} {k : Nat} {μ : Store L T} {Q E} :
    wp (raise thr k : M L T Unit) μ Q E ↔ if thr = true then E (.runtime k) μ else Q () μ := by
  unfold raise; split <;> simp_all

theorem wp_vgetE {x : VecV L} {i : Nat} {μ : Store L T} {Q E} (h : i < x.n)
    (hQ : Q (μ (x.cell i)) μ) : wp (x.get i) μ Q E :=
  wp_conseq (Q := fun v ν => v = μ (x.cell i) ∧ ν = μ) (wp_vget.2 ⟨h, rfl, rfl⟩)
    (by rintro _ _ ⟨rfl, rfl⟩; exact hQ)

theorem wp_vsetE [DecidableEq L] {x : VecV L} {i : Nat} {v : T} {μ : Store L T} {Q E} (h : i < x.n)
    (hQ : Q () (upd μ (x.cell i) v)) : wp (x.set i v) μ Q E :=
  wp_conseq (Q := fun _ ν => ν = upd μ (x.cell i) v) (wp_vset.2 ⟨h, rfl⟩) (by rintro _ _ rfl; exact hQ)

theorem wp_vmodifyE [DecidableEq L] {x : VecV L} {i : Nat} {f : T → T} {μ : Store L T} {Q E}
    (h : i < x.n) (hQ : Q () (upd μ (x.cell i) (f (μ (x.cell i))))) : wp (x.modify i f) μ Q E :=
  wp_conseq (Q := fun _ ν => ν = upd μ (x.cell i) (f (μ (x.cell i)))) (wp_vmodify.2 ⟨h, rfl⟩)
    (by rintro _ _ rfl; exact hQ)

theorem wp_setE [DecidableEq L] {A : MatV L} {i j : Nat} {v : T} {μ : Store L T} {Q E}
    (h : i < A.m ∧ j < A.n) (hQ : Q () (upd μ (A.cell i j) v)) : wp (A.set i j v) μ Q E :=
  wp_conseq (Q := fun _ ν => ν = upd μ (A.cell i j) v) (wp_set.2 ⟨h, rfl⟩) (by rintro _ _ rfl; exact hQ)

theorem wp_modifyE [DecidableEq L] {A : MatV L} {i j : Nat} {f : T → T} {μ : Store L T} {Q E}
    (h : i < A.m ∧ j < A.n) (hQ : Q () (upd μ (A.cell i j) (f (μ (A.cell i j))))) :
    wp (A.modify i j f) μ Q E :=
  wp_conseq (Q := fun _ ν => ν = upd μ (A.cell i j) (f (μ (A.cell i j)))) (wp_modify.2 ⟨h, rfl⟩)
    (by rintro _ _ rfl; exact hQ)

theorem wp_squareTriChecks [DecidableEq L] {uplo : Uplo} (hu : uplo = .Upper ∨ uplo = .Lower) {A : MatV L}
    (h : A.m = A.n) {μ : Store L T} {Q : Unit → Store L T → Prop} {E} (hQ : Q () μ) :
    wp (squareTriChecks uplo A) μ Q E := by
  unfold squareTriChecks
  simp only [wp_bind, wp_check]
  rw [if_pos (by rcases hu with rfl | rfl <;> rfl), if_pos (by simpa using h)]
  exact hQ

end TLA
