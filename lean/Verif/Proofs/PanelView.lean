import Verif.Proofs.Larfb
import Verif.Proofs.Potf2
set_option linter.unusedTactic false
set_option linter.unusedVariables false
set_option linter.unreachableTactic false
set_option linter.unusedSectionVars false

/-! # Parts of a matrix view: disjointness and frames -/

namespace TLA
open Finset
variable {L T : Type}

theorem colv_sub {A : MatV L} {r0 r1 c a b : Nat} : (A.colv r0 r1 c).sub a b = A.colv (r0 + a) (r0 + b) c := by
  unfold MatV.colv VecV.sub
  congr 1
  · omega
  · funext i; dsimp only; rw [Nat.add_assoc]

theorem rowv_sub {A : MatV L} {r c0 c1 a b : Nat} : (A.rowv r c0 c1).sub a b = A.rowv r (c0 + a) (c0 + b) := by
  unfold MatV.rowv VecV.sub
  congr 1
  · omega
  · funext i; dsimp only; rw [Nat.add_assoc]

theorem sub_sub' {A : MatV L} {r0 r1 c0 c1 a b c d : Nat} :
    (A.sub r0 r1 c0 c1).sub a b c d = A.sub (r0 + a) (r0 + b) (c0 + c) (c0 + d) := by
  unfold MatV.sub
  congr 1
  · omega
  · omega
  · funext i j; dsimp only; rw [Nat.add_assoc, Nat.add_assoc]

theorem sub_colv {A : MatV L} {r0 r1 c0 c1 a b c : Nat} : (A.sub r0 r1 c0 c1).colv a b c = A.colv (r0 + a) (r0 + b) (c0 + c) := by
  unfold MatV.sub MatV.colv
  congr 1
  · omega
  · funext i; dsimp only; congr 1; omega

theorem sub_rowv {A : MatV L} {r0 r1 c0 c1 r a b : Nat} : (A.sub r0 r1 c0 c1).rowv r a b = A.rowv (r0 + r) (c0 + a) (c0 + b) := by
  unfold MatV.sub MatV.rowv
  congr 1
  · omega
  · funext i; dsimp only; congr 1; omega

section same
variable {A : MatV L} (hA : A.Inj)
include hA

theorem sub_djC {r0 r1 c0 c1 a b c : Nat} (h1 : r1 ≤ A.m) (h2 : c1 ≤ A.n) (h3 : b ≤ A.m) (h4 : c < A.n)
    (h : c < c0 ∨ c1 ≤ c ∨ r1 ≤ a ∨ b ≤ r0) : (A.sub r0 r1 c0 c1).DisjV (A.colv a b c) := by
  rintro i j hi hj ⟨x, hx, e⟩
  simp only [MatV.sub, MatV.colv] at hi hj hx e
  have := hA _ _ _ _ (by omega) (by omega) (by omega) (by omega) e
  omega

theorem sub_djR {r0 r1 c0 c1 a b r : Nat} (h1 : r1 ≤ A.m) (h2 : c1 ≤ A.n) (h3 : b ≤ A.n) (h4 : r < A.m)
    (h : r < r0 ∨ r1 ≤ r ∨ c1 ≤ a ∨ b ≤ c0) : (A.sub r0 r1 c0 c1).DisjV (A.rowv r a b) := by
  rintro i j hi hj ⟨x, hx, e⟩
  simp only [MatV.sub, MatV.rowv] at hi hj hx e
  have := hA _ _ _ _ (by omega) (by omega) (by omega) (by omega) e
  omega

theorem row_djC {r c0 c1 a b c : Nat} (h1 : r < A.m) (h2 : c1 ≤ A.n) (h3 : b ≤ A.m) (h4 : c < A.n)
    (h : c < c0 ∨ c1 ≤ c ∨ r < a ∨ b ≤ r) : (A.rowv r c0 c1).Disj (A.colv a b c) := by
  rintro i hi ⟨x, hx, e⟩
  simp only [MatV.rowv, MatV.colv] at hi hx e
  have := hA _ _ _ _ (by omega) (by omega) (by omega) (by omega) e
  omega

theorem col_djR {r c0 c1 a b c : Nat} (h1 : r < A.m) (h2 : c1 ≤ A.n) (h3 : b ≤ A.m) (h4 : c < A.n)
    (h : c < c0 ∨ c1 ≤ c ∨ r < a ∨ b ≤ r) : (A.colv a b c).Disj (A.rowv r c0 c1) := by
  rintro i hi ⟨x, hx, e⟩
  simp only [MatV.rowv, MatV.colv] at hi hx e
  have := hA _ _ _ _ (by omega) (by omega) (by omega) (by omega) e
  omega

theorem col_djC {r0 r1 c0 a b c : Nat} (h1 : r1 ≤ A.m) (h2 : c0 < A.n) (h3 : b ≤ A.m) (h4 : c < A.n)
    (h : c ≠ c0 ∨ r1 ≤ a ∨ b ≤ r0) : (A.colv r0 r1 c0).Disj (A.colv a b c) := by
  rintro i hi ⟨x, hx, e⟩
  simp only [MatV.colv] at hi hx e
  have := hA _ _ _ _ (by omega) (by omega) (by omega) (by omega) e
  omega

theorem row_djR {c0 c1 r0 a b r : Nat} (h1 : c1 ≤ A.n) (h2 : r0 < A.m) (h3 : b ≤ A.n) (h4 : r < A.m)
    (h : r ≠ r0 ∨ c1 ≤ a ∨ b ≤ c0) : (A.rowv r0 c0 c1).Disj (A.rowv r a b) := by
  rintro i hi ⟨x, hx, e⟩
  simp only [MatV.rowv] at hi hx e
  have := hA _ _ _ _ (by omega) (by omega) (by omega) (by omega) e
  omega

end same

section other
variable {A B : MatV L} (hAB : A.Disj B)
include hAB

theorem sub_djC' {r0 r1 c0 c1 a b c : Nat} (h1 : r1 ≤ A.m) (h2 : c1 ≤ A.n) (h3 : b ≤ B.m) (h4 : c < B.n) :
    (A.sub r0 r1 c0 c1).DisjV (B.colv a b c) := by
  rintro i j hi hj ho
  simp only [MatV.sub] at hi hj
  exact hAB _ _ (by omega) (by omega) (ho.colv h3 h4)

theorem sub_djR' {r0 r1 c0 c1 a b r : Nat} (h1 : r1 ≤ A.m) (h2 : c1 ≤ A.n) (h3 : b ≤ B.n) (h4 : r < B.m) :
    (A.sub r0 r1 c0 c1).DisjV (B.rowv r a b) := by
  rintro i j hi hj ho
  simp only [MatV.sub] at hi hj
  exact hAB _ _ (by omega) (by omega) (ho.rowv h4 h3)

theorem col_djC' {r0 r1 c0 a b c : Nat} (h1 : r1 ≤ A.m) (h2 : c0 < A.n) (h3 : b ≤ B.m) (h4 : c < B.n) :
    (A.colv r0 r1 c0).Disj (B.colv a b c) := by
  rintro i hi ho
  simp only [MatV.colv] at hi
  exact hAB _ _ (by omega) (by omega) (ho.colv h3 h4)

theorem row_djC' {r c0 c1 a b c : Nat} (h1 : r < A.m) (h2 : c1 ≤ A.n) (h3 : b ≤ B.m) (h4 : c < B.n) :
    (A.rowv r c0 c1).Disj (B.colv a b c) := by
  rintro i hi ho
  simp only [MatV.rowv] at hi
  exact hAB _ _ (by omega) (by omega) (ho.colv h3 h4)

theorem col_djR' {r0 r1 c0 a b r : Nat} (h1 : r1 ≤ A.m) (h2 : c0 < A.n) (h3 : b ≤ B.n) (h4 : r < B.m) :
    (A.colv r0 r1 c0).Disj (B.rowv r a b) := by
  rintro i hi ho
  simp only [MatV.colv] at hi
  exact hAB _ _ (by omega) (by omega) (ho.rowv h4 h3)

theorem row_djR' {r c0 c1 a b r' : Nat} (h1 : r < A.m) (h2 : c1 ≤ A.n) (h3 : b ≤ B.n) (h4 : r' < B.m) :
    (A.rowv r c0 c1).Disj (B.rowv r' a b) := by
  rintro i hi ho
  simp only [MatV.rowv] at hi
  exact hAB _ _ (by omega) (by omega) (ho.rowv h4 h3)

theorem entry_colO {μ ν : Store L T} {a b c : Nat} (h : OnlyV (B.colv a b c) μ ν) (h3 : b ≤ B.m) (h4 : c < B.n) {i j : Nat}
    (hi : i < A.m) (hj : j < A.n) : entry ν A i j = entry μ A i j :=
  h _ fun ho => hAB i j hi hj (ho.colv h3 h4)

theorem entry_rowO {μ ν : Store L T} {a b r : Nat} (h : OnlyV (B.rowv r a b) μ ν) (h3 : b ≤ B.n) (h4 : r < B.m) {i j : Nat}
    (hi : i < A.m) (hj : j < A.n) : entry ν A i j = entry μ A i j :=
  h _ fun ho => hAB i j hi hj (ho.rowv h4 h3)

theorem entry_matO {μ ν : Store L T} (h : Only B μ ν) {i j : Nat} (hi : i < A.m) (hj : j < A.n) : entry ν A i j = entry μ A i j :=
  h _ (hAB i j hi hj)

end other

theorem OnlyV.ofCol {A : MatV L} {μ ν : Store L T} {a b c : Nat} (h : OnlyV (A.colv a b c) μ ν) (h3 : b ≤ A.m) (h4 : c < A.n) :
    Only A μ ν := fun l hl => h l fun ho => hl (ho.colv h3 h4)

theorem OnlyV.ofRow {A : MatV L} {μ ν : Store L T} {a b r : Nat} (h : OnlyV (A.rowv r a b) μ ν) (h3 : b ≤ A.n) (h4 : r < A.m) :
    Only A μ ν := fun l hl => h l fun ho => hl (ho.rowv h4 h3)

end TLA
