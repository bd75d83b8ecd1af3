import Verif.Proofs.HouseFinal

/-! Algebra of block reflectors `I - U T U^H`. -/

set_option linter.unusedSectionVars false

namespace TLA
open Finset
variable {𝕜 : Type} [RCLike 𝕜]

/-- Entries of `I - U T U^H` restricted to the reflectors in `S`. -/
def blkF (S : Finset Nat) (u : Nat → Nat → 𝕜) (Tf : Nat → Nat → 𝕜) : Nat → Nat → 𝕜 := fun r c =>
  (if r = c then 1 else 0) - ∑ a ∈ S, ∑ b ∈ S, u a r * Tf a b * star (u b c)

/-- Inner products of the reflector vectors. -/
def gramF (q : Nat) (u : Nat → Nat → 𝕜) : Nat → Nat → 𝕜 := fun b i =>
  ∑ s ∈ range q, star (u b s) * u i s

theorem blk_step {q : Nat} {S : Finset Nat} {u : Nat → Nat → 𝕜} {Tf : Nat → Nat → 𝕜} {i : Nat} {t : 𝕜}
    (hi : i ∉ S) (hd : Tf i i = t) (hz : ∀ b ∈ S, Tf i b = 0)
    (ho : ∀ a ∈ S, Tf a i = -t * ∑ b ∈ S, Tf a b * gramF q u b i) :
    mat q q (blkF (insert i S) u Tf) = mat q q (blkF S u Tf) * mat q q (reflF t (u i)) := by
  rw [← mat_applyR, mat_ext_iff]
  intro r c hr hc
  unfold applyR
  have h1 : ∑ s ∈ range q, blkF S u Tf r s * u i s = u i r -
      ∑ a ∈ S, u a r * ∑ b ∈ S, Tf a b * gramF q u b i := by
    unfold blkF
    simp only [sub_mul, ite_mul, one_mul, zero_mul, Finset.sum_sub_distrib]
    rw [Finset.sum_ite_eq, if_pos (mem_range.2 hr)]
    congr 1
    simp only [Finset.sum_mul]
    rw [Finset.sum_comm]
    refine Finset.sum_congr rfl fun a _ => ?_
    rw [Finset.sum_comm, Finset.mul_sum]
    refine Finset.sum_congr rfl fun b _ => ?_
    unfold gramF
    rw [Finset.mul_sum, Finset.mul_sum]
    exact Finset.sum_congr rfl fun s _ => by ring
  rw [h1]
  unfold blkF
  rw [Finset.sum_insert hi, Finset.sum_insert hi, hd,
    Finset.sum_eq_zero (fun b hb => by rw [hz b hb, mul_zero, zero_mul])]
  have h2 : ∀ a ∈ S, ∑ b ∈ insert i S, u a r * Tf a b * star (u b c) =
      -t * star (u i c) * (u a r * ∑ b ∈ S, Tf a b * gramF q u b i) +
        ∑ b ∈ S, u a r * Tf a b * star (u b c) := by
    intro a ha
    rw [Finset.sum_insert hi, ho a ha]
    ring
  rw [Finset.sum_congr rfl h2, Finset.sum_add_distrib, ← Finset.mul_sum]
  ring

/-- The indices combined before `i` in a block of `k` reflectors. -/
def bset (dir : Direction) (k i : Nat) : Finset Nat := if dir = .Forward then range i else Ico (i + 1) k

/-- The triangle of the factor `T`. -/
def duplo (dir : Direction) : Uplo := if dir = .Forward then .Upper else .Lower

theorem duplo_tri (dir : Direction) : duplo dir = .Upper ∨ duplo dir = .Lower := by
  unfold duplo; split <;> simp

/-- `Tf` is the triangular factor for reflectors with inner products `g` and factors `t`. -/
structure TRel (dir : Direction) (k : Nat) (g : Nat → Nat → 𝕜) (t : Nat → 𝕜) (Tf : Nat → Nat → 𝕜) : Prop where
  diag : ∀ i, i < k → Tf i i = t i
  zero : ∀ i b, i < k → b ∈ bset dir k i → Tf i b = 0
  off : ∀ i a, i < k → a ∈ bset dir k i → Tf a i = -t i * ∑ b ∈ bset dir k i, Tf a b * g b i

theorem TRel.prod {dir : Direction} {q k : Nat} {u : Nat → Nat → 𝕜} {t : Nat → 𝕜} {Tf : Nat → Nat → 𝕜}
    (h : TRel dir k (gramF q u) t Tf) :
    mat q q (blkF (range k) u Tf) =
      ((List.range k).map fun i => mat q q (reflF (t (qidx dir k i)) (u (qidx dir k i)))).prod := by
  have hemp : mat q q (blkF ∅ u Tf) = 1 := by
    rw [← mat_idF, mat_ext_iff]; intro i j _ _; simp [blkF, idF]
  cases dir with
  | Forward =>
    have : ∀ s, s ≤ k → mat q q (blkF (range s) u Tf) =
        ((List.range s).map fun i => mat q q (reflF (t i) (u i))).prod := by
      intro s
      induction s with
      | zero => intro _; simpa using hemp
      | succ s ih =>
        intro hs
        rw [List.range_succ, List.map_append, List.prod_append, ← ih (by omega), Finset.range_add_one,
          blk_step (S := range s) (t := t s) (by simp) (h.diag s (by omega)) (h.zero s · (by omega)) (fun a ha => h.off s a (by omega) ha)]
        simp
    exact this k le_rfl
  | Backward =>
    have : ∀ s, s ≤ k → mat q q (blkF (Ico (k - s) k) u Tf) =
        ((List.range s).map fun i => mat q q (reflF (t (k - 1 - i)) (u (k - 1 - i)))).prod := by
      intro s
      induction s with
      | zero => intro _; simpa using hemp
      | succ s ih =>
        intro hs
        have e : Ico (k - (s + 1)) k = insert (k - 1 - s) (Ico (k - s) k) := by
          ext x; simp only [mem_Ico, mem_insert]; omega
        have hb : bset .Backward k (k - 1 - s) = Ico (k - s) k := by
          unfold bset; simp only [reduceCtorEq, if_false]; congr 1; omega
        rw [List.range_succ, List.map_append, List.prod_append, ← ih (by omega), e,
          blk_step (t := t (k - 1 - s)) (by simp only [mem_Ico]; omega) (h.diag _ (by omega))
            (fun b hb' => h.zero _ b (by omega) (by rw [hb]; exact hb'))
            (fun a ha => by rw [h.off _ a (by omega) (by rw [hb]; exact ha), hb])]
        simp
    have := this k le_rfl
    simpa [qidx] using this

theorem blkF_mat (q k : Nat) (u : Nat → Nat → 𝕜) (Tf : Nat → Nat → 𝕜) :
    mat q q (blkF (range k) u Tf) =
      1 - mat q k (fun r a => u a r) * mat k k Tf * (mat q k (fun r a => u a r)).conjTranspose := by
  rw [mat_mul, mat_conjTranspose, mat_mul, ← mat_idF]
  ext i j
  unfold mat blkF idF
  simp only [Matrix.sub_apply]
  congr 1
  simp only [Finset.sum_mul]
  rw [Finset.sum_comm]

theorem TRel.congr {dir : Direction} {k : Nat} {g g' : Nat → Nat → 𝕜} {t t' : Nat → 𝕜} {Tf Tf' : Nat → Nat → 𝕜}
    (h : TRel dir k g t Tf) (hg : ∀ b i, i < k → b ∈ bset dir k i → g' b i = g b i) (ht : ∀ i, i < k → t' i = t i)
    (hT : ∀ i j, i < k → j < k → Tf' i j = Tf i j) : TRel dir k g' t' Tf' := by
  have hb : ∀ i b, i < k → b ∈ bset dir k i → b < k := by
    intro i b hi hb
    unfold bset at hb
    split at hb <;> simp at hb <;> omega
  refine ⟨fun i hi => by rw [hT i i hi hi, ht i hi, h.diag i hi], fun i b hi h' => by
    rw [hT i b hi (hb i b hi h'), h.zero i b hi h'], fun i a hi ha => ?_⟩
  rw [hT a i (hb i a hi ha) hi, h.off i a hi ha, ht i hi]
  congr 1
  refine Finset.sum_congr rfl fun b h' => ?_
  rw [hT a b (hb i a hi ha) (hb i b hi h'), hg b i hi h']

/-- The block of reflectors in the order of `houseQ`, Columnwise. -/
def houseP (dir : Direction) (store : StoreV) (q k : Nat) (V : Nat → Nat → 𝕜) (t : Nat → 𝕜) :
    Matrix (Fin q) (Fin q) 𝕜 :=
  ((List.range k).map fun i => houseH dir store q k V t (qidx dir k i)).prod

theorem houseP_cols (dir : Direction) (q k : Nat) (V : Nat → Nat → 𝕜) (t : Nat → 𝕜) :
    houseQ dir .Columnwise q k V t = houseP dir .Columnwise q k V t := by
  cases dir with
  | Forward => rfl
  | Backward =>
    unfold houseQ houseP
    simp only []
    rw [reverse_range_map]
    rfl

theorem houseP_rows (dir : Direction) (q k : Nat) (V : Nat → Nat → 𝕜) (t : Nat → 𝕜) :
    houseQ dir .Rowwise q k V t = (houseP dir .Rowwise q k V t).conjTranspose := by
  rw [houseQ_rows, houseP_cols]; rfl

end TLA
