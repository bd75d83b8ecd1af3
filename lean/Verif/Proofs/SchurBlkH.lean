import Verif.Proofs.SchurBlkG
import Verif.Props.Kernel

set_option linter.unusedTactic false
set_option linter.unusedSectionVars false
set_option linter.unusedVariables false
set_option linter.unreachableTactic false
set_option linter.unusedSimpArgs false

/-! schur_swap for real matrices: the exchange in all cases; standardization. -/

namespace TLA
open Matrix Finset
variable {L : Type} [DecidableEq L] {hp : HhPar}
variable {wantq : Bool} {A Q B V D : MatV L} {μ ν : Store L ℝ} {FA FQ G : Nat → Nat → ℝ} {n j0 n1 n2 : Nat}

theorem SwWin.exch11 {c s : ℝ} (w : SwWin n j0 1 1 FA) (hj : j0 + 1 < n) (b0 : simRot j0 (j0 + 1) c s FA j0 j0 = FA (j0 + 1) (j0 + 1))
    (b1 : simRot j0 (j0 + 1) c s FA (j0 + 1) (j0 + 1) = FA j0 j0) (b2 : simRot j0 (j0 + 1) c s FA (j0 + 1) j0 = 0) :
    SwExch n j0 1 1 FA (simRot j0 (j0 + 1) c s FA) := by
  refine ⟨⟨?_, ?_, ?_⟩, ?_, blkM_one _ _ b0, blkM_one _ _ b1⟩
  · intro r k h1 h2 h3
    exact simRot_zero_col (by omega) (by omega) (w.zl r k h1 h2 h3) fun _ => ⟨w.zl _ _ (by omega) (by omega) h3, w.zl _ _ (by omega) (by omega) h3⟩
  · intro r k h1 h2 h3
    exact simRot_zero_row (by omega) (by omega) (w.zb r k h1 h2 h3) fun _ => ⟨w.zb _ _ h1 h2 (by omega), w.zb _ _ h1 h2 (by omega)⟩
  · intro r k h1 h2 h3 h4
    obtain rfl : k = j0 := by omega
    obtain rfl : r = k + 1 := by omega
    exact b2
  · intro r k _ _ h1 h2
    exact simRot_out (by omega) (by omega) (by omega) (by omega)

theorem SwRes.weak {W W' : L → Prop} (h : SwRes wantq A Q W μ FA FQ ν) (hw : ∀ l, W l → W' l) : SwRes wantq A Q W' μ FA FQ ν :=
  ⟨h.a, h.q, fun l a b c => h.frame l a b fun d => c (hw l d)⟩

theorem wp_schurExch (hl : HhLaws ℝ hp) {ro : RotOps ℝ} (ho : RotLaws ro) {eps small : ℝ} (hs : 0 < small) (ok : SchurOK wantq A Q) (sc : SwScr wantq A Q B V D)
    (h1 : n1 = 1 ∨ n1 = 2) (h2 : n2 = 1 ∨ n2 = 2) (hj : j0 + n1 + n2 ≤ A.n) (w : SwWin A.n j0 n1 n2 (entry μ A)) (nm : SwNum hp eps small j0 n1 n2 (entry μ A)) :
    wp (schurExch (hhOps (𝕜 := ℝ) hp) ro eps small wantq A Q B V D j0 n1 n2) μ (fun x ν => x = 0 ∧ ∃ G GQ, SwExch A.n j0 n1 n2 (entry μ A) G ∧
      SwEq wantq A.n (entry μ A) (entry μ Q) G GQ ∧ SwRes wantq A Q (scrOwns B V D) μ G GQ ν) := by
  have h : SwMem wantq A Q μ (entry μ A) (entry μ Q) μ := ⟨fun _ _ _ _ => rfl, fun _ _ _ _ _ => rfl, fun _ _ _ => rfl⟩
  have k1 := ok.Am
  unfold schurExch
  rcases h1 with rfl | rfl <;> rcases h2 with rfl | rfl
  · rw [if_pos ⟨rfl, rfl⟩, wp_bind]
    refine wp_conseq (wp_schurSwap11 ho ok h (by omega) w.zl w.zb (w.zm _ _ (by omega) (by omega) (by omega) (by omega))) ?_
    rintro _ ν1 ⟨c, s, hr, b0, b1, b2, m1⟩
    rw [wp_pure]
    refine ⟨rfl, _, _, w.exch11 (by omega) b0 b1 b2, SwEq.rot (FQ := entry μ Q) ⟨1, by simp, by simp, by simp⟩ (by omega) (by omega) (by omega) hr, ?_⟩
    exact m1.res (W := scrOwns B V D) fun _ _ => rfl
  · rw [if_neg (by omega), if_pos rfl, wp_bind]
    unfold SwNum at nm
    rw [if_neg (by omega)] at nm
    refine wp_conseq (wp_schurSwap12 hl ok sc.Bi sc.Bm sc.Bn sc.AB sc.QB h (by omega) w nm) ?_
    rintro _ ν1 ⟨G, GQ, a, b, c⟩
    rw [wp_pure]
    exact ⟨rfl, G, GQ, a, b, c.weak fun l => .inl⟩
  · rw [if_neg (by omega), if_neg (by omega), if_pos rfl, wp_bind]
    unfold SwNum at nm
    rw [if_neg (by omega)] at nm
    refine wp_conseq (wp_schurSwap21 hl ok sc.Bi sc.Bm sc.Bn sc.AB sc.QB h (by omega) w nm) ?_
    rintro _ ν1 ⟨G, GQ, a, b, c⟩
    rw [wp_pure]
    exact ⟨rfl, G, GQ, a, b, c.weak fun l => .inl⟩
  · rw [if_neg (by omega), if_neg (by omega), if_neg (by omega)]
    unfold SwNum at nm
    rw [if_pos ⟨rfl, rfl⟩] at nm
    obtain ⟨δ, nm⟩ := nm
    refine wp_conseq (wp_schurSwap22 hl hs ok sc.Vi sc.Vm sc.Vn sc.Di sc.Dm sc.Dn sc.AV sc.QV sc.AD sc.QD sc.DV h (by omega) w nm) ?_
    rintro _ ν1 ⟨e, G, GQ, a, b, c⟩
    exact ⟨e, G, GQ, a, b, c.weak fun l => .inr⟩

/-- When C55 covers the standardization of the block at `j`. -/
def StdOK (F : Nat → Nat → ℝ) (j : Nat) : Prop :=
  (F j j ≠ F (j + 1) (j + 1) ∨ F j (j + 1) * F (j + 1) j ≤ 0) ∧
    (F j j = F (j + 1) (j + 1) ∨ F (j + 1) j = 0 ∨ F j (j + 1) + F (j + 1) j ≠ 0)

theorem wp_schurStd {pr : Kernel.SchurPar} (he : 0 < pr.eps) (hm : 0 < pr.safmn2) (ok : SchurOK wantq A Q) (h : SwMem wantq A Q μ FA FQ ν) {j : Nat}
    (hj : j + 1 < A.n) (zl : ∀ r k, j ≤ r → r < A.n → k < j → FA r k = 0) (zb : ∀ r k, j + 2 ≤ r → r < A.n → k < j + 2 → FA r k = 0)
    (st : StdOK FA j) :
    wp (schurStd pr wantq A Q j) ν (fun _ ν' => ∃ c s, IsRot c s ∧
      (blkM (simRot j (j + 1) c s FA) j 2).charpoly = (blkM FA j 2).charpoly ∧
      (((FA j j - FA (j + 1) (j + 1)) / 2) * ((FA j j - FA (j + 1) (j + 1)) / 2) + FA j (j + 1) * FA (j + 1) j ≠ 0 →
        Kernel.StdSchur (blkM (simRot j (j + 1) c s FA) j 2)) ∧
      SwMem wantq A Q μ (simRot j (j + 1) c s FA) (rowMap (pairRot j (j + 1) c (star s)) FQ) ν') := by
  have k1 := ok.Am
  have ne : ¬ j + 1 = j := by omega
  have ne' : ¬ j = j + 1 := by omega
  unfold schurStd
  simp only [wp_bind]
  refine wp_getE ⟨by omega, by omega⟩ ?_
  refine wp_getE ⟨by omega, by omega⟩ ?_
  refine wp_getE ⟨by omega, by omega⟩ ?_
  refine wp_getE ⟨by omega, by omega⟩ ?_
  rw [h.a j j (by omega) (by omega), h.a (j + 1) (j + 1) (by omega) (by omega), h.a j (j + 1) (by omega) (by omega), h.a (j + 1) j (by omega) (by omega)]
  obtain ⟨x, s1, s2, e, hG, hS, -, -⟩ := Kernel.C55_schur22_zero he hm st.1 st.2
  have hstd : ((FA j j - FA (j + 1) (j + 1)) / 2) * ((FA j j - FA (j + 1) (j + 1)) / 2) + FA j (j + 1) * FA (j + 1) j ≠ 0 →
      Kernel.StdSchur !![x.a, x.b; x.c, x.d] := by
    intro h3
    obtain ⟨x', s1', s2', e', -, -, hst, -⟩ := Kernel.C55_schur22 he hm st.1 st.2 h3
    rw [e] at e'
    simp only [Option.some.injEq, Prod.mk.injEq] at e'
    rw [e'.1]; exact hst
  rw [e]
  unfold liftO
  simp only [wp_pure]
  refine wp_conseq (wp_setM h.st ok.injA (by omega) (by omega) _) ?_
  intro _ ν1 h1
  refine wp_conseq (wp_setM h1 ok.injA (by omega) (by omega) _) ?_
  intro _ ν2 h2
  refine wp_conseq (wp_setM h2 ok.injA (by omega) (by omega) _) ?_
  intro _ ν3 h3
  refine wp_conseq (wp_setM h3 ok.injA (by omega) (by omega) _) ?_
  intro _ ν4 h4
  refine wp_conseq (wp_schurRot ok (h.setA ok h4) hj x.cs x.sn) ?_
  intro _ ν5 h5
  have hr : IsRot x.cs x.sn := ⟨rfl, by
    have := congrFun (congrFun hG 0) 0
    simpa [Kernel.G, Matrix.mul_apply, Fin.sum_univ_two] using this⟩
  have q : ∀ a b : Fin 2, _ := fun a b => congrFun (congrFun hS a) b
  have q00 := q 0 0
  have q01 := q 0 1
  have q10 := q 1 0
  have q11 := q 1 1
  simp [Matrix.mul_apply, Fin.sum_univ_two, Kernel.G] at q00 q01 q10 q11
  have b00 : simRot j (j + 1) x.cs x.sn FA j j = x.a := by
    simp only [simRot, rowMap, colMap, pairRot, if_true, ne, ne', if_false, star_trivial]
    linear_combination q00
  have b01 : simRot j (j + 1) x.cs x.sn FA j (j + 1) = x.b := by
    simp only [simRot, rowMap, colMap, pairRot, if_true, ne, ne', if_false, star_trivial]
    linear_combination q01
  have b10 : simRot j (j + 1) x.cs x.sn FA (j + 1) j = x.c := by
    simp only [simRot, rowMap, colMap, pairRot, if_true, ne, ne', if_false, star_trivial]
    linear_combination q10
  have b11 : simRot j (j + 1) x.cs x.sn FA (j + 1) (j + 1) = x.d := by
    simp only [simRot, rowMap, colMap, pairRot, if_true, ne, ne', if_false, star_trivial]
    linear_combination q11
  have eb : blkM (simRot j (j + 1) x.cs x.sn FA) j 2 = !![x.a, x.b; x.c, x.d] := by
    ext a b
    fin_cases a <;> fin_cases b
    · exact b00
    · exact b01
    · exact b10
    · exact b11
  have ef : blkM FA j 2 = !![FA j j, FA j (j + 1); FA (j + 1) j, FA (j + 1) (j + 1)] := by
    ext a b
    fin_cases a <;> fin_cases b <;> rfl
  refine ⟨x.cs, x.sn, hr, ?_, fun h => by rw [eb]; exact hstd h, h5.congr fun r k hr hk => ?_⟩
  · rw [eb, ef, ← hS, Matrix.charpoly_mul_comm, ← Matrix.mul_assoc, mul_eq_one_comm.1 hG, Matrix.one_mul]
  · refine simRot_eq hj zl zb ?_ ?_ r k (by omega) hk
    · intro r k hb
      rw [if_neg (by omega), if_neg (by omega), if_neg (by omega), if_neg (by omega)]
    · intro r k g1 g2 g3 g4
      rcases (by omega : r = j ∨ r = j + 1) with e1 | e1 <;> rcases (by omega : k = j ∨ k = j + 1) with e2 | e2 <;> rw [e1, e2]
      · rw [b00]; simp
      · rw [b01]; simp
      · rw [b10]; simp
      · rw [b11]; simp

end TLA
