import Verif.Model.MoveBulge
import Verif.SpecBulge
import Verif.Props.House
import Verif.Proofs.Lahqr

set_option linter.unusedTactic false
set_option linter.unusedSectionVars false
set_option linter.unusedVariables false
set_option linter.unreachableTactic false
set_option linter.unusedSimpArgs false

/-! Proofs for move_bulge. -/

namespace TLA
open Matrix Finset
variable {L 𝕜 : Type} [DecidableEq L] [RCLike 𝕜] [DecidableEq 𝕜] {hp : HhPar}

/-- Memory during move_bulge. -/
structure MbMem (H : MatV L) (v vt : VecV L) (μ : Store L 𝕜) (F : Nat → Nat → 𝕜) (g t : Nat → 𝕜) (ν : Store L 𝕜) : Prop where
  h : ∀ i j, i < 4 → j < 4 → ν (H.cell i j) = F i j
  hv : ∀ i, i < 3 → ν (v.cell i) = g i
  ht : ∀ i, i < 3 → ν (vt.cell i) = t i
  frame : ∀ l, ¬ H.Owns l → ¬ v.Owns l → ¬ vt.Owns l → ν l = μ l

variable {H : MatV L} {v vt : VecV L} {μ ν : Store L 𝕜} {F : Nat → Nat → 𝕜} {g t : Nat → 𝕜}

/-- Replacing one entry. -/
def up2 (F : Nat → Nat → 𝕜) (i j : Nat) (x : 𝕜) : Nat → Nat → 𝕜 := fun r c => if r = i ∧ c = j then x else F r c
def up1 (g : Nat → 𝕜) (i : Nat) (x : 𝕜) : Nat → 𝕜 := fun r => if r = i then x else g r

theorem BulgeOK.nvH (ok : BulgeOK H v vt) {r i j : Nat} (hr : r < 3) (hi : i < 4) (hj : j < 4) : v.cell r ≠ H.cell i j :=
  fun h => ok.vH r (by rw [ok.vn]; exact hr) ⟨i, j, by rw [ok.Hm]; exact hi, by rw [ok.Hn]; exact hj, h.symm⟩
theorem BulgeOK.ntH (ok : BulgeOK H v vt) {r i j : Nat} (hr : r < 3) (hi : i < 4) (hj : j < 4) : vt.cell r ≠ H.cell i j :=
  fun h => ok.tH r (by rw [ok.tn]; exact hr) ⟨i, j, by rw [ok.Hm]; exact hi, by rw [ok.Hn]; exact hj, h.symm⟩
theorem BulgeOK.nvt (ok : BulgeOK H v vt) {r i : Nat} (hr : r < 3) (hi : i < 3) : v.cell r ≠ vt.cell i :=
  fun h => ok.vt r (by rw [ok.vn]; exact hr) ⟨i, by rw [ok.tn]; exact hi, h.symm⟩

theorem MbMem.setH (ok : BulgeOK H v vt) (m : MbMem H v vt μ F g t ν) {i j : Nat} (hi : i < 4) (hj : j < 4) (x : 𝕜) {Q E}
    (hQ : ∀ ν', MbMem H v vt μ (up2 F i j x) g t ν' → Q () ν') : wp (H.set i j x) ν Q E := by
  have k1 := ok.Hm
  have k2 := ok.Hn
  have k3 := ok.vn
  have k4 := ok.tn
  refine wp_setE ⟨by omega, by omega⟩ (hQ _ ⟨fun r c hr hc => ?_, fun r hr => ?_, fun r hr => ?_, fun l h1 h2 h3 => ?_⟩)
  · unfold upd up2
    by_cases e : r = i ∧ c = j
    · rw [if_pos e, e.1, e.2, if_pos rfl]
    · rw [if_neg e, if_neg fun h => e (ok.injH _ _ _ _ (by omega) (by omega) (by omega) (by omega) h), m.h r c hr hc]
  · unfold upd; rw [if_neg (ok.nvH hr hi hj), m.hv r hr]
  · unfold upd; rw [if_neg (ok.ntH hr hi hj), m.ht r hr]
  · unfold upd; rw [if_neg fun h => h1 ⟨i, j, by omega, by omega, h.symm⟩, m.frame l h1 h2 h3]

theorem MbMem.setV (ok : BulgeOK H v vt) (m : MbMem H v vt μ F g t ν) {i : Nat} (hi : i < 3) (x : 𝕜) {Q E}
    (hQ : ∀ ν', MbMem H v vt μ F (up1 g i x) t ν' → Q () ν') : wp (v.set i x) ν Q E := by
  have k1 := ok.Hm
  have k2 := ok.Hn
  have k3 := ok.vn
  have k4 := ok.tn
  refine wp_vsetE (by omega) (hQ _ ⟨fun r c hr hc => ?_, fun r hr => ?_, fun r hr => ?_, fun l h1 h2 h3 => ?_⟩)
  · unfold upd; rw [if_neg (ok.nvH hi hr hc).symm, m.h r c hr hc]
  · unfold upd up1
    by_cases e : r = i
    · rw [if_pos e, e, if_pos rfl]
    · rw [if_neg e, if_neg fun h => e (ok.injV _ _ (by omega) (by omega) h), m.hv r hr]
  · unfold upd; rw [if_neg (ok.nvt hi hr).symm, m.ht r hr]
  · unfold upd; rw [if_neg fun h => h2 ⟨i, by omega, h.symm⟩, m.frame l h1 h2 h3]

theorem MbMem.setT (ok : BulgeOK H v vt) (m : MbMem H v vt μ F g t ν) {i : Nat} (hi : i < 3) (x : 𝕜) {Q E}
    (hQ : ∀ ν', MbMem H v vt μ F g (up1 t i x) ν' → Q () ν') : wp (vt.set i x) ν Q E := by
  have k1 := ok.Hm
  have k2 := ok.Hn
  have k3 := ok.vn
  have k4 := ok.tn
  refine wp_vsetE (by omega) (hQ _ ⟨fun r c hr hc => ?_, fun r hr => ?_, fun r hr => ?_, fun l h1 h2 h3 => ?_⟩)
  · unfold upd; rw [if_neg (ok.ntH hi hr hc).symm, m.h r c hr hc]
  · unfold upd; rw [if_neg (ok.nvt hr hi), m.hv r hr]
  · unfold upd up1
    by_cases e : r = i
    · rw [if_pos e, e, if_pos rfl]
    · rw [if_neg e, if_neg fun h => e (ok.injT _ _ (by omega) (by omega) h), m.ht r hr]
  · unfold upd; rw [if_neg fun h => h3 ⟨i, by omega, h.symm⟩, m.frame l h1 h2 h3]

theorem MbMem.getH (ok : BulgeOK H v vt) (m : MbMem H v vt μ F g t ν) {i j : Nat} (hi : i < 4) (hj : j < 4) {Q E}
    (hQ : Q (F i j) ν) : wp (H.get i j) ν Q E :=
  wp_getE ⟨by rw [ok.Hm]; exact hi, by rw [ok.Hn]; exact hj⟩ (by rw [m.h i j hi hj]; exact hQ)

theorem MbMem.getV (ok : BulgeOK H v vt) (m : MbMem H v vt μ F g t ν) {i : Nat} (hi : i < 3) {Q E}
    (hQ : Q (g i) ν) : wp (v.get i) ν Q E :=
  wp_vgetE (by rw [ok.vn]; exact hi) (by rw [m.hv i hi]; exact hQ)

theorem MbMem.getT (ok : BulgeOK H v vt) (m : MbMem H v vt μ F g t ν) {i : Nat} (hi : i < 3) {Q E}
    (hQ : Q (t i) ν) : wp (vt.get i) ν Q E :=
  wp_vgetE (by rw [ok.tn]; exact hi) (by rw [m.ht i hi]; exact hQ)

/-- larfg on three elements. -/
structure Larfg3 (a g : Nat → 𝕜) (beta tau : 𝕜) : Prop where
  spec : LarfgSpec .Forward 3 a beta tau
  uni : (refl3 (up1 g 0 tau))ᴴ * refl3 (up1 g 0 tau) = 1
  uni' : refl3 (up1 g 0 tau) * (refl3 (up1 g 0 tau))ᴴ = 1
  ann : (refl3 (up1 g 0 tau))ᴴ.mulVec (vec 3 a) = vec 3 (fun i => if i = 0 then beta else 0)
  piv : g 0 = beta

theorem refl3_up (g : Nat → 𝕜) (tau : 𝕜) : mat 3 3 (reflF tau (hvec .Forward .Columnwise 3 g)) = refl3 (up1 g 0 tau) := by
  unfold refl3
  refine mat_ext_iff.2 fun i j _ _ => ?_
  unfold reflF hvec up1 pidx
  simp only [if_true]
  congr 2
  · by_cases h : i = 0 <;> simp [h]
  · by_cases h : j = 0 <;> simp [h]

theorem larfg3_of (hl : HhLaws 𝕜 hp) {x : VecV L} (hx : x.Inj) (hn : x.n = 3) (ν : Store L 𝕜)
    (hd : ∀ i, i < 3 → ‖ν (x.cell i)‖ ≤ hp.tbig) :
    wp (larfgV (hhOps (𝕜 := 𝕜) hp) .Forward .Columnwise x) ν (fun tau ν' =>
      (∀ l, ¬ x.Owns l → ν' l = ν l) ∧ Larfg3 (ventry ν x) (ventry ν' x) (ventry ν' x 0) tau) := by
  obtain ⟨n, cell⟩ := x
  dsimp only at hn
  subst hn
  obtain ⟨tau, ν', e, sp, ⟨u1, u2, an⟩, fr⟩ := C37_larfg_columnwise hl .Forward ⟨3, cell⟩ hx (by simp) ν (.inl hd)
  refine wp_of_eq e ⟨fr, ?_⟩
  dsimp only at u1 u2 an
  have h0 : pidx .Forward 3 = 0 := rfl
  rw [refl3_up] at u1 u2 an
  refine ⟨by simpa [h0] using sp, u1, u2, ?_, rfl⟩
  rw [an]
  simp only [h0]

theorem MbMem.larfgV (ok : BulgeOK H v vt) (hl : HhLaws 𝕜 hp) (m : MbMem H v vt μ F g t ν) (hd : ∀ i, i < 3 → ‖g i‖ ≤ hp.tbig) {Q E}
    (hQ : ∀ ν' g' beta tau, Larfg3 g g' beta tau → MbMem H v vt μ F g' t ν' → Q tau ν') :
    wp (larfgV (hhOps (𝕜 := 𝕜) hp) .Forward .Columnwise v) ν Q E := by
  have k1 := ok.Hm
  have k2 := ok.Hn
  have k3 := ok.vn
  have k4 := ok.tn
  refine wp_conseq (larfg3_of hl ok.injV ok.vn ν fun i hi => by rw [m.hv i hi]; exact hd i hi) ?_
  rintro tau ν' ⟨fr, h⟩
  have e : vec 3 (ventry ν v) = vec 3 g := vec_ext_iff.2 fun i hi => m.hv i hi
  refine hQ ν' (ventry ν' v) (ventry ν' v 0) tau ⟨?_, h.uni, h.uni', e ▸ h.ann, rfl⟩
    ⟨fun r c hr hc => ?_, fun r hr => rfl, fun r hr => ?_, fun l h1 h2 h3 => ?_⟩
  · have s := h.spec
    have q : ∀ i, i < 3 → ventry ν v i = g i := fun i hi => m.hv i hi
    refine ⟨s.real, ?_, ?_, ?_, s.tau⟩
    · rw [s.norm]; exact sum_congr rfl fun i hi => by rw [q i (mem_range.1 hi)]
    · rw [s.triv, show pidx .Forward 3 = 0 from rfl, q 0 (by omega)]
      exact and_congr_left fun _ => forall_congr' fun i => forall_congr' fun hi => by rw [q i hi]
    · rw [show pidx .Forward 3 = 0 from rfl, ← q 0 (by omega)]; exact s.same
  · rw [fr _ fun h => ?_, m.h r c hr hc]
    obtain ⟨i, hi, e⟩ := h
    exact ok.vH i hi (e ▸ ⟨r, c, by omega, by omega, rfl⟩)
  · rw [fr _ fun h => ?_, m.ht r hr]
    obtain ⟨i, hi, e⟩ := h
    exact ok.vt i hi (e ▸ ⟨r, by omega, rfl⟩)
  · rw [fr l h2, m.frame l h1 h2 h3]

theorem MbMem.larfgT (ok : BulgeOK H v vt) (hl : HhLaws 𝕜 hp) (m : MbMem H v vt μ F g t ν) (hd : ∀ i, i < 3 → ‖t i‖ ≤ hp.tbig) {Q E}
    (hQ : ∀ ν' t' beta tau, Larfg3 t t' beta tau → MbMem H v vt μ F g t' ν' → Q tau ν') :
    wp (TLA.larfgV (hhOps (𝕜 := 𝕜) hp) .Forward .Columnwise vt) ν Q E := by
  have k1 := ok.Hm
  have k2 := ok.Hn
  have k3 := ok.vn
  have k4 := ok.tn
  refine wp_conseq (larfg3_of hl ok.injT ok.tn ν fun i hi => by rw [m.ht i hi]; exact hd i hi) ?_
  rintro tau ν' ⟨fr, h⟩
  have e : vec 3 (ventry ν vt) = vec 3 t := vec_ext_iff.2 fun i hi => m.ht i hi
  refine hQ ν' (ventry ν' vt) (ventry ν' vt 0) tau ⟨?_, h.uni, h.uni', e ▸ h.ann, rfl⟩
    ⟨fun r c hr hc => ?_, fun r hr => ?_, fun r hr => rfl, fun l h1 h2 h3 => ?_⟩
  · have s := h.spec
    have q : ∀ i, i < 3 → ventry ν vt i = t i := fun i hi => m.ht i hi
    refine ⟨s.real, ?_, ?_, ?_, s.tau⟩
    · rw [s.norm]; exact sum_congr rfl fun i hi => by rw [q i (mem_range.1 hi)]
    · rw [s.triv, show pidx .Forward 3 = 0 from rfl, q 0 (by omega)]
      exact and_congr_left fun _ => forall_congr' fun i => forall_congr' fun hi => by rw [q i hi]
    · rw [show pidx .Forward 3 = 0 from rfl, ← q 0 (by omega)]; exact s.same
  · rw [fr _ fun h => ?_, m.h r c hr hc]
    obtain ⟨i, hi, e⟩ := h
    exact ok.tH i hi (e ▸ ⟨r, c, by omega, by omega, rfl⟩)
  · rw [fr _ fun h => ?_, m.hv r hr]
    exact ok.vt r (by omega) h
  · rw [fr l h3, m.frame l h1 h2 h3]

theorem wp_mbCol (ok : BulgeOK H v vt) (m : MbMem H v vt μ F g t ν) (x : 𝕜) {Q E}
    (hQ : ∀ ν', MbMem H v vt μ (up2 (up2 (up2 F 1 0 x) 2 0 0) 3 0 0) g t ν' → Q () ν') : wp (mbCol H x) ν Q E := by
  unfold mbCol
  simp only [wp_bind]
  refine m.setH ok (by omega) (by omega) _ fun ν1 m1 => ?_
  refine m1.setH ok (by omega) (by omega) _ fun ν2 m2 => ?_
  exact m2.setH ok (by omega) (by omega) _ hQ

theorem wp_rd33 (ok : BulgeOK H v vt) (m : MbMem H v vt μ F g t ν) {Q E}
    (hQ : ∀ f : Nat → Nat → 𝕜, (f = fun r k => if r = 0 then (if k = 0 then F 1 1 else if k = 1 then F 1 2 else F 1 3)
      else if r = 1 then (if k = 0 then F 2 1 else if k = 1 then F 2 2 else F 2 3)
      else (if k = 0 then F 3 1 else if k = 1 then F 3 2 else F 3 3)) → Q f ν) : wp (rd33 (H.sub 1 4 1 4)) ν Q E := by
  have g : ∀ {i j : Nat} {Q E}, i < 3 → j < 3 → Q (F (1 + i) (1 + j)) ν → wp ((H.sub 1 4 1 4).get i j) ν Q E := by
    intro i j Q E hi hj h
    refine wp_getE ⟨by simp only [MatV.sub]; omega, by simp only [MatV.sub]; omega⟩ ?_
    simp only [MatV.sub]
    rw [m.h _ _ (by omega) (by omega)]; exact h
  unfold rd33
  simp only [wp_bind]
  iterate 9 refine g (by omega) (by omega) ?_
  rw [wp_pure]
  exact hQ _ rfl

end TLA
