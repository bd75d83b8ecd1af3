import Verif.Model.TikElden
import Verif.Proofs.EldenAlg
import Verif.Proofs.Gesvd
import Verif.Proofs.Lahr2
import Verif.Props.Scaling
set_option linter.unusedVariables false
set_option linter.unusedTactic false

/-! # Memory proofs for tik_bidiag_elden -/

namespace TLA
open Finset Matrix Kernel
variable {L 𝕜 : Type} [DecidableEq L] [RCLike 𝕜] [DecidableEq 𝕜]

theorem wp_tikCopy {rl : 𝕜 → ℝ} {A : MatV L} (hn : 0 < A.n) (hm : A.n ≤ A.m) (μ : Store L 𝕜) :
    wp (tikCopy rl A) μ (fun x ν => ν = μ ∧ x.1.n = A.n ∧ x.2.n = A.n - 1 ∧ (∀ i, i < A.n → x.1.f i = rl (entry μ A i i)) ∧
      (∀ i, i + 1 < A.n → x.2.f i = rl (entry μ A i (i + 1)))) := by
  unfold tikCopy
  rw [if_neg (by omega)]
  simp only [wp_bind]
  refine wp_forUp (fun k x ν => ν = μ ∧ x.n = A.n ∧ ∀ i, i < k → x.f i = rl (entry μ A i i)) (Nat.zero_le _)
    ⟨rfl, rfl, fun i hi => absurd hi (by omega)⟩ ?_ ?_
  · rintro k d ν - hk ⟨rfl, h1, h2⟩
    simp only [wp_bind]
    refine wp_getE ⟨by omega, by omega⟩ ?_
    refine wp_rset (by omega) ⟨rfl, h1, fun i hi => ?_⟩
    dsimp only
    by_cases q : i = k
    · rw [if_pos q, q]; rfl
    · rw [if_neg q]; exact h2 i (by omega)
  rintro d ν ⟨rfl, h1, h2⟩
  refine wp_forUp (fun k x ν' => ν' = ν ∧ x.n = A.n - 1 ∧ ∀ i, i < k → x.f i = rl (entry ν A i (i + 1))) (Nat.zero_le _)
    ⟨rfl, rfl, fun i hi => absurd hi (by omega)⟩ ?_ ?_
  · rintro k d ν' - hk ⟨rfl, h1, h2⟩
    simp only [wp_bind]
    refine wp_getE ⟨by omega, by omega⟩ ?_
    refine wp_rset (by omega) ⟨rfl, h1, fun i hi => ?_⟩
    dsimp only
    by_cases q : i = k
    · rw [if_pos q, q]; rfl
    · rw [if_neg q]; exact h2 i (by omega)
  rintro e ν' ⟨rfl, h3, h4⟩
  exact ⟨rfl, h1, h3, h2, fun i hi => h4 i (by omega)⟩

/-- The contents of `b` and of the work matrix. -/
structure TkMem (b wk : MatV L) (μ : Store L 𝕜) (c w : Nat → Nat → 𝕜) (ν : Store L 𝕜) : Prop where
  vb : ∀ i j, i < b.m → j < b.n → ν (b.cell i j) = c i j
  vw : ∀ i j, i < wk.m → j < wk.n → ν (wk.cell i j) = w i j
  frame : ∀ l, ¬ b.Owns l → ¬ wk.Owns l → ν l = μ l

section
variable {b wk : MatV L} {μ ν : Store L 𝕜} {c w c' w' : Nat → Nat → 𝕜}

theorem TkMem.congr (h : TkMem b wk μ c w ν) (h1 : ∀ i j, i < b.m → j < b.n → c' i j = c i j) (h2 : ∀ i j, i < wk.m → j < wk.n → w' i j = w i j) :
    TkMem b wk μ c' w' ν :=
  ⟨fun i j hi hj => (h.vb i j hi hj).trans (h1 i j hi hj).symm, fun i j hi hj => (h.vw i j hi hj).trans (h2 i j hi hj).symm, h.frame⟩

theorem TkMem.setB (h : TkMem b wk μ c w ν) (hb : b.Inj) (hd : b.Disj wk) {i j : Nat} (hi : i < b.m) (hj : j < b.n) (v : 𝕜)
    (h1 : ∀ i' j', i' < b.m → j' < b.n → c' i' j' = if i' = i ∧ j' = j then v else c i' j') : TkMem b wk μ c' w (upd ν (b.cell i j) v) := by
  refine ⟨fun i' j' hi' hj' => ?_, fun i' j' hi' hj' => ?_, fun l h2 h3 => ?_⟩
  · rw [h1 i' j' hi' hj']
    unfold upd
    by_cases q : b.cell i' j' = b.cell i j
    · rw [if_pos q, if_pos (hb _ _ _ _ hi' hj' hi hj q)]
    · rw [if_neg q, if_neg (by rintro ⟨rfl, rfl⟩; exact q rfl), h.vb i' j' hi' hj']
  · unfold upd
    rw [if_neg (fun e => hd i j hi hj ⟨i', j', hi', hj', e⟩), h.vw i' j' hi' hj']
  · unfold upd
    rw [if_neg (fun e => h2 ⟨i, j, hi, hj, e.symm⟩), h.frame l h2 h3]

theorem TkMem.swp (h : TkMem b wk μ c w ν) : TkMem wk b μ w c ν := ⟨h.vw, h.vb, fun l h1 h2 => h.frame l h2 h1⟩

theorem TkMem.setW (h : TkMem b wk μ c w ν) (hw : wk.Inj) (hd : b.Disj wk) {i j : Nat} (hi : i < wk.m) (hj : j < wk.n) (v : 𝕜)
    (h1 : ∀ i' j', i' < wk.m → j' < wk.n → w' i' j' = if i' = i ∧ j' = j then v else w i' j') : TkMem b wk μ c w' (upd ν (wk.cell i j) v) :=
  (h.swp.setB hw hd.symm hi hj v h1).swp

/-- The first rotation with the row `i` of the work matrix, in both forms of the code. -/
theorem wp_eldenRot (h : TkMem b wk μ c w ν) (hb : b.Inj) (hw : wk.Inj) (hd : b.Disj wk) (hkn : wk.n = b.n) {i : Nat} (hi : i < b.m) (hi' : i < wk.m) (cs sn : ℝ)
    (h0 : i = 0 → ∀ j, j < b.n → w 0 j = 0) :
    wp (if i = 0 then
        forUp_ 0 b.n fun j => do
          let b0 ← b.get 0 j
          wk.set 0 j (((-sn : ℝ) : 𝕜) * b0)
          let b0 ← b.get 0 j
          b.set 0 j ((cs : 𝕜) * b0)
      else do
        let bv ← b.sliceRow i 0 b.n
        let cv ← wk.sliceRow i 0 b.n
        rot bv cv (cs : 𝕜) (sn : 𝕜) : M L 𝕜 Unit) ν (fun _ ν' =>
      TkMem b wk μ (fun r j => if r = i then (cs : 𝕜) * c i j + (sn : 𝕜) * w i j else c r j)
        (fun r j => if r = i then (cs : 𝕜) * w i j - (sn : 𝕜) * c i j else w r j) ν') := by
  by_cases q : i = 0
  · subst q
    rw [if_pos rfl]
    refine wp_forUp_ (fun k ν' => TkMem b wk μ (fun r j => if r = 0 ∧ j < k then (cs : 𝕜) * c 0 j else c r j)
        (fun r j => if r = 0 ∧ j < k then ((-sn : ℝ) : 𝕜) * c 0 j else w r j) ν') (Nat.zero_le _) (h.congr (fun _ _ _ _ => if_neg (by omega)) (fun _ _ _ _ => if_neg (by omega))) ?_ ?_
    · intro k ν' _ hk hm
      simp only [wp_bind]
      refine wp_getE ⟨hi, hk⟩ ?_
      have e0 := hm.vb 0 k hi hk
      rw [if_neg (by omega)] at e0
      rw [e0]
      refine wp_setE ⟨hi', by omega⟩ ?_
      have hm1 := hm.setW (w' := fun r j => if r = 0 ∧ j < k + 1 then ((-sn : ℝ) : 𝕜) * c 0 j else w r j) hw hd hi' (hkn ▸ hk) (((-sn : ℝ) : 𝕜) * c 0 k) (fun r j hr hj => by
        beta_reduce
        by_cases q : r = 0 ∧ j = k
        · rw [if_pos q, if_pos ⟨q.1, by omega⟩, q.2]
        · rw [if_neg q]
          exact if_congr (by omega) rfl rfl)
      refine wp_getE ⟨hi, hk⟩ ?_
      have e1 := hm1.vb 0 k hi hk
      rw [if_neg (by omega)] at e1
      rw [e1]
      refine wp_setE ⟨hi, hk⟩ ?_
      refine hm1.setB hb hd hi hk _ (fun r j hr hj => ?_)
      beta_reduce
      by_cases q : r = 0 ∧ j = k
      · rw [if_pos q, if_pos ⟨q.1, by omega⟩, q.2]
      · rw [if_neg q]
        exact if_congr (by omega) rfl rfl
    · intro ν' hm
      refine hm.congr (fun r j hr hj => ?_) (fun r j hr hj => ?_)
      · by_cases q : r = 0
        · rw [if_pos q, if_pos ⟨q, hj⟩, h0 rfl j hj]; ring
        · rw [if_neg q, if_neg (by omega)]
      · by_cases q : r = 0
        · rw [if_pos q, if_pos ⟨q, by omega⟩, h0 rfl j (by omega)]; push_cast; ring
        · rw [if_neg q, if_neg (by omega)]
  · rw [if_neg q]
    simp only [wp_bind]
    refine wp_sliceRow hi (Nat.zero_le _) le_rfl ?_
    refine wp_sliceRow hi' (Nat.zero_le _) (by omega) ?_
    refine wp_conseq (wp_rot (hb.rowv hi le_rfl) (hw.rowv hi' (by omega)) rfl ?_) ?_
    · rintro a ha ⟨a', ha', e⟩
      simp only [MatV.rowv] at ha ha' e
      exact hd i (0 + a) hi (by omega) ⟨i, 0 + a', hi', by omega, e⟩
    · rintro _ ν' ⟨h1, h2, h3⟩
      simp only [ventry, MatV.rowv, Nat.zero_add, Nat.sub_zero] at h1 h2
      refine ⟨fun r j hr hj => ?_, fun r j hr hj => ?_, fun l hl hl' => ?_⟩
      · by_cases q : r = i
        · subst q
          rw [if_pos rfl, h1 j hj, h.vb r j hr hj, h.vw r j hi' (by omega)]
        · rw [if_neg q, h3, h.vb r j hr hj]
          · rintro ⟨a, ha, e⟩
            simp only [MatV.rowv] at ha e
            exact q (hb _ _ _ _ hi (by omega) hr hj e).1.symm
          · rintro ⟨a, ha, e⟩
            simp only [MatV.rowv] at ha e
            exact hd r j hr hj ⟨i, 0 + a, hi', by omega, e⟩
      · by_cases q : r = i
        · subst q
          rw [if_pos rfl, h2 j (by omega), h.vb r j hi (by omega), h.vw r j hr hj]
          simp
        · rw [if_neg q, h3, h.vw r j hr hj]
          · rintro ⟨a, ha, e⟩
            simp only [MatV.rowv] at ha e
            exact hd i (0 + a) hi (by omega) ⟨r, j, hr, hj, e.symm⟩
          · rintro ⟨a, ha, e⟩
            simp only [MatV.rowv] at ha e
            exact q (hw _ _ _ _ hi' (by omega) hr hj e).1.symm
      · rw [h3, h.frame l hl hl']
        · rintro ⟨a, ha, e⟩
          simp only [MatV.rowv] at ha e
          exact hl ⟨i, 0 + a, hi, by omega, e⟩
        · rintro ⟨a, ha, e⟩
          simp only [MatV.rowv] at ha e
          exact hl' ⟨i, 0 + a, hi', by omega, e⟩

/-- The second rotation, within the work matrix. -/
theorem wp_eldenRot2 (h : TkMem b wk μ c w ν) (hb : b.Inj) (hw : wk.Inj) (hd : b.Disj wk) (hkn : wk.n = b.n) {i : Nat} (hi : i + 1 < wk.m) (cs sn : ℝ) :
    wp (forUp_ 0 b.n fun j => do
      let x ← wk.get i j
      wk.set (i + 1) j ((sn : 𝕜) * x)
      let x ← wk.get i j
      wk.set i j ((cs : 𝕜) * x) : M L 𝕜 Unit) ν (fun _ ν' =>
      TkMem b wk μ c (fun r j => if r = i + 1 then (sn : 𝕜) * w i j else if r = i then (cs : 𝕜) * w i j else w r j) ν') := by
  refine wp_forUp_ (fun k ν' => TkMem b wk μ c
    (fun r j => if j < k then (if r = i + 1 then (sn : 𝕜) * w i j else if r = i then (cs : 𝕜) * w i j else w r j) else w r j) ν') (Nat.zero_le _)
      (h.congr (fun _ _ _ _ => rfl) (fun _ _ _ _ => if_neg (by omega))) ?_ ?_
  · intro k ν' _ hk hm
    simp only [wp_bind]
    refine wp_getE ⟨by omega, by omega⟩ ?_
    have e0 := hm.vw i k (by omega) (by omega)
    rw [if_neg (by omega)] at e0
    rw [e0]
    refine wp_setE ⟨hi, by omega⟩ ?_
    have hm1 := hm.setW (w' := fun r j => if j < k then (if r = i + 1 then (sn : 𝕜) * w i j else if r = i then (cs : 𝕜) * w i j else w r j) else
        if r = i + 1 ∧ j = k then (sn : 𝕜) * w i j else w r j) hw hd hi (hkn ▸ hk) ((sn : 𝕜) * w i k) (fun r j hr hj => by
      beta_reduce
      by_cases q : r = i + 1 ∧ j = k
      · rw [if_pos q, if_neg (by omega), if_pos q, q.2]
      · rw [if_neg q, if_neg q])
    refine wp_getE ⟨by omega, by omega⟩ ?_
    have e1 := hm1.vw i k (by omega) (by omega)
    rw [if_neg (by omega), if_neg (by omega)] at e1
    rw [e1]
    refine wp_setE ⟨by omega, by omega⟩ ?_
    refine hm1.setW hw hd (by omega) (by omega) _ (fun r j hr hj => ?_)
    beta_reduce
    by_cases q : r = i ∧ j = k
    · rw [if_pos q, if_pos (by omega), if_neg (by omega), if_pos q.1, q.2]
    · rw [if_neg q]
      by_cases q2 : j < k
      · rw [if_pos q2, if_pos (by omega)]
      · rw [if_neg q2]
        by_cases q3 : j = k
        · rw [if_pos (by omega)]
          by_cases q4 : r = i + 1
          · rw [if_pos q4, if_pos ⟨q4, q3⟩]
          · rw [if_neg q4, if_neg (by omega), if_neg (by omega)]
        · rw [if_neg (by omega), if_neg (by omega)]
  · intro ν' hm
    exact hm.congr (fun _ _ _ _ => rfl) (fun r j hr hj => (if_pos (show j < b.n by omega)).symm)

/-- The reduction loop. -/
theorem wp_eldenLoop {p : RotPar} (hp1 : 0 < p.safmin) (hp2 : 0 < p.safmax) {lam : ℝ} {n : Nat} {d e : RArr} (hdn : d.n = n) (hen : e.n = n - 1)
    (hb : b.Inj) (hw : wk.Inj) (hd : b.Disj wk) (hkn : wk.n = b.n) (hn : 0 < n) (hbm : n ≤ b.m) (hwm : wk.m = n)
    (hz : ∀ i j, i < n → j < b.n → ν (wk.cell i j) = 0)
    (ha : lam ≠ 0 ∨ ∀ i, i < n → d.f i ≠ 0) :
    wp (forUp 0 n (lam, d, e) (eldenStep p (fun x : ℝ => (x : 𝕜)) lam n b wk)) ν (fun x ν' => ∃ c w, x.2.1.n = n ∧ x.2.2.n = n - 1 ∧
      TkInv n b.n lam d.f e.f (entry ν b) n x.1 x.2.1.f x.2.2.f c w ∧ TkMem b wk ν c w ν') := by
  refine wp_forUp (fun i x ν' => ∃ c w, x.2.1.n = n ∧ x.2.2.n = n - 1 ∧
      TkInv n b.n lam d.f e.f (entry ν b) i x.1 x.2.1.f x.2.2.f c w ∧ TkMem b wk ν c w ν' ∧ (i = 0 → ∀ j, j < b.n → w 0 j = 0)) (Nat.zero_le _)
    ⟨entry ν b, entry ν wk, hdn, hen, ⟨fun j hj => ?_, fun _ _ => rfl, fun j a hj ha => ?_, fun j a _ hj ha => ?_, fun j hj => absurd hj (by omega), fun _ => ?_⟩,
      ⟨fun _ _ _ _ => rfl, fun _ _ _ _ => rfl, fun _ _ _ => rfl⟩, fun _ j hj => hz 0 j hn hj⟩ ?_ ?_
  · unfold tkS; rw [if_neg (by omega)]; split_ifs <;> rfl
  · have : entry ν wk j a = 0 := hz j a hj ha
    rw [this, mul_zero, add_zero]
  · exact hz j a hj ha
  · by_cases q : lam = 0
    · exact .inr ⟨q, q, fun j _ hj => (ha.resolve_left (fun h => h q)) j hj⟩
    · exact .inl ⟨q, q⟩
  · rintro i ⟨low, d1, e1⟩ ν1 - hi ⟨c, w, h1, h2, inv, hm, h0⟩
    dsimp only at h1 h2 inv
    unfold eldenStep
    simp only [wp_bind]
    refine wp_rget (by omega) ?_
    obtain ⟨r, z, cs, sn, e1', rk, -⟩ := rotg_ok hp1 hp2 (d1.f i) low
    refine wp_liftO_some e1' ?_
    dsimp only
    refine wp_rset (by omega) ?_
    by_cases q : i < n - 1
    · rw [if_pos q]
      simp only [wp_bind, wp_pure]
      refine wp_rget (by omega) ?_
      refine wp_rset (by omega) ?_

      refine wp_conseq (wp_eldenRot hm hb hw hd hkn (by omega) (by omega) cs sn h0) ?_
      intro _ ν2 hm2
      rw [if_pos q]
      simp only [wp_bind]
      obtain ⟨r2, z2, c2, s2, e2', rk2, -⟩ := rotg_ok hp1 hp2 lam (-sn * e1.f i)
      refine wp_liftO_some e2' ?_
      dsimp only
      refine wp_conseq (wp_eldenRot2 hm2 hb hw hd hkn (by omega) c2 s2) ?_
      intro _ ν3 hm3
      simp only [wp_pure]
      refine ⟨_, _, h1, h2, ?_, hm3, by omega⟩
      refine inv.next hi rk (fun _ => rk2) (fun j => rfl) (fun j hj => rfl) (fun j a hj ha => rfl) (fun j a hij hj ha => ?_)
      beta_reduce
      by_cases q2 : j = i + 1
      · rw [if_pos q2, if_pos q2, if_pos rfl]
      · rw [if_neg q2, if_neg q2, if_neg (by omega), if_neg (by omega)]
    · rw [if_neg q]
      simp only [wp_bind, wp_pure]
      refine wp_conseq (wp_eldenRot hm hb hw hd hkn (by omega) (by omega) cs sn h0) ?_
      intro _ ν2 hm2
      rw [if_neg q]
      simp only [wp_pure]
      refine ⟨_, _, h1, h2, ?_, hm2, by omega⟩
      refine inv.next (c2 := 0) (s2 := 0) hi rk (fun h => absurd h (by omega)) (fun j => rfl) (fun j hj => by rw [if_neg (by omega)])
        (fun j a hj ha => rfl) (fun j a hij hj ha => by omega)
  · rintro ⟨low, d1, e1⟩ ν1 ⟨c, w, h1, h2, inv, hm, -⟩
    exact ⟨c, w, h1, h2, inv, hm⟩

/-- Back substitution. -/
theorem wp_eldenBack {sm sM : ℝ} (hs : sm * sM = 1) {n : Nat} {d e : RArr} (hdn : d.n = n) (hen : e.n = n - 1) (hn : 0 < n) (hb : b.Inj) (hbm : n ≤ b.m)
    (hd : ∀ i, i < n → d.f i ≠ 0) (μ : Store L 𝕜) :
    wp (eldenBack (fun x : ℝ => (x : 𝕜)) sm sM n d e b) μ (fun _ ν =>
      (∀ j a, j < n → a < b.n → (d.f j : 𝕜) * entry ν b j a + (if j + 1 < n then (e.f j : 𝕜) * entry ν b (j + 1) a else 0) = entry μ b j a) ∧
      ∀ l, ¬ b.Owns l → ν l = μ l) := by
  have row : ∀ (i : Nat) (al : ℝ) (G : Nat → Nat → 𝕜) (ν : Store L 𝕜), i < n → al ≠ 0 → MState b μ G ν →
      wp (rsclReal (fun x : ℝ => (x : 𝕜)) sm sM al (b.rowv i 0 b.n)) ν (fun _ ν' =>
        MState b μ (fun r j => if r = i then G i j / (al : 𝕜) else G r j) ν') := by
    intro i al G ν hi hal hm
    refine wp_conseq (wp_rsclReal (algebraMap ℝ 𝕜) sm sM al hs hal (b.rowv i 0 b.n) (hb.rowv (by omega) le_rfl) ν) ?_
    intro _ ν' hv
    refine ⟨fun r j hr hj => ?_, fun l hl => ?_⟩
    · by_cases q : r = i
      · subst q
        have := hv.val j (by simpa [MatV.rowv] using hj)
        simp only [ventry, MatV.rowv, Nat.zero_add] at this
        rw [if_pos rfl, this, hm.val r j hr hj]
      · rw [if_neg q, hv.frame, hm.val r j hr hj]
        rintro ⟨a, ha, ee⟩
        simp only [MatV.rowv] at ha ee
        exact q (hb _ _ _ _ (by omega) (by omega) hr hj ee).1.symm
    · rw [hv.frame, hm.frame l hl]
      rintro ⟨a, ha, ee⟩
      simp only [MatV.rowv] at ha ee
      exact hl ⟨i, 0 + a, by omega, by omega, ee⟩
  unfold eldenBack
  simp only [wp_bind]
  refine wp_sliceRow (by omega) (Nat.zero_le _) le_rfl ?_
  refine wp_rget (by omega) ?_
  refine wp_conseq (row (n - 1) _ (entry μ b) μ (by omega) (hd _ (by omega)) (MState.init b μ _ fun _ _ _ _ => rfl)) ?_
  intro _ ν0 hm0
  refine wp_forDown (fun i _ ν => ∃ G, MState b μ G ν ∧ (∀ r j, r < i → G r j = entry μ b r j) ∧
      ∀ r j, i ≤ r → r < n → j < b.n → (d.f r : 𝕜) * G r j + (if r + 1 < n then (e.f r : 𝕜) * G (r + 1) j else 0) = entry μ b r j) (Nat.zero_le _)
    ⟨_, hm0, fun r j hr => if_neg (by omega), fun r j h1 h2 hj => ?_⟩ ?_ ?_
  · beta_reduce
    have e1 : r = n - 1 := by omega
    have hne : (d.f (n - 1) : 𝕜) ≠ 0 := by exact_mod_cast hd (n - 1) (by omega)
    subst e1
    rw [if_pos rfl, if_neg (by omega), add_zero]
    field_simp
  · rintro i _ ν - hi ⟨G, hm, hG1, hG2⟩
    simp only [wp_bind]
    refine wp_sliceRow (by omega) (Nat.zero_le _) le_rfl ?_
    refine wp_sliceRow (by omega) (Nat.zero_le _) le_rfl ?_
    refine wp_rget (by omega) ?_
    have rd : (b.rowv (i + 1) 0 b.n).Disj (b.rowv i 0 b.n) := by
      rintro a ha ⟨a', ha', ee⟩
      simp only [MatV.rowv] at ha ha' ee
      have := (hb _ _ _ _ (by omega) (by omega) (by omega) (by omega) ee).1
      omega
    refine wp_conseq (wp_axpy_e (hb.rowv (by omega) le_rfl) rfl rd) ?_
    rintro _ ν1 ⟨f1, h1⟩
    have hm1 : MState b μ (fun r j => if r = i then G i j + ((-e.f i : ℝ) : 𝕜) * G (i + 1) j else G r j) ν1 := by
      refine ⟨fun r j hr hj => ?_, fun l hl => ?_⟩
      · by_cases q : r = i
        · subst q
          have := h1 j (by simpa [MatV.rowv] using hj)
          simp only [ventry, MatV.rowv, Nat.zero_add] at this
          rw [if_pos rfl, this, hm.val r j hr hj, hm.val (r + 1) j (by omega) hj]
        · rw [if_neg q, f1, hm.val r j hr hj]
          rintro ⟨a, ha, ee⟩
          simp only [MatV.rowv] at ha ee
          exact q (hb _ _ _ _ (by omega) (by omega) hr hj ee).1.symm
      · rw [f1, hm.frame l hl]
        rintro ⟨a, ha, ee⟩
        simp only [MatV.rowv] at ha ee
        exact hl ⟨i, 0 + a, by omega, by omega, ee⟩
    refine wp_rget (by omega) ?_
    refine wp_conseq (row i _ _ ν1 (by omega) (hd _ (by omega)) hm1) ?_
    intro _ ν2 hm2
    refine ⟨_, hm2, fun r j hr => ?_, fun r j h1 h2 hj => ?_⟩
    · beta_reduce
      rw [if_neg (by omega), if_neg (by omega), hG1 r j (by omega)]
    · beta_reduce
      by_cases q : r = i
      · subst q
        have hne : (d.f r : 𝕜) ≠ 0 := by exact_mod_cast hd r (by omega)
        rw [if_pos rfl, if_pos rfl, if_pos (by omega), if_neg (by omega), if_neg (by omega), ← hG1 r j (by omega)]
        push_cast
        field_simp
        ring
      · rw [if_neg q, if_neg q, if_neg (show ¬ r + 1 = i by omega), if_neg (show ¬ r + 1 = i by omega)]
        exact hG2 r j (by omega) h2 hj
  · rintro _ ν ⟨G, hm, -, hG⟩
    refine ⟨fun j a hj ha => ?_, hm.frame⟩
    rw [← hG j a (Nat.zero_le _) hj ha]
    unfold entry
    rw [hm.val j a (by omega) ha]
    by_cases q : j + 1 < n
    · rw [if_pos q, if_pos q, hm.val (j + 1) a (by omega) ha]
    · rw [if_neg q, if_neg q]

end
end TLA
