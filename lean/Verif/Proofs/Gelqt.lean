import Verif.Model.Gelqt
import Verif.SpecGqt
import Verif.Proofs.Geqrf
import Verif.Props.BlockRefl
set_option linter.unusedTactic false
set_option linter.unusedVariables false
set_option linter.unreachableTactic false
set_option linter.unusedSectionVars false

/-! # gelqt -/

namespace TLA
open Finset
variable {L 𝕜 : Type} [DecidableEq L] [RCLike 𝕜] [DecidableEq 𝕜] {p : HhPar}

theorem QRInv.congrG {m n k s : Nat} {A0 G : Nat → Nat → 𝕜} {g g' : Nat → 𝕜}
    (h : QRInv .Forward m n k A0 s G g) (hg : ∀ i, i < s → g' i = g i) : QRInv .Forward m n k A0 s G g' := by
  have hH : ∀ i, i < s → qH .Forward m n k G g' (qidx .Forward k i) = qH .Forward m n k G g (qidx .Forward k i) := by
    intro i hi
    unfold qH houseH
    have : qidx .Forward k i = i := by simp [qidx]
    rw [this, hg i hi]
  refine ⟨?_, fun i hi => by rw [hH i hi]; exact h.unit i hi, h.real⟩
  rw [← h.prod]
  congr 2
  exact List.map_congr_left fun i hi => hH i (List.mem_range.1 hi)

theorem flat_inj {W : MatV L} (h : W.Inj) : W.flat.Inj := by
  intro s t hs ht e
  simp only [MatV.flat] at hs ht e
  have h0 : 0 < W.m := by
    rcases Nat.eq_zero_or_pos W.m with h | h
    · rw [h] at hs; omega
    · exact h
  have := h _ _ _ _ (Nat.mod_lt _ h0) (Nat.div_lt_of_lt_mul hs) (Nat.mod_lt _ h0) (Nat.div_lt_of_lt_mul ht) e
  rw [← Nat.mod_add_div s W.m, ← Nat.mod_add_div t W.m, this.1, this.2]

theorem flat_owns {W : MatV L} {l : L} (h : W.flat.Owns l) : W.Owns l := by
  obtain ⟨s, hs, e⟩ := h
  simp only [MatV.flat] at hs e
  have h0 : 0 < W.m := by
    rcases Nat.eq_zero_or_pos W.m with h | h
    · rw [h] at hs; omega
    · exact h
  exact ⟨_, _, Nat.mod_lt _ h0, Nat.div_lt_of_lt_mul hs, e⟩

/-- The blocks of the factorization finished after `s` rows: `TT` holds their triangular factors. -/
def TBlocks (A TT : MatV L) (k nb s : Nat) (ν : Store L 𝕜) : Prop :=
  ∀ b ib, b * nb < k → ib = min nb (k - b * nb) → b * nb + ib ≤ s →
    blkH .Forward .Rowwise (A.n - b * nb) ib (fun i c => entry ν A (b * nb + i) (b * nb + c)) (fun i c => entry ν TT (b * nb + i) c) =
      houseP .Forward .Rowwise (A.n - b * nb) ib (fun i c => entry ν A (b * nb + i) (b * nb + c)) (fun i => entry ν TT (b * nb + i) i)

structure GqtState (A TT : MatV L) (work : VecV L) (k nb : Nat) (μ : Store L 𝕜) (s : Nat) (ν : Store L 𝕜) : Prop where
  inv : QRInv .Forward A.n A.m k (LG .Rowwise μ A.tr) s (LG .Rowwise ν A.tr) (fun i => entry ν TT i (i % nb))
  tb : TBlocks A TT k nb s ν
  frame : ∀ l, ¬ A.Owns l → ¬ TT.Owns l → ¬ work.Owns l → ν l = μ l

theorem houseVec_row_congr {q k : Nat} {V W : Nat → Nat → 𝕜} (h : ∀ a c, a < k → c < q → V a c = W a c) {a i : Nat}
    (ha : a < k) (hi : i < q) :
    houseVec .Forward .Rowwise q k V a i = houseVec .Forward .Rowwise q k W a i := by
  unfold houseVec
  simp only [reduceCtorEq, if_false]
  rw [h a i ha hi]

theorem blkH_row_congr {q k : Nat} {V W F H : Nat → Nat → 𝕜} (h : ∀ a c, a < k → c < q → V a c = W a c)
    (hF : ∀ a c, a < k → c < k → F a c = H a c) :
    blkH .Forward .Rowwise q k V F = blkH .Forward .Rowwise q k W H := by
  unfold blkH
  rw [mat_ext_iff]
  intro i j hi hj
  unfold blkF
  congr 1
  refine Finset.sum_congr rfl fun a ha => Finset.sum_congr rfl fun b hb => ?_
  simp only [mem_range] at ha hb
  rw [houseVec_row_congr h ha hi, houseVec_row_congr h hb hj]
  congr 2
  unfold triF
  rw [hF a b ha hb, hF a a ha ha]

theorem houseP_row_congr {q k : Nat} {V W : Nat → Nat → 𝕜} {t u : Nat → 𝕜} (h : ∀ a c, a < k → c < q → V a c = W a c)
    (ht : ∀ i, i < k → t i = u i) :
    houseP .Forward .Rowwise q k V t = houseP .Forward .Rowwise q k W u := by
  unfold houseP
  congr 1
  refine List.map_congr_left fun i hi => ?_
  rw [List.mem_range] at hi
  have hq : qidx .Forward k i = i := by simp [qidx]
  rw [hq]
  unfold houseH
  rw [ht i hi, mat_ext_iff]
  intro r c hr hc
  unfold reflF
  rw [houseVec_row_congr h hi hr, houseVec_row_congr h hi hc]

set_option maxHeartbeats 1000000 in
theorem GqtState.step {A TT : MatV L} {work : VecV L} (ok : GqtOK A TT work) {k nb b j ib : Nat} (hmn : A.m ≤ A.n) (hk : k = A.m)
    (hTm : A.m ≤ TT.m) (hTn : TT.n = nb) (hnb : 0 < nb) (hj : j = b * nb) (hjk : j < k) (hib : ib = min nb (k - j))
    {μ ν ν1 ν2 ν3 : Store L 𝕜} (h : GqtState A TT work k nb μ j ν)
    (h1 : QrState .Forward .Rowwise (A.sub j (j + ib) j (j + (A.n - j))).tr (TT.sub j (j + ib) 0 ib).tdiag work ib ν ib ν1)
    (h2 : TInv .Forward ib (gramF (A.n - j) (houseVec .Forward .Rowwise (A.n - j) ib (entry ν1 (A.sub j (j + ib) j (j + (A.n - j))))))
        (ventry ν1 (TT.sub j (j + ib) 0 ib).tdiag) (TT.sub j (j + ib) 0 ib) 0 ib ν1 ν2)
    (h3 : mat (A.m - j - ib) (A.n - j) (entry ν3 (A.sub (j + ib) A.m j (j + (A.n - j)))) =
      mat (A.m - j - ib) (A.n - j) (entry ν2 (A.sub (j + ib) A.m j (j + (A.n - j)))) *
        blkH .Forward .Rowwise (A.n - j) ib (entry ν2 (A.sub j (j + ib) j (j + (A.n - j)))) (entry ν2 (TT.sub j (j + ib) 0 ib)))
    (f3 : ∀ l, ¬ (A.sub (j + ib) A.m j (j + (A.n - j))).Owns l → ¬ (TT.sub (j + ib) A.m 0 ib).Owns l → ν3 l = ν2 l) :
    GqtState A TT work k nb μ (j + ib) ν3 := by
  have hibn : ib ≤ nb := by omega
  have hjm : j + ib ≤ A.m := by omega
  -- which cells each step leaves alone
  have oA : ∀ r0 r1 c0 c1 r c, r1 ≤ A.m → c1 ≤ A.n → r < A.m → c < A.n → (r < r0 ∨ r1 ≤ r ∨ c < c0 ∨ c1 ≤ c) →
      ¬ (A.sub r0 r1 c0 c1).Owns (A.cell r c) := by
    rintro r0 r1 c0 c1 r c hr1 hc1 hr hc hd ⟨i', j', hi, hj, e⟩
    simp only [MatV.sub] at hi hj e
    have := ok.inj _ _ _ _ (by omega) (by omega) hr hc e
    omega
  have oT : ∀ r0 r1 c0 c1 r c, r1 ≤ TT.m → c1 ≤ TT.n → r < TT.m → c < TT.n → (r < r0 ∨ r1 ≤ r ∨ c < c0 ∨ c1 ≤ c) →
      ¬ (TT.sub r0 r1 c0 c1).Owns (TT.cell r c) := by
    rintro r0 r1 c0 c1 r c hr1 hc1 hr hc hd ⟨i', j', hi, hj, e⟩
    simp only [MatV.sub] at hi hj e
    have := ok.tinj _ _ _ _ (by omega) (by omega) hr hc e
    omega
  have oAT : ∀ r c r0 r1 c0 c1, r < A.m → c < A.n → r1 ≤ TT.m → c1 ≤ TT.n → ¬ (TT.sub r0 r1 c0 c1).Owns (A.cell r c) :=
    fun r c r0 r1 c0 c1 hr hc h1 h2 ho => ok.AT r c hr hc (ho.sub h1 h2)
  have oTA : ∀ r c r0 r1 c0 c1, r < TT.m → c < TT.n → r1 ≤ A.m → c1 ≤ A.n → ¬ (A.sub r0 r1 c0 c1).Owns (TT.cell r c) :=
    fun r c r0 r1 c0 c1 hr hc h1 h2 ho => ok.AT.symm r c hr hc (ho.sub h1 h2)
  have oD : ∀ {l}, (((TT.sub j (j + ib) 0 ib).tdiag).sub 0 ib).Owns l → (TT.sub j (j + ib) 0 ib).Owns l := by
    rintro l ⟨i, hi, e⟩
    simp only [VecV.sub, MatV.tdiag, MatV.sub] at hi e
    exact ⟨0 + i, 0 + i, by simp [MatV.sub]; omega, by simp [MatV.sub]; omega, by simpa [MatV.sub, MatV.tdiag] using e⟩
  have s1 : ∀ l, ¬ (A.sub j (j + ib) j (j + (A.n - j))).Owns l → ¬ (TT.sub j (j + ib) 0 ib).Owns l → ¬ work.Owns l → ν1 l = ν l := by
    intro l a b c
    exact h1.frame l (fun ho => a (MatV.tr_owns.1 ho)) (fun ho => b (oD ho)) c
  have s2 : ∀ l, ¬ (TT.sub j (j + ib) 0 ib).Owns l → ν2 l = ν1 l := fun l hl =>
    h2.frame l fun a b ha hb _ e => hl ⟨a, b, by simp [MatV.sub]; omega, by simp [MatV.sub]; omega, e⟩
  have a21 : ∀ r c, r < A.m → c < A.n → entry ν2 A r c = entry ν1 A r c := fun r c hr hc =>
    s2 _ (oAT r c _ _ _ _ hr hc (by omega) (by omega))
  have a10 : ∀ r c, r < A.m → c < A.n → (r < j ∨ j + ib ≤ r ∨ c < j) → entry ν1 A r c = entry ν A r c := fun r c hr hc hd =>
    s1 _ (oA _ _ _ _ r c (by omega) (by omega) hr hc (by omega)) (oAT r c _ _ _ _ hr hc (by omega) (by omega)) (ok.Aw r c hr hc)
  have a32 : ∀ r c, r < A.m → c < A.n → (r < j + ib ∨ c < j) → entry ν3 A r c = entry ν2 A r c := fun r c hr hc hd =>
    f3 _ (oA _ _ _ _ r c (by omega) (by omega) hr hc (by omega)) (oAT r c _ _ _ _ hr hc (by omega) (by omega))
  have t32 : ∀ r c, r < j + ib → c < nb → entry ν3 TT r c = entry ν2 TT r c := fun r c hr hc =>
    f3 _ (oTA r c _ _ _ _ (by omega) (by omega) (by omega) (by omega)) (oT _ _ _ _ r c (by omega) (by omega) (by omega) (by omega) (by omega))
  have t20 : ∀ r c, r < j → c < nb → entry ν2 TT r c = entry ν TT r c := fun r c hr hc => by
    have n1 := oT j (j + ib) 0 ib r c (by omega) (by omega) (by omega) (by omega) (by omega)
    exact (s2 _ n1).trans (s1 _ (oTA r c _ _ _ _ (by omega) (by omega) (by omega) (by omega)) n1 (ok.Tw r c (by omega) (by omega)))
  have tdiag : ∀ i, i < ib → entry ν3 TT (j + i) i = ventry ν1 (TT.sub j (j + ib) 0 ib).tdiag i := by
    intro i hi
    rw [t32 _ _ (by omega) (by omega), ← h2.diag i (by omega) hi]
    simp [entry, MatV.sub]
  have hmod : ∀ i, i < ib → (j + i) % nb = i := by
    intro i hi
    rw [hj, Nat.mul_comm, Nat.mul_add_mod, Nat.mod_eq_of_lt (by omega)]
  have trel : blkH .Forward .Rowwise (A.n - j) ib (entry ν1 (A.sub j (j + ib) j (j + (A.n - j)))) (entry ν2 (TT.sub j (j + ib) 0 ib)) =
      houseP .Forward .Rowwise (A.n - j) ib (entry ν1 (A.sub j (j + ib) j (j + (A.n - j)))) (ventry ν1 (TT.sub j (j + ib) 0 ib).tdiag) :=
    mat_rel_q h2.trel
  have eV : ∀ a c, a < ib → c < A.n - j → entry ν2 (A.sub j (j + ib) j (j + (A.n - j))) a c = entry ν1 (A.sub j (j + ib) j (j + (A.n - j))) a c :=
    fun a c ha hc => a21 (j + a) (j + c) (by omega) (by omega)
  have eV3 : ∀ a c, a < ib → c < A.n - j → entry ν3 A (j + a) (j + c) = entry ν1 (A.sub j (j + ib) j (j + (A.n - j))) a c :=
    fun a c ha hc => (a32 _ _ (by omega) (by omega) (by omega)).trans (eV a c ha hc)
  refine ⟨?_, ?_, fun l hA hT hw => ?_⟩
  · have h0 : QRInv .Forward A.n A.m k (LG .Rowwise μ A.tr) j (LG .Rowwise ν A.tr)
        (fun i => if i < j then entry ν TT i (i % nb) else entry ν3 TT i (i % nb)) :=
      h.inv.congrG fun i hi => by rw [if_pos hi]
    refine h0.block (r0 := j) (q := A.n - j) (c0 := j) (t0 := j) (d0 := j + ib) (nr := A.m - j - ib) (by omega) (by omega) (by omega)
      rfl rfl rfl rfl rfl rfl ?_ ?_ ?_ ?_
    · have inv := h1.inv
      have e1 : (A.sub j (j + ib) j (j + (A.n - j))).tr.m = A.n - j := by simp [MatV.tr, MatV.sub]
      have e2 : (A.sub j (j + ib) j (j + (A.n - j))).tr.n = ib := by simp [MatV.tr, MatV.sub]
      rw [e1, e2] at inv
      refine inv.congr (le_refl _) (by omega) (le_refl _) (fun r c hr hc => ?_) (fun i hi => ?_)
      · show star (entry ν3 A (j + c) (j + r)) = star (entry ν1 (A.sub j (j + ib) j (j + (A.n - j))) c r)
        rw [eV3 c r hc hr]
      · show entry ν3 TT (j + i) ((j + i) % nb) = _
        rw [hmod i hi, tdiag i hi]
    · have e' := congrArg Matrix.conjTranspose h3
      rw [Matrix.conjTranspose_mul, mat_conjTranspose, mat_conjTranspose] at e'
      have eA : mat (A.n - j) (A.m - j - ib) (sh j (j + ib) (LG .Rowwise ν A.tr)) =
          mat (A.n - j) (A.m - j - ib) (fun c r => star (entry ν2 (A.sub (j + ib) A.m j (j + (A.n - j))) r c)) := by
        rw [mat_ext_iff]
        intro c r hc hr
        show star (entry ν A (j + ib + r) (j + c)) = star (entry ν2 A (j + ib + r) (j + c))
        rw [a21 _ _ (by omega) (by omega), a10 _ _ (by omega) (by omega) (by omega)]
      rw [eA]
      refine Eq.trans ?_ (e'.trans ?_)
      · rfl
      congr 1
      rw [blkH_row_congr (W := entry ν1 (A.sub j (j + ib) j (j + (A.n - j)))) (H := entry ν2 (TT.sub j (j + ib) 0 ib)) eV (fun _ _ _ _ => rfl), trel]
      congr 1
      unfold houseP
      congr 1
      refine List.map_congr_left fun i hi => ?_
      rw [List.mem_range] at hi
      have hq : qidx .Forward ib i = i := by simp [qidx]
      rw [hq]
      unfold houseH
      beta_reduce
      rw [hmod i hi, tdiag i hi, mat_ext_iff]
      intro r c hr hc
      have hv : ∀ r, r < A.n - j → houseVec .Forward .Rowwise (A.n - j) ib (entry ν1 (A.sub j (j + ib) j (j + (A.n - j)))) i r =
          houseVec .Forward .Columnwise (A.n - j) ib (sh j j (LG .Rowwise ν3 A.tr)) i r := by
        intro r hr
        unfold houseVec
        simp only [reduceCtorEq, if_true, if_false]
        rw [← eV3 i r hi hr]
        rfl
      unfold reflF
      rw [hv r hr, hv c hc]
    · intro r c hr hc hd
      show star (entry ν3 A c r) = star (entry ν A c r)
      rw [a32 c r (by omega) (by omega) (by omega), a21 c r (by omega) (by omega), a10 c r (by omega) (by omega) (by omega)]
    · intro i hi hd
      by_cases a : i < j
      · rw [if_pos a, t32 _ _ (by omega) (Nat.mod_lt _ hnb), t20 _ _ a (Nat.mod_lt _ hnb)]
      · rw [if_neg a]
  · intro b' ib' hb hib' hle
    by_cases e : b' = b
    · subst e
      have : ib' = ib := by omega
      subst this
      rw [← hj]
      rw [blkH_row_congr (W := entry ν1 (A.sub j (j + ib') j (j + (A.n - j)))) (H := entry ν2 (TT.sub j (j + ib') 0 ib')) eV3
        (fun a c ha hc => (t32 _ _ (by omega) (by omega)).trans (by simp [entry, MatV.sub])), trel]
      exact (houseP_row_congr eV3 tdiag).symm
    · have hlt : b' * nb + ib' ≤ j := by
        rcases Nat.lt_or_ge b' b with h | h
        · have : (b' + 1) * nb ≤ b * nb := Nat.mul_le_mul_right _ h
          rw [Nat.add_mul] at this
          omega
        · have : (b + 1) * nb ≤ b' * nb := Nat.mul_le_mul_right _ (by omega)
          rw [Nat.add_mul] at this
          omega
      have hA : ∀ a c, a < ib' → c < A.n - b' * nb → entry ν3 A (b' * nb + a) (b' * nb + c) = entry ν A (b' * nb + a) (b' * nb + c) := by
        intro a c ha hc
        rw [a32 _ _ (by omega) (by omega) (by omega), a21 _ _ (by omega) (by omega), a10 _ _ (by omega) (by omega) (by omega)]
      have hT : ∀ a c, a < ib' → c < ib' → entry ν3 TT (b' * nb + a) c = entry ν TT (b' * nb + a) c := by
        intro a c ha hc
        rw [t32 _ _ (by omega) (by omega), t20 _ _ (by omega) (by omega)]
      rw [blkH_row_congr hA hT, h.tb b' ib' hb hib' hlt]
      exact (houseP_row_congr hA fun i hi => hT i i hi hi).symm
  · rw [f3 l (fun ho => hA (ho.sub (le_refl _) (by omega))) (fun ho => hT (ho.sub (by omega) (by omega))),
      s2 l (fun ho => hT (ho.sub (by omega) (by omega))),
      s1 l (fun ho => hA (ho.sub (by omega) (by omega))) (fun ho => hT (ho.sub (by omega) (by omega))) hw, h.frame l hA hT hw]

theorem tdiag_n (A : MatV L) {q : Nat} (hm : A.m = q) (hn : A.n = q) : A.tdiag.n = q := by
  simp [MatV.tdiag, hm, hn]

/-- The panel: gelq2 and larft with `tau` on the diagonal of the triangular factor. -/
theorem wp_gelqtPanel (hl : HhLaws 𝕜 p) {A TT : MatV L} {work : VecV L} (ok : GqtOK A TT work) {j ib : Nat}
    (hjm : j + ib ≤ A.m) (hjn : j + ib ≤ A.n) (hTm : A.m ≤ TT.m) (hibn : ib ≤ TT.n)
    (hw : gelq2Worksize (A.sub j (j + ib) j A.n) ≤ work.n) {ν : Store L 𝕜}
    (hb : ColBound p .Rowwise ν (A.sub j (j + ib) j (j + (A.n - j))).tr)
    {Q : Store L 𝕜 → Prop}
    (hQ : ∀ ν1 ν2, QrState .Forward .Rowwise (A.sub j (j + ib) j (j + (A.n - j))).tr (TT.sub j (j + ib) 0 ib).tdiag work ib ν ib ν1 →
      TInv .Forward ib (gramF (A.n - j) (houseVec .Forward .Rowwise (A.n - j) ib (entry ν1 (A.sub j (j + ib) j (j + (A.n - j))))))
        (ventry ν1 (TT.sub j (j + ib) 0 ib).tdiag) (TT.sub j (j + ib) 0 ib) 0 ib ν1 ν2 → Q ν2) :
    wp (gelq2 (hhOps p) (A.sub j (j + ib) j A.n) (TT.sub j (j + ib) 0 ib).tdiag work) ν
      (fun _ ν1 => wp (larft .Forward .Rowwise (A.sub j (j + ib) j A.n) (TT.sub j (j + ib) 0 ib).tdiag (TT.sub j (j + ib) 0 ib)) ν1
        fun _ ν2 => Q ν2) := by
  have eA : A.sub j (j + ib) j A.n = A.sub j (j + ib) j (j + (A.n - j)) := by
    rw [show j + (A.n - j) = A.n by omega]
  rw [eA] at hw ⊢
  have hdn : (TT.sub j (j + ib) 0 ib).tdiag.n = ib := tdiag_n _ (by simp [MatV.sub]) (by simp [MatV.sub])
  have oD : ∀ {l}, (TT.sub j (j + ib) 0 ib).tdiag.Owns l → TT.Owns l := by
    rintro l ⟨i, hi, e⟩
    rw [hdn] at hi
    exact ⟨j + i, 0 + i, by omega, by omega, e⟩
  have hmin : min (A.sub j (j + ib) j (j + (A.n - j))).m (A.sub j (j + ib) j (j + (A.n - j))).n = ib := by simp [MatV.sub]; omega
  have lok : QrOK (A.sub j (j + ib) j (j + (A.n - j))) (TT.sub j (j + ib) 0 ib).tdiag work := by
    refine ⟨ok.inj.sub (by omega) (by omega), ?_, ok.winj, ?_, ok.Aw.rows (by omega) (by omega), ?_⟩
    · intro i i' hi hi' e
      rw [hdn] at hi hi'
      have := ok.tinj _ _ _ _ (by omega) (by omega) (by omega) (by omega) (show TT.cell (j + i) (0 + i) = TT.cell (j + i') (0 + i') from e)
      omega
    · intro r c hr hc ho
      simp only [MatV.sub] at hr hc
      exact ok.AT (j + r) (j + c) (by omega) (by omega) (oD ho)
    · intro i hi ho
      rw [hdn] at hi
      exact ok.Tw (j + i) (0 + i) (by omega) (by omega) ho
  have loc := wp_gelq2 hl lok (by rw [hmin, hdn]) hw (μ := ν) hb
  rw [hmin] at loc
  refine wp_conseq loc fun _ ν1 ⟨_, h1⟩ => ?_
  have lw : LarftW .Rowwise (A.sub j (j + ib) j (j + (A.n - j))) (TT.sub j (j + ib) 0 ib).tdiag (TT.sub j (j + ib) 0 ib) := by
    refine ⟨ok.tinj.sub (by omega) (by omega), (ok.AT.sub_left (by omega) (by omega)).sub_right (by omega) (by omega), ?_, ?_, ?_, ?_, ?_⟩
    · intro i a b hi ha hb e
      rw [hdn] at hi
      simp only [MatV.sub] at ha hb
      have := ok.tinj _ _ _ _ (by omega) (by omega) (by omega) (by omega) (show TT.cell (j + a) (0 + b) = TT.cell (j + i) (0 + i) from e)
      omega
    · rw [hdn]; simp [vcnt, MatV.sub]
    · rw [hdn]; simp [vlen, MatV.sub]; omega
    · rw [hdn]; simp [MatV.sub]
    · rw [hdn]; simp [MatV.sub]
  have h2 := wp_larftW (dir := .Forward) lw ν1
  rw [hdn, show vlen .Rowwise (A.sub j (j + ib) j (j + (A.n - j))) = A.n - j by simp [vlen, MatV.sub]] at h2
  exact wp_conseq h2 fun _ ν2 h2 => hQ ν1 ν2 h1 h2.2

set_option maxHeartbeats 1000000 in
theorem wp_gelqt (hl : HhLaws 𝕜 p) (hreal : (hhOps (𝕜 := 𝕜) p).isReal = true → ∀ z : 𝕜, star z = z) {A TT : MatV L} {work : VecV L}
    (ok : GqtOK A TT work) (hmn : A.m ≤ A.n) (hTm : A.m ≤ TT.m) (hnb : 0 < TT.n) (hw : gelqtWorksize A TT ≤ work.n) {μ : Store L 𝕜}
    (hb : ColBound p .Rowwise μ A.tr) :
    wp (gelqt (hhOps p) A TT work) μ (fun r ν => r = 0 ∧ GqtState A TT work A.m TT.n μ A.m ν) := by
  unfold gelqt
  have hk : min A.m A.n = A.m := by omega
  simp only [wp_bind, wp_check, hk]
  rw [if_pos (by simp; omega)]
  have hst : GqtState A TT work A.m TT.n μ 0 μ :=
    ⟨QRInv.start _ _ _ _ _ _, fun b ib hb hib hle => by
      exfalso
      have : ib = 0 := by omega
      omega, fun _ _ _ _ => rfl⟩
  refine wp_forStep (fun j ν => GqtState A TT work A.m TT.n μ (min j A.m) ν ∧ ∃ b, j = b * TT.n) (by omega) ?_ ?_ 0 μ
    ⟨by rw [Nat.zero_min]; exact hst, 0, by simp⟩
  · rintro j ν hj ⟨hν, b, hb'⟩
    rw [show min j A.m = j by omega] at hν
    generalize hib : min TT.n (A.m - j) = ib
    have hnext : min (j + TT.n) A.m = j + ib := by omega
    have hnextb : ∃ b, j + TT.n = b * TT.n := ⟨b + 1, by rw [hb']; ring⟩
    unfold gelqtStep
    simp only [wp_bind, hib]
    refine wp_slice (by omega) (by omega) (by omega) (by omega) ?_
    refine wp_slice (by omega) (by omega) (by omega) (by omega) ?_
    have par : BlkPar .Forward A.n A.m A.m j ib j (A.n - j) j j (j + ib) (A.m - j - ib) := ⟨rfl, rfl, rfl, rfl, rfl, rfl⟩
    have hpan : ColBound p .Rowwise ν (A.sub j (j + ib) j (j + (A.n - j))).tr :=
      QRInv.panel (B := A.tr) (p := p) hν.inv (by omega) hmn (le_refl A.m) par hb
    refine wp_gelqtPanel hl ok (by omega) (by omega) hTm (by omega) ?_ hpan ?_
    · refine le_trans (gelq2Worksize_mono ?_ ?_) hw
      · simp [MatV.sub]; omega
      · simp [MatV.sub]
    intro ν1 ν2 h1 h2
    have eA : A.sub j (j + ib) j A.n = A.sub j (j + ib) j (j + (A.n - j)) := by
      rw [show j + (A.n - j) = A.n by omega]
    unfold gelqtUpdate
    rw [eA]
    by_cases hc : j + ib < A.m
    · rw [if_pos hc]
      simp only [wp_bind]
      refine wp_slice (by omega) (by omega) (by omega) (by omega) ?_
      refine wp_slice (by omega) (by omega) (by omega) (by omega) ?_
      rw [show A.sub (j + ib) A.m j A.n = A.sub (j + ib) A.m j (j + (A.n - j)) by rw [show j + (A.n - j) = A.n by omega]]
      have bok : LarfbOK .Right .Rowwise (A.sub j (j + ib) j (j + (A.n - j))) (TT.sub j (j + ib) 0 ib)
          (A.sub (j + ib) A.m j (j + (A.n - j))) (TT.sub (j + ib) A.m 0 ib).flat := by
        have fo : ∀ {l}, (TT.sub (j + ib) A.m 0 ib).flat.Owns l → (TT.sub (j + ib) A.m 0 ib).Owns l := flat_owns
        refine ⟨Or.inr rfl, ok.inj.sub (by omega) (by omega), flat_inj (ok.tinj.sub (by omega) (by omega)),
          ok.inj.disj_sub (by omega) (by omega) (by omega) (by omega) (by omega),
          fun r c hr hc ho => (ok.AT.sub_left (by omega) (by omega)) r c hr hc ((fo ho).sub (by omega) (by omega)),
          (ok.AT.symm.sub_left (by omega) (by omega)).sub_right (by omega) (by omega),
          fun r c hr hc ho => (ok.tinj.disj_sub (by omega) (by omega) (by omega) (by omega) (by omega)) r c hr hc (fo ho),
          fun r c hr hc ho => (ok.AT.sub_left (by omega) (by omega)) r c hr hc ((fo ho).sub (by omega) (by omega)),
          ?_, ?_, ?_, ?_, ?_⟩
        · simp [MatV.sub]
        · simp [vcnt, MatV.sub]
        · simp [vlen, MatV.sub]
        · simp [vlen, MatV.sub]; omega
        · simp [larfbWorksize, WorkInfo.size, WorkInfo.ofMat, MatV.sub, MatV.flat]
      refine wp_conseq (wp_larfb (dir := .Forward) (trans := .NoTrans) bok (Or.inl rfl) hreal ν2) fun _ ν3 ⟨_, e, fr⟩ => ?_
      simp only [wp_pure]
      have := hν.step ok hmn rfl hTm rfl hnb hb' hj hib.symm h1 h2 (ν3 := ν3) ?_ (fun l a b => fr l a (fun ho => b (flat_owns ho)))
      · rw [hnext]; exact ⟨this, hnextb⟩
      · have em : ∀ q, (A.sub (j + ib) A.m j (j + (A.n - j))).m = q → ∀ q2, (A.sub (j + ib) A.m j (j + (A.n - j))).n = q2 →
            ∀ q3, (TT.sub j (j + ib) 0 ib).m = q3 →
            mat q q2 (entry ν3 (A.sub (j + ib) A.m j (j + (A.n - j)))) = mat q q2 (entry ν2 (A.sub (j + ib) A.m j (j + (A.n - j)))) *
              blkH .Forward .Rowwise q2 q3 (entry ν2 (A.sub j (j + ib) j (j + (A.n - j)))) (entry ν2 (TT.sub j (j + ib) 0 ib)) := by
          rintro _ rfl _ rfl _ rfl
          simpa [opQ] using e
        exact em _ (by simp [MatV.sub]; omega) _ (by simp [MatV.sub]) _ (by simp [MatV.sub])
    · rw [if_neg hc, wp_pure, wp_pure]
      have := hν.step ok hmn rfl hTm rfl hnb hb' hj hib.symm h1 h2 (ν3 := ν2) ?_ (fun _ _ _ => rfl)
      · rw [hnext]; exact ⟨this, hnextb⟩
      · have : A.m - j - ib = 0 := by omega
        rw [this]
        funext i
        exact absurd i.2 (by omega)
  · rintro j ν hj ⟨hν, -⟩
    rw [show min j A.m = A.m by omega] at hν
    exact ⟨rfl, hν⟩

end TLA
