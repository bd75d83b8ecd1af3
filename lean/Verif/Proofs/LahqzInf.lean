import Verif.Proofs.Gghrd
import Verif.Model.LahqzInf

/-! Deflation of infinite eigenvalues in lahqz. -/

set_option linter.unusedTactic false
set_option linter.unusedSectionVars false
set_option linter.unusedVariables false
set_option linter.unreachableTactic false
set_option linter.unusedSimpArgs false

namespace TLA
open Matrix Finset
variable {L T : Type} [DecidableEq L] [Field T] [StarRing T] [DecidableEq T]
variable {o : RotOps T} {wantq wantz : Bool} {A B Q Z : MatV L} {μ ν ν' : Store L T}
  {FA FB FQ FZ F : Nat → Nat → T}

theorem lz_rm_ne {p q r k : Nat} {c s : T} (h1 : k ≠ p) (h2 : k ≠ q) : rowMap (pairRot p q c s) F r k = F r k := by
  unfold rowMap pairRot; rw [if_neg h1, if_neg h2]

theorem lz_rm_z {p q r k : Nat} {c s : T} (h1 : F r p = 0) (h2 : F r q = 0) : rowMap (pairRot p q c s) F r k = F r k := by
  unfold rowMap pairRot
  by_cases e : k = p
  · rw [if_pos e, e, h1, h2]; ring
  · rw [if_neg e]
    by_cases e' : k = q
    · rw [if_pos e', e', h1, h2]; ring
    · rw [if_neg e']

theorem lz_cm_ne {p q r k : Nat} {c s : T} (h1 : r ≠ p) (h2 : r ≠ q) : colMap (pairRot p q c s) F r k = F r k := by
  unfold colMap pairRot; rw [if_neg h1, if_neg h2]

theorem lz_cm_z {p q r k : Nat} {c s : T} (h1 : F p k = 0) (h2 : F q k = 0) : colMap (pairRot p q c s) F r k = F r k := by
  unfold colMap pairRot
  beta_reduce
  by_cases e : r = p
  · rw [if_pos e, e, h1, h2]; ring
  · rw [if_neg e]
    by_cases e' : r = q
    · rw [if_pos e', e', h1, h2]; ring
    · rw [if_neg e']

theorem wp_lzInfRight (ho : RotLaws o) (ok : GghrdOK wantq wantz 0 A.n A B Q Z)
    (h : GgMem wantq wantz A B Q Z μ FA FB FQ FZ ν) {j : Nat} (h0 : 1 ≤ j) (hj : j < A.n)
    (zA : ∀ r, j + 2 ≤ r → r < A.n → FA r j = 0 ∧ FA r (j - 1) = 0)
    (zB : ∀ r, j ≤ r → r < A.n → FB r j = 0 ∧ FB r (j - 1) = 0) :
    wp (lzInfRight o wantz A B Z A.n j) ν (fun _ ν' => ∃ c s, IsRot c s ∧
      c * FB (j - 1) (j - 1) = star s * FB (j - 1) j ∧
      GgMem wantq wantz A B Q Z μ (rowMap (pairRot j (j - 1) c s) FA) (rowMap (pairRot j (j - 1) c s) FB)
        FQ (rowMap (pairRot j (j - 1) c s) FZ) ν') := by
  have k1 := ok.Am
  have k2 := ok.Bm
  have k3 := ok.Bn
  have k4 := ok.Zm
  have k5 := ok.Zn
  have ne : ¬ j - 1 = j := by omega
  have ne' : ¬ j = j - 1 := by omega
  unfold lzInfRight
  rw [wp_bind]
  have bB : MState B ν FB ν := ⟨h.b, fun _ _ => rfl⟩
  refine wp_conseq (wp_rotgAt ho bB ok.injB (by omega : j - 1 < B.m) (by omega : j < B.n) (by omega : j - 1 < B.m) (by omega : j - 1 < B.n)) ?_
  rintro ⟨c, s⟩ ν1 ⟨z, hrot, hann, h1⟩
  dsimp only at hrot hann h1 ⊢
  rw [wp_bind]
  refine wp_conseq (wp_setM h1 ok.injB (by omega) (by omega) 0) ?_
  intro _ ν2 h2
  simp only [wp_bind]
  refine wp_sliceCol (by omega) (by omega) (by omega) ?_
  refine wp_sliceCol (by omega) (by omega) (by omega) ?_
  refine wp_conseq (wp_rotCols h2 ok.injB (by omega) (by omega) (by omega) (by omega) c s) ?_
  intro _ ν3 h3
  have m3 := h.setB ok (F := rowMap (pairRot j (j - 1) c s) FB) (h3.congr fun r q hr hq => by
    by_cases hc : r < j - 1
    · rw [if_pos hc]
      have e0 : ¬ r = j - 1 := by omega
      unfold rowMap pairRot
      simp only [e0, false_and, if_false]
    · rw [if_neg hc]
      by_cases e : r = j - 1
      · subst e
        unfold rowMap pairRot
        by_cases e2 : q = j
        · subst e2; simp [ne, ne']
        · rw [if_neg e2]
          by_cases e3 : q = j - 1
          · subst e3
            simp only [if_true, and_self]
            linear_combination hann
          · simp [e2, e3]
      · obtain ⟨z1, z2⟩ := zB r (by omega) (by omega)
        rw [lz_rm_z z1 z2]
        simp only [e, false_and, if_false])
  have bA : MState A ν3 FA ν3 := ⟨m3.a, fun _ _ => rfl⟩
  refine wp_sliceCol (by omega) (by omega) (by omega) ?_
  refine wp_sliceCol (by omega) (by omega) (by omega) ?_
  refine wp_conseq (wp_rotCols bA ok.injA (by omega) (by omega) (by omega) (by omega) c s) ?_
  intro _ ν4 h4
  have m4 := m3.setA ok (F := rowMap (pairRot j (j - 1) c s) FA) (h4.congr fun r q hr hq => by
    by_cases hc : r < min (j + 2) A.n
    · rw [if_pos hc]
    · rw [if_neg hc]
      obtain ⟨z1, z2⟩ := zA r (by omega) (by omega)
      rw [lz_rm_z z1 z2])
  rw [wp_ite]
  split
  · next w =>
    simp only [wp_bind]
    refine wp_sliceCol (by omega) (by omega) (by omega) ?_
    refine wp_sliceCol (by omega) (by omega) (by omega) ?_
    have bZ : MState Z ν4 FZ ν4 := ⟨m4.z w, fun _ _ => rfl⟩
    refine wp_conseq (wp_rotCols bZ (ok.injZ w) (by omega) (by omega) (by omega) (by omega) c s) ?_
    intro _ ν5 h5
    exact ⟨c, s, hrot, hann, m4.setZ ok w (h5.congr fun r q hr hq => by rw [if_pos (by omega)])⟩
  · next w =>
    rw [wp_pure]
    exact ⟨c, s, hrot, hann, ⟨m4.a, m4.b, m4.q, fun w' => absurd w' w, m4.frame⟩⟩

theorem wp_lzInfLeft (ho : RotLaws o) (ok : GghrdOK wantq wantz 0 A.n A B Q Z)
    (h : GgMem wantq wantz A B Q Z μ FA FB FQ FZ ν) {p k : Nat} (hk : k ≤ p) (hp : p + 1 < A.n)
    (zA : ∀ c, c < k → FA p c = 0 ∧ FA (p + 1) c = 0) (zB : ∀ c, c ≤ p → FB p c = 0 ∧ FB (p + 1) c = 0) :
    wp (lzInfLeft o wantq A B Q A.n p k) ν (fun _ ν' => ∃ c s, IsRot c s ∧ c * FA (p + 1) k = star s * FA p k ∧
      GgMem wantq wantz A B Q Z μ (colMap (pairRot p (p + 1) c s) FA) (colMap (pairRot p (p + 1) c s) FB)
        (rowMap (pairRot p (p + 1) c (star s)) FQ) FZ ν') := by
  have k1 := ok.Am
  have k2 := ok.Bm
  have k3 := ok.Bn
  have k4 := ok.Qm
  have k5 := ok.Qn
  unfold lzInfLeft
  rw [wp_bind]
  have bA : MState A ν FA ν := ⟨h.a, fun _ _ => rfl⟩
  refine wp_conseq (wp_rotgAt ho bA ok.injA (by omega : p < A.m) (by omega : k < A.n) (by omega : p + 1 < A.m) (by omega : k < A.n)) ?_
  rintro ⟨c, s⟩ ν1 ⟨z, hrot, hann, h1⟩
  dsimp only at hrot hann h1 ⊢
  rw [wp_bind]
  refine wp_conseq (wp_setM h1 ok.injA (by omega) (by omega) 0) ?_
  intro _ ν2 h2
  simp only [wp_bind]
  refine wp_sliceRow (by omega) (by omega) (by omega) ?_
  refine wp_sliceRow (by omega) (by omega) (by omega) ?_
  refine wp_conseq (wp_rotRows h2 ok.injA (by omega) (by omega) (by omega) (by omega) c s) ?_
  intro _ ν3 h3
  have m3 := h.setA ok (F := colMap (pairRot p (p + 1) c s) FA) (h3.congr fun r q hr hq => by
    have ne : ¬ p = p + 1 := by omega
    have ne' : ¬ p + 1 = p := by omega
    by_cases hc : k + 1 ≤ q ∧ q < A.n
    · rw [if_pos hc]
      have e1 : ¬ q = k := by omega
      unfold colMap pairRot
      simp only [e1, and_false, if_false]
    · rw [if_neg hc]
      by_cases e1 : q = k
      · subst e1
        unfold colMap pairRot
        by_cases e2 : r = p
        · rw [if_pos e2]; simp [e2, ne]
        · rw [if_neg e2]
          by_cases e3 : r = p + 1
          · rw [if_pos e3]; simp only [e3, and_self, if_true]; linear_combination hann
          · simp [e2, e3]
      · have hq' : q < k := by omega
        obtain ⟨z1, z2⟩ := zA q hq'
        rw [lz_cm_z z1 z2]
        simp only [e1, and_false, if_false])
  have bB : MState B ν3 FB ν3 := ⟨m3.b, fun _ _ => rfl⟩
  refine wp_sliceRow (by omega) (by omega) (by omega) ?_
  refine wp_sliceRow (by omega) (by omega) (by omega) ?_
  refine wp_conseq (wp_rotRows bB ok.injB (by omega) (by omega) (by omega) (by omega) c s) ?_
  intro _ ν4 h4
  have m4 := m3.setB ok (F := colMap (pairRot p (p + 1) c s) FB) (h4.congr fun r q hr hq => by
    by_cases hc : p + 1 ≤ q ∧ q < A.n
    · rw [if_pos hc]
    · rw [if_neg hc]
      obtain ⟨z1, z2⟩ := zB q (by omega)
      rw [lz_cm_z z1 z2])
  rw [wp_ite]
  split
  · next w =>
    simp only [wp_bind]
    refine wp_sliceCol (by omega) (by omega) (by omega) ?_
    refine wp_sliceCol (by omega) (by omega) (by omega) ?_
    have bQ : MState Q ν4 FQ ν4 := ⟨m4.q w, fun _ _ => rfl⟩
    refine wp_conseq (wp_rotCols bQ (ok.injQ w) (by omega) (by omega) (by omega) (by omega) c (star s)) ?_
    intro _ ν5 h5
    exact ⟨c, s, hrot, hann, m4.setQ ok w (h5.congr fun r q hr hq => by rw [if_pos (by omega)])⟩
  · next w =>
    rw [wp_pure]
    exact ⟨c, s, hrot, hann, ⟨m4.a, m4.b, fun w' => absurd w' w, m4.z, m4.frame⟩⟩

/-- The shape in the window `[s, e)`; `x` is the position of the zero on the diagonal of `B`. -/
structure LzShape (n s e : Nat) (FA FB : Nat → Nat → T) : Prop where
  bt : ∀ r c, r < n → c < r → FB r c = 0
  hs : ∀ r c, r < n → c + 1 < r → FA r c = 0
  top : ∀ c, s < n → c < s → FA s c = 0
  bot : ∀ c, e < n → c < e → FA e c = 0

/-- Nothing changed outside the rows and columns of the window. -/
def LzSame (s e : Nat) (F G : Nat → Nat → T) : Prop := ∀ r c, r < s ∨ e ≤ r → c < s ∨ e ≤ c → G r c = F r c

theorem LzSame.rm {s e p q : Nat} {c t : T} {F G : Nat → Nat → T} (h : LzSame s e F G) (h1 : s ≤ p) (h2 : p < e) (h3 : s ≤ q) (h4 : q < e) :
    LzSame s e F (rowMap (pairRot p q c t) G) := fun r k hr hk => by
  rw [lz_rm_ne (by omega) (by omega)]; exact h r k hr hk

theorem LzSame.cm {s e p q : Nat} {c t : T} {F G : Nat → Nat → T} (h : LzSame s e F G) (h1 : s ≤ p) (h2 : p < e) (h3 : s ≤ q) (h4 : q < e) :
    LzSame s e F (colMap (pairRot p q c t) G) := fun r k hr hk => by
  rw [lz_cm_ne (by omega) (by omega)]; exact h r k hr hk

/-- One step of the chase: everything that is kept, with the zero of `B` at `j`. -/
def LzChase (wantq wantz : Bool) (A B Q Z : MatV L) (μ : Store L T) (A0 B0 Q0 Z0 GA GB : Nat → Nat → T) (s e j : Nat) (ν : Store L T) : Prop :=
  ∃ FA FB FQ FZ, GgMem wantq wantz A B Q Z μ FA FB FQ FZ ν ∧ GgEq wantq wantz A.n A0 B0 Q0 Z0 FA FB FQ FZ ∧
    LzShape A.n s e FA FB ∧ FB j j = 0 ∧ LzSame s e GA FA ∧ LzSame s e GB FB

set_option maxHeartbeats 1000000 in
theorem wp_lzInfChase_loop (ho : RotLaws o) (ok : GghrdOK wantq wantz 0 A.n A B Q Z) {A0 B0 Q0 Z0 GA GB : Nat → Nat → T}
    {s e j : Nat} (hsj : s < j) (hje : j < e) (hen : e ≤ A.n) (h : LzChase wantq wantz A B Q Z μ A0 B0 Q0 Z0 GA GB s e j ν) :
    wp (do lzInfRight o wantz A B Z A.n j
           if j < e - 1 then lzInfLeft o wantq A B Q A.n j (j - 1) else pure ()) ν
      (fun _ => LzChase wantq wantz A B Q Z μ A0 B0 Q0 Z0 GA GB s e (j - 1)) := by
  obtain ⟨FA, FB, FQ, FZ, m, eq, sh, z0, sA, sB⟩ := h
  rw [wp_bind]
  refine wp_conseq (wp_lzInfRight ho ok m (by omega) (by omega) (fun r h1 h2 => ⟨sh.hs r j h2 (by omega), sh.hs r (j - 1) h2 (by omega)⟩)
    (fun r h1 h2 => ⟨?_, sh.bt r _ h2 (by omega)⟩)) ?_
  · rcases Nat.eq_or_lt_of_le h1 with rfl | h
    · exact z0
    · exact sh.bt r j h2 h
  rintro _ ν1 ⟨c, t, hr, hann, m1⟩
  have q1 := eq.right (by omega : j < A.n) (by omega : j - 1 < A.n) (by omega) hr
  have sA1 := sA.rm (c := c) (t := t) (by omega : s ≤ j) (by omega) (by omega : s ≤ j - 1) (by omega)
  have sB1 := sB.rm (c := c) (t := t) (by omega : s ≤ j) (by omega) (by omega : s ≤ j - 1) (by omega)
  -- the shape after the right rotation
  have bt1 : ∀ r k, r < A.n → k < r ∨ (r = j - 1 ∧ k = j - 1) ∨ (r = j ∧ k = j) → rowMap (pairRot j (j - 1) c t) FB r k = 0 := by
    intro r k h1 h2
    by_cases e1 : j ≤ r
    · have z1 : FB r j = 0 := by
        rcases Nat.eq_or_lt_of_le e1 with rfl | h
        · exact z0
        · exact sh.bt r j h1 h
      rw [lz_rm_z z1 (sh.bt r _ h1 (by omega))]
      by_cases e2 : k = j
      · rw [e2, z1]
      · exact sh.bt r k h1 (by omega)
    · by_cases e2 : k < r
      · rw [lz_rm_ne (by omega) (by omega)]; exact sh.bt r k h1 e2
      · have e3 : r = j - 1 ∧ k = j - 1 := by omega
        obtain ⟨rfl, rfl⟩ := e3
        unfold rowMap pairRot
        rw [if_neg (by omega), if_pos rfl]
        linear_combination hann
  have hs1 : ∀ r k, r < A.n → k + 1 < r → ¬ (r = j + 1 ∧ k = j - 1) → rowMap (pairRot j (j - 1) c t) FA r k = 0 := by
    intro r k h1 h2 h3
    by_cases e1 : j + 2 ≤ r
    · rw [lz_rm_z (sh.hs r j h1 (by omega)) (sh.hs r _ h1 (by omega))]; exact sh.hs r k h1 h2
    · rw [lz_rm_ne (by omega) (by omega)]; exact sh.hs r k h1 h2
  have top1 : ∀ k, s < A.n → k < s → rowMap (pairRot j (j - 1) c t) FA s k = 0 := fun k _ hk => by
    rw [lz_rm_ne (by omega) (by omega)]; exact sh.top k (by omega) hk
  have bot1 : ∀ k, e < A.n → k < e → rowMap (pairRot j (j - 1) c t) FA e k = 0 := fun k h1 h2 => by
    rw [lz_rm_z (sh.bot j h1 (by omega)) (sh.bot _ h1 (by omega))]; exact sh.bot k h1 h2
  generalize rowMap (pairRot j (j - 1) c t) FA = HA at *
  generalize rowMap (pairRot j (j - 1) c t) FB = HB at *
  rw [wp_ite]
  split
  · next hlt =>
    refine wp_conseq (wp_lzInfLeft ho ok m1 (by omega) (by omega) (fun k hk => ⟨hs1 _ k (by omega) (by omega) (by omega), hs1 _ k (by omega) (by omega) (by omega)⟩)
      (fun k hk => ⟨bt1 _ k (by omega) (by omega), bt1 _ k (by omega) (by omega)⟩)) ?_
    rintro _ ν2 ⟨c', t', hr', hann', m2⟩
    refine ⟨_, _, _, _, m2, q1.left (by omega) (by omega) (by omega) hr', ⟨?_, ?_, ?_, ?_⟩, ?_, sA1.cm (by omega) (by omega) (by omega) (by omega),
      sB1.cm (by omega) (by omega) (by omega) (by omega)⟩
    · intro r k h1 h2
      by_cases e1 : k ≤ j
      · rw [lz_cm_z (bt1 _ k (by omega) (by omega)) (bt1 _ k (by omega) (by omega))]; exact bt1 r k h1 (Or.inl h2)
      · rw [lz_cm_ne (by omega) (by omega)]; exact bt1 r k h1 (Or.inl h2)
    · intro r k h1 h2
      by_cases e0 : k + 1 < j
      · rw [lz_cm_z (hs1 _ k (by omega) (by omega) (by omega)) (hs1 _ k (by omega) (by omega) (by omega))]; exact hs1 r k h1 h2 (by omega)
      · by_cases e1 : r = j + 1
        · have e2 : k = j - 1 := by omega
          subst e1 e2
          unfold colMap pairRot
          rw [if_neg (by omega), if_pos rfl]
          linear_combination hann'
        · rw [lz_cm_ne (by omega) (by omega)]; exact hs1 r k h1 h2 (by omega)
    · intro k hn hk
      rw [lz_cm_ne (by omega) (by omega)]; exact top1 k hn hk
    · intro k h1 h2
      rw [lz_cm_ne (by omega) (by omega)]; exact bot1 k h1 h2
    · rw [lz_cm_ne (by omega) (by omega)]; exact bt1 _ _ (by omega) (by omega)
  · next hlt =>
    rw [wp_pure]
    refine ⟨_, _, _, _, m1, q1, ⟨fun r k h1 h2 => bt1 r k h1 (Or.inl h2), fun r k h1 h2 => ?_, top1, bot1⟩, bt1 _ _ (by omega) (by omega), sA1, sB1⟩
    by_cases e1 : r = j + 1 ∧ k = j - 1
    · have e2 : r = e := by omega
      subst e2
      exact bot1 k h1 (by omega)
    · exact hs1 r k h1 h2 e1

set_option maxHeartbeats 1000000 in
theorem wp_lzInfChase (ho : RotLaws o) (ok : GghrdOK wantq wantz 0 A.n A B Q Z) {A0 B0 Q0 Z0 : Nat → Nat → T}
    {s e i : Nat} (hsi : s ≤ i) (hie : i < e) (hen : e ≤ A.n) (m : GgMem wantq wantz A B Q Z μ FA FB FQ FZ ν)
    (eq : GgEq wantq wantz A.n A0 B0 Q0 Z0 FA (fun r c => if r = i ∧ c = i then 0 else FB r c) FQ FZ) (sh : LzShape A.n s e FA FB) :
    wp (lzInfChase o wantq wantz A B Q Z A.n s e i) ν (fun _ ν' => ∃ FA' FB' FQ' FZ', GgMem wantq wantz A B Q Z μ FA' FB' FQ' FZ' ν' ∧
      GgEq wantq wantz A.n A0 B0 Q0 Z0 FA' FB' FQ' FZ' ∧ LzShape A.n s e FA' FB' ∧ FB' s s = 0 ∧ (s + 1 < A.n → FA' (s + 1) s = 0) ∧
      LzSame s e FA FA' ∧ LzSame s e FB FB') := by
  have k2 := ok.Bm
  have k3 := ok.Bn
  unfold lzInfChase
  rw [wp_bind]
  have bB : MState B ν FB ν := ⟨m.b, fun _ _ => rfl⟩
  refine wp_conseq (wp_setM bB ok.injB (by omega) (by omega) 0) ?_
  intro _ ν1 h1
  rw [wp_bind]
  refine wp_forDown_ (fun j => LzChase wantq wantz A B Q Z μ A0 B0 Q0 Z0 FA FB s e (j - 1)) (by omega)
    ⟨FA, _, FQ, FZ, m.setB ok h1, eq, ⟨fun r c hr hc => ?_, sh.hs, sh.top, sh.bot⟩, by simp, fun _ _ _ _ => rfl, fun r c hr hc => if_neg (by omega)⟩ ?_ ?_
  · rw [if_neg (by omega)]; exact sh.bt r c hr hc
  · intro j ν' h1 h2 h
    exact wp_lzInfChase_loop ho ok (by omega) (by omega) hen h
  · rintro ν2 ⟨FA', FB', FQ', FZ', m2, q2, sh2, z2, sA, sB⟩
    rw [Nat.add_sub_cancel] at z2
    rw [wp_ite]
    split
    · next hlt =>
      refine wp_conseq (wp_lzInfLeft ho ok m2 le_rfl (by omega) (fun k hk => ⟨sh2.top k (by omega) hk, sh2.hs _ k (by omega) (by omega)⟩)
        (fun k hk => ⟨?_, sh2.bt _ k (by omega) (by omega)⟩)) ?_
      · by_cases e1 : k = s
        · rw [e1, z2]
        · exact sh2.bt _ k (by omega) (by omega)
      rintro _ ν3 ⟨c, t, hr, hann, m3⟩
      refine ⟨_, _, _, _, m3, q2.left (by omega) (by omega) (by omega) hr, ⟨?_, ?_, ?_, ?_⟩, ?_, fun _ => ?_, sA.cm (by omega) (by omega) (by omega) (by omega),
        sB.cm (by omega) (by omega) (by omega) (by omega)⟩
      · intro r k h1 h2
        by_cases e1 : k ≤ s
        · rw [lz_cm_z _ (sh2.bt _ k (by omega) (by omega))]
          · exact sh2.bt r k h1 h2
          · by_cases e2 : k = s
            · rw [e2, z2]
            · exact sh2.bt _ k (by omega) (by omega)
        · rw [lz_cm_ne (by omega) (by omega)]; exact sh2.bt r k h1 h2
      · intro r k h1 h2
        by_cases e1 : k < s
        · rw [lz_cm_z (sh2.top k (by omega) e1) (sh2.hs _ k (by omega) (by omega))]; exact sh2.hs r k h1 h2
        · rw [lz_cm_ne (by omega) (by omega)]; exact sh2.hs r k h1 h2
      · intro k _ hk
        rw [lz_cm_z (sh2.top k (by omega) hk) (sh2.hs _ k (by omega) (by omega))]; exact sh2.top k (by omega) hk
      · intro k h1 h2
        rw [lz_cm_ne (by omega) (by omega)]; exact sh2.bot k h1 h2
      · rw [lz_cm_z z2 (sh2.bt _ _ (by omega) (by omega))]; exact z2
      · unfold colMap pairRot
        rw [if_neg (by omega), if_pos rfl]
        linear_combination hann
    · next hlt =>
      rw [wp_pure]
      refine ⟨_, _, _, _, m2, q2, sh2, z2, fun h => ?_, sA, sB⟩
      have : s + 1 = e := by omega
      rw [this]
      exact sh2.bot s (by omega) (by omega)

end TLA
