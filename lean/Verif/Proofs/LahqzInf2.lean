import Verif.Proofs.LahqzInf
import Verif.SpecLahqzInf

/-! Deflation of infinite eigenvalues in lahqz: the loop. -/

set_option linter.unusedTactic false
set_option linter.unusedSectionVars false
set_option linter.unusedVariables false
set_option linter.unreachableTactic false
set_option linter.unusedSimpArgs false

namespace TLA
open Matrix Finset
variable {L T : Type} [DecidableEq L] [Field T] [StarRing T] [DecidableEq T]
variable {o : RotOps T} {wantq wantz : Bool} {A B Q Z : MatV L} {μ ν ν' : Store L T}
  {FA FB FQ FZ F : Nat → Nat → T}

theorem lz_drop {n : Nat} {A0 B0 Q0 Z0 : Nat → Nat → T} (h : GgEq wantq wantz n A0 B0 Q0 Z0 FA FB FQ FZ) {i : Nat} (hi : i < n) :
    ∃ (B1 : Nat → Nat → T) (x y : Fin n → T), star x ⬝ᵥ x = 1 ∧ star y ⬝ᵥ y = 1 ∧ mat n n B0 = mat n n B1 + FB i i • vecMulVec x (star y) ∧
      GgEq wantq wantz n A0 B1 Q0 Z0 FA (fun r c => if r = i ∧ c = i then 0 else FB r c) FQ FZ := by
  obtain ⟨U, V, hU, hV, ha, hb, hq, hz⟩ := h
  refine ⟨fun r c => if h : r < n ∧ c < n then (U * mat n n (fun r c => if r = i ∧ c = i then 0 else FB r c) * Vᴴ) ⟨r, h.1⟩ ⟨c, h.2⟩ else 0,
    fun r => U r ⟨i, hi⟩, fun r => V r ⟨i, hi⟩, ?_, ?_, ?_, U, V, hU, hV, ha, ?_, hq, hz⟩
  · have := congrFun (congrFun hU ⟨i, hi⟩) ⟨i, hi⟩
    rw [Matrix.one_apply_eq] at this
    exact this
  · have := congrFun (congrFun hV ⟨i, hi⟩) ⟨i, hi⟩
    rw [Matrix.one_apply_eq] at this
    exact this
  · have e1 : mat n n (fun r c => if h : r < n ∧ c < n then (U * mat n n (fun r c => if r = i ∧ c = i then 0 else FB r c) * Vᴴ) ⟨r, h.1⟩ ⟨c, h.2⟩ else 0)
        = U * mat n n (fun r c => if r = i ∧ c = i then 0 else FB r c) * Vᴴ := by
      ext r c
      show (if h : r.1 < n ∧ c.1 < n then _ else _) = _
      rw [dif_pos ⟨r.2, c.2⟩]
    have e2 : FB i i • vecMulVec (fun r => U r ⟨i, hi⟩) (star fun r => V r ⟨i, hi⟩) =
        U * (Matrix.single (⟨i, hi⟩ : Fin n) ⟨i, hi⟩ (FB i i)) * Vᴴ := by
      ext r c
      rw [Matrix.smul_apply, Matrix.vecMulVec_apply, Matrix.mul_apply, Finset.sum_eq_single (⟨i, hi⟩ : Fin n)]
      · rw [Matrix.mul_single_apply_same, conjTranspose_apply, Pi.star_apply, smul_eq_mul]; ring
      · intro b _ hb
        rw [Matrix.mul_single_apply_of_ne _ _ _ _ _ hb, zero_mul]
      · simp
    have e3 : mat n n FB = mat n n (fun r c => if r = i ∧ c = i then 0 else FB r c) + Matrix.single (⟨i, hi⟩ : Fin n) ⟨i, hi⟩ (FB i i) := by
      ext r c
      rw [Matrix.add_apply]
      show FB r c = (if r.1 = i ∧ c.1 = i then 0 else FB r c) + _
      by_cases e : r.1 = i ∧ c.1 = i
      · have er : r = ⟨i, hi⟩ := Fin.ext e.1
        have ec : c = ⟨i, hi⟩ := Fin.ext e.2
        rw [if_pos e, er, ec, Matrix.single_apply_same, zero_add]
      · rw [if_neg e, Matrix.single_apply_of_ne, add_zero]
        rintro ⟨rfl, rfl⟩
        exact e ⟨rfl, rfl⟩
    rw [e1, e2, hb, e3, Matrix.mul_add, Matrix.add_mul]
  · ext r c
    show (if h : r.1 < n ∧ c.1 < n then _ else _) = _
    rw [dif_pos ⟨r.2, c.2⟩]

/-- The invariant of the loop over the diagonal of `B`. -/
structure LzInf (negl : T → Bool) (wantq wantz : Bool) (A B Q Z : MatV L) (μ : Store L T) (s0 e : Nat) (al0 be0 : Nat → T) (i s : Nat)
    (al be : Nat → T) (ν : Store L T) (FA FB FQ FZ B0 : Nat → Nat → T) (G : Matrix (Fin A.n) (Fin A.n) T) : Prop where
  mem : GgMem wantq wantz A B Q Z μ FA FB FQ FZ ν
  eqn : GgEq wantq wantz A.n (entry μ A) B0 (entry μ Q) (entry μ Z) FA FB FQ FZ
  per : mat A.n A.n (entry μ B) = mat A.n A.n B0 + G
  neg : NegSum negl (s - s0) G
  shape : LzShape A.n s e FA FB
  lo : s0 ≤ s
  hi : s ≤ i
  fin : ∀ t, s0 ≤ t → t < s → FB t t = 0 ∧ (t + 1 < A.n → FA (t + 1) t = 0) ∧ al t = FA t t ∧ be t = 0
  sA : LzSame s0 e (entry μ A) FA
  sB : LzSame s0 e (entry μ B) FB
  out : ∀ t, t < s0 ∨ s ≤ t → al t = al0 t ∧ be t = be0 t
  idle : s = s0 → ν = μ ∧ ∀ t, s0 ≤ t → t < i → negl (entry μ B t t) = false

theorem LzSame.mono {s s' e : Nat} {F G : Nat → Nat → T} (h : LzSame s e F G) (hs : s' ≤ s) : LzSame s' e F G :=
  fun r c h1 h2 => h r c (by omega) (by omega)

theorem LzSame.trans {s e : Nat} {F G H : Nat → Nat → T} (h : LzSame s e F G) (g : LzSame s e G H) : LzSame s e F H :=
  fun r c h1 h2 => (g r c h1 h2).trans (h r c h1 h2)

set_option maxHeartbeats 1000000 in
theorem wp_lzInf (ho : RotLaws o) (ok : GghrdOK wantq wantz 0 A.n A B Q Z) (negl : T → Bool) {s0 e : Nat} (hse : s0 ≤ e) (hen : e ≤ A.n)
    (sh : LzShape A.n s0 e (entry μ A) (entry μ B)) (al0 be0 : Nat → T) :
    wp (lzInf o negl wantq wantz A B Q Z A.n s0 e al0 be0) μ (fun r ν => ∃ FA FB FQ FZ B0 G,
      LzInf negl wantq wantz A B Q Z μ s0 e al0 be0 e r.1 r.2.1 r.2.2 ν FA FB FQ FZ B0 G) := by
  have k1 := ok.Am
  have k2 := ok.Bm
  have k3 := ok.Bn
  unfold lzInf
  refine wp_forUp (fun i st ν => ∃ FA FB FQ FZ B0 G,
      LzInf negl wantq wantz A B Q Z μ s0 e al0 be0 i st.1 st.2.1 st.2.2 ν FA FB FQ FZ B0 G) hse ?_ ?_ (fun _ _ h => h)
  · exact ⟨entry μ A, entry μ B, entry μ Q, entry μ Z, entry μ B, 0,
      ⟨fun _ _ _ _ => rfl, fun _ _ _ _ => rfl, fun _ _ _ _ _ => rfl, fun _ _ _ _ _ => rfl, fun _ _ _ _ _ => rfl⟩,
      ⟨1, 1, by simp, by simp, by simp, by simp, by simp, by simp⟩, by rw [add_zero], by rw [Nat.sub_self]; exact .zero, sh, le_rfl, le_rfl,
      fun t h1 h2 => by omega, fun _ _ _ _ => rfl, fun _ _ _ _ => rfl, fun _ _ => ⟨rfl, rfl⟩, fun _ => ⟨rfl, fun t h1 h2 => by omega⟩⟩
  · rintro i ⟨s, al, be⟩ ν h1 h2 ⟨FA, FB, FQ, FZ, B0, G, I⟩
    dsimp only at I ⊢
    have ilo := I.lo
    have ihi := I.hi
    simp only [wp_bind, wp_get, I.mem.b i i (by omega) (by omega)]
    refine ⟨⟨by omega, by omega⟩, ?_⟩
    rw [wp_ite]
    split
    · next hn =>
      obtain ⟨B1, x, y, hx, hy, hB, eq1⟩ := lz_drop I.eqn (by omega : i < A.n)
      rw [wp_bind]
      refine wp_conseq (wp_lzInfChase ho ok I.hi h2 hen I.mem eq1 I.shape) ?_
      rintro _ ν' ⟨FA', FB', FQ', FZ', m, q, sh', z, z1, sA, sB⟩
      simp only [wp_bind, wp_get, wp_pure, m.a s s (by omega) (by omega)]
      refine ⟨⟨by omega, by omega⟩, FA', FB', FQ', FZ', B1, G + FB i i • vecMulVec x (star y), m, q, ?_, ?_, ⟨sh'.bt, sh'.hs, ?_, sh'.bot⟩, by omega, by omega,
        ?_, I.sA.trans (sA.mono I.lo), I.sB.trans (sB.mono I.lo), ?_, fun h => by omega⟩
      · rw [I.per, hB]; abel
      · rw [show s + 1 - s0 = s - s0 + 1 by omega]
        exact .add I.neg hn hx hy
      · intro c _ hc
        by_cases e1 : c = s
        · subst e1; exact z1 (by omega)
        · exact sh'.hs _ c (by omega) (by omega)
      · intro t t1 t2
        by_cases e1 : t = s
        · subst e1
          exact ⟨z, z1, by rw [Function.update_self], by rw [Function.update_self]⟩
        · obtain ⟨f1, f2, f3, f4⟩ := I.fin t t1 (by omega)
          rw [Function.update_of_ne e1, Function.update_of_ne e1]
          refine ⟨by rw [sB t t (by omega) (by omega)]; exact f1, fun ht => ?_, by rw [sA t t (by omega) (by omega)]; exact f3, f4⟩
          by_cases e2 : t + 1 = s
          · rw [e2]; exact sh'.top t (by omega) (by omega)
          · rw [sA (t + 1) t (by omega) (by omega)]; exact f2 ht
      · intro t ht
        rw [Function.update_of_ne (by omega), Function.update_of_ne (by omega)]
        exact I.out t (by omega)
    · next hn =>
      rw [wp_pure]
      refine ⟨FA, FB, FQ, FZ, B0, G, { I with hi := by omega, idle := fun h => ?_ }⟩
      obtain ⟨e1, e2⟩ := I.idle h
      refine ⟨e1, fun t t1 t2 => ?_⟩
      by_cases e3 : t = i
      · rw [e3]
        have := I.mem.b i i (by omega) (by omega)
        rw [e1] at this
        show negl (μ (B.cell i i)) = false
        rw [this]; simpa using hn
      · exact e2 t t1 (by omega)

end TLA
