import Verif.Proofs.Bidiag

/-! # The algebra of the blocked bidiagonal reduction -/

set_option linter.unusedSectionVars false
set_option linter.unusedTactic false
set_option linter.unreachableTactic false
set_option linter.unusedVariables false

namespace TLA
open Finset
variable {𝕜 : Type} [RCLike 𝕜] [DecidableEq 𝕜]

/-- The matrix a panel stands for after `q` column and `p` row reflectors: the rest of it is still to be updated by
`V Y^H` and `X U`. -/
def virtF (q p : Nat) (a x y : Nat → Nat → 𝕜) : Nat → Nat → 𝕜 := fun r c =>
  if r < p ∨ c < q then a r c
  else a r c - (∑ j ∈ range q, (if r = j then 1 else a r j) * star (y c j)) - ∑ j ∈ range p, x r j * (if c = j + 1 then 1 else a j c)

theorem sum_from {M P : Nat} (h : P ≤ M) {F : Nat → 𝕜} (h0 : ∀ k, k < P → F k = 0) :
    ∑ k ∈ range M, F k = ∑ k ∈ range (M - P), F (P + k) := by
  conv_lhs => rw [show M = P + (M - P) by omega, Finset.sum_range_add]
  rw [Finset.sum_eq_zero (fun k hk => h0 k (mem_range.1 hk)), zero_add]

theorem half_gen {M N P s : Nat} {t : 𝕜} {G0 a1 a2 G2 : Nat → Nat → 𝕜} (hP : P < M) (hs : s < N)
    (cs : ColStep M N P P M s 0 0 t a1 a2)
    (hcol : ∀ r, P ≤ r → r < M → a1 r s = G0 r s)
    (hG : ∀ r c, r < M → c < N → r < P ∨ c < s → G2 r c = G0 r c)
    (hcs : ∀ r, P ≤ r → r < M → G2 r s = a2 r s)
    (hrest : ∀ r c, P ≤ r → r < M → s < c → c < N → G2 r c = G0 r c - colU P P M s a2 r *
      star ((∑ k ∈ range (M - P), star (G0 (P + k) c) * colU P P M s a2 (P + k)) * t)) :
    ColStep M N P P M s (s + 1) N t G0 G2 := by
  have hu : ∀ r, r < M → colU P P M s G2 r = colU P P M s a2 r := by
    intro r hr
    unfold colU
    by_cases h : P ≤ r
    · rw [hcs r h hr]
    · rw [if_neg (by omega), if_neg (by omega), if_neg (by omega), if_neg (by omega)]
  have u0 : ∀ r, r < P → colU P P M s a2 r = 0 := by
    intro r hr
    unfold colU
    rw [if_neg (by omega), if_neg (by omega)]
  refine ⟨fun r c hr hc h => ?_, ?_, fun r hr => ?_, ?_, fun r c hr hc0 hc1 => ?_⟩
  · exact hG r c hr hc (by omega)
  · rw [Finset.sum_congr rfl fun r hr => by rw [hu r (mem_range.1 hr)]]
    exact cs.unit
  · rw [hu r hr, Finset.sum_congr rfl fun k hk => by rw [hu k (mem_range.1 hk)]]
    by_cases h : P ≤ r
    · have := cs.ann r hr
      rw [hcol r h hr] at this
      have e : ∑ k ∈ range M, star (colU P P M s a2 k) * G0 k s = ∑ k ∈ range M, star (colU P P M s a2 k) * a1 k s := by
        refine Finset.sum_congr rfl fun k hk => ?_
        by_cases hk' : P ≤ k
        · rw [hcol k hk' (mem_range.1 hk)]
        · rw [u0 k (by omega)]; simp
      rw [e, this, hcs P (le_refl _) hP]
    · rw [u0 r (by omega), if_neg (by omega), if_neg (by omega)]
      simp
  · rw [hcs P (le_refl _) hP]; exact cs.real
  · unfold applyL
    by_cases h : P ≤ r
    · have es : ∑ k ∈ range M, star (colU P P M s G2 k) * G0 k c = ∑ k ∈ range (M - P), star (colU P P M s a2 (P + k)) * G0 (P + k) c := by
        rw [Finset.sum_congr rfl fun k hk => by rw [hu k (mem_range.1 hk)], sum_from (le_of_lt hP) (fun k hk => by rw [u0 k hk]; simp)]
      have et : star ((∑ k ∈ range (M - P), star (G0 (P + k) c) * colU P P M s a2 (P + k)) * t) =
          star t * ∑ k ∈ range (M - P), star (colU P P M s a2 (P + k)) * G0 (P + k) c := by
        rw [star_mul', star_sum, mul_comm]
        congr 1
        exact Finset.sum_congr rfl fun k _ => by rw [star_mul', star_star, mul_comm]
      rw [hrest r c h hr (by omega) hc1, hu r hr, es, et]
      ring
    · rw [hu r hr, u0 r (by omega), hG r c hr hc1 (Or.inl (by omega))]
      simp

/-- The column half of a step of the panel. -/
theorem virt_col {M N i : Nat} {t : 𝕜} {a a2 x y y' al1 al2 : Nat → Nat → 𝕜} (hiM : i < M) (hiN : i < N)
    (cs : ColStep M N i i M i 0 0 t al1 al2)
    (hcol : ∀ r, i ≤ r → r < M → al1 r i = virtF i i a x y r i)
    (ha2 : ∀ r, i ≤ r → r < M → a2 r i = al2 r i)
    (ha : ∀ r c, r < M → c < N → r < i ∨ c ≠ i → a2 r c = a r c)
    (hy : ∀ c j, c < N → j < i → y' c j = y c j)
    (hyi : ∀ c, i < c → c < N → y' c i = ((∑ r ∈ range (M - i), star (a (i + r) c) * colU i i M i al2 (i + r))
        - (∑ j ∈ range i, y c j * ∑ r ∈ range (M - i), star (a (i + r) j) * colU i i M i al2 (i + r))
        - ∑ j ∈ range i, star (a j c) * ∑ r ∈ range (M - i), star (x (i + r) j) * colU i i M i al2 (i + r)) * t) :
    ColStep M N i i M i (i + 1) N t (virtF i i a x y) (virtF (i + 1) i a2 x y') := by
  have big : ∀ r c, i ≤ r → r < M → i < c → c < N → virtF i i a x y r c =
      a r c - (∑ j ∈ range i, a r j * star (y c j)) - ∑ j ∈ range i, x r j * a j c := by
    intro r c hr hr' hc hc'
    unfold virtF
    rw [if_neg (by omega)]
    refine congrArg₂ _ (congrArg₂ _ rfl ?_) ?_
    · refine Finset.sum_congr rfl fun j hj => ?_
      have := mem_range.1 hj
      rw [if_neg (by omega)]
    · refine Finset.sum_congr rfl fun j hj => ?_
      have := mem_range.1 hj
      rw [if_neg (by omega)]
  refine half_gen hiM hiN cs hcol (fun r c hr hc h => ?_) (fun r hr hr' => ?_) (fun r c hr hr' hc hc' => ?_)
  · unfold virtF
    rw [if_pos (by omega), if_pos (by omega), ha r c hr hc (by omega)]
  · unfold virtF
    rw [if_pos (by omega), ha2 r hr hr']
  · have ey : y' c i = (∑ k ∈ range (M - i), star (virtF i i a x y (i + k) c) * colU i i M i al2 (i + k)) * t := by
      rw [hyi c hc hc']
      congr 1
      have : ∀ k ∈ range (M - i), star (virtF i i a x y (i + k) c) * colU i i M i al2 (i + k) =
          star (a (i + k) c) * colU i i M i al2 (i + k) - (∑ j ∈ range i, y c j * (star (a (i + k) j) * colU i i M i al2 (i + k)))
            - ∑ j ∈ range i, star (a j c) * (star (x (i + k) j) * colU i i M i al2 (i + k)) := by
        intro k hk
        have := mem_range.1 hk
        rw [big (i + k) c (by omega) (by omega) hc hc']
        simp only [star_sub, star_sum, star_mul', star_star, sub_mul, Finset.sum_mul]
        refine congrArg₂ _ (congrArg₂ _ rfl ?_) ?_
        · exact Finset.sum_congr rfl fun j _ => by ring
        · exact Finset.sum_congr rfl fun j _ => by ring
      rw [Finset.sum_congr rfl this, Finset.sum_sub_distrib, Finset.sum_sub_distrib]
      refine congrArg₂ _ (congrArg₂ _ rfl ?_) ?_
      · rw [Finset.sum_comm]
        exact Finset.sum_congr rfl fun j _ => by rw [Finset.mul_sum]
      · rw [Finset.sum_comm]
        exact Finset.sum_congr rfl fun j _ => by rw [Finset.mul_sum]
    rw [← ey, big r c hr hr' hc hc']
    unfold virtF
    rw [if_neg (by omega), Finset.sum_range_succ, ha r c hr' hc' (by omega)]
    have hu : colU i i M i al2 r = if r = i then 1 else a2 r i := by
      unfold colU
      by_cases h : r = i
      · rw [if_pos h, if_pos h]
      · rw [if_neg h, if_neg h, if_pos ⟨hr, hr'⟩, ha2 r hr hr']
    have e1 : ∑ j ∈ range i, (if r = j then 1 else a2 r j) * star (y' c j) = ∑ j ∈ range i, a r j * star (y c j) := by
      refine Finset.sum_congr rfl fun j hj => ?_
      have := mem_range.1 hj
      rw [if_neg (by omega), ha r j hr' (by omega) (by omega), hy c j hc' this]
    have e2 : ∑ j ∈ range i, x r j * (if c = j + 1 then 1 else a2 j c) = ∑ j ∈ range i, x r j * a j c := by
      refine Finset.sum_congr rfl fun j hj => ?_
      have := mem_range.1 hj
      rw [if_neg (by omega), ha j c (by omega) hc' (by omega)]
    rw [e1, e2, hu]
    ring

/-- The row half of a step of the panel. -/
theorem virt_row {M N i : Nat} {t : 𝕜} {a a8 x x' y al4 al5 : Nat → Nat → 𝕜} (hiM : i < M) (hiN : i + 1 < N)
    (cs : ColStep N M (i + 1) (i + 1) N i 0 0 t al4 al5)
    (hcol : ∀ c, i + 1 ≤ c → c < N → al4 c i = star (virtF (i + 1) i a x y i c))
    (ha8 : ∀ c, i + 1 ≤ c → c < N → a8 i c = star (al5 c i))
    (ha : ∀ r c, r < M → c < N → r ≠ i ∨ c ≤ i → a8 r c = a r c)
    (hx : ∀ r j, r < M → j < i → x' r j = x r j)
    (hxi : ∀ r, i < r → r < M → x' r i = ((∑ c ∈ range (N - (i + 1)), a r (i + 1 + c) * colU (i + 1) (i + 1) N i al5 (i + 1 + c))
        - (∑ j ∈ range (i + 1), a r j * ∑ c ∈ range (N - (i + 1)), star (y (i + 1 + c) j) * colU (i + 1) (i + 1) N i al5 (i + 1 + c))
        - ∑ j ∈ range i, x r j * ∑ c ∈ range (N - (i + 1)), a j (i + 1 + c) * colU (i + 1) (i + 1) N i al5 (i + 1 + c)) * t) :
    ColStep N M (i + 1) (i + 1) N i (i + 1) M t (starT (virtF (i + 1) i a x y)) (starT (virtF (i + 1) (i + 1) a8 x' y)) := by
  have big : ∀ r c, i < r → r < M → i < c → c < N → virtF (i + 1) i a x y r c =
      a r c - (∑ j ∈ range (i + 1), a r j * star (y c j)) - ∑ j ∈ range i, x r j * a j c := by
    intro r c hr hr' hc hc'
    unfold virtF
    rw [if_neg (by omega)]
    refine congrArg₂ _ (congrArg₂ _ rfl ?_) ?_
    · refine Finset.sum_congr rfl fun j hj => ?_
      have := mem_range.1 hj
      rw [if_neg (by omega)]
    · refine Finset.sum_congr rfl fun j hj => ?_
      have := mem_range.1 hj
      rw [if_neg (by omega)]
  refine half_gen hiN hiM cs hcol (fun c r hc hr h => ?_) (fun c hc hc' => ?_) (fun c r hc hc' hr hr' => ?_)
  · unfold starT virtF
    by_cases h1 : r < i ∨ c < i + 1
    · rw [if_pos (by omega), if_pos (by omega), ha r c hr hc (by omega)]
    · omega
  · unfold starT
    rw [show virtF (i + 1) (i + 1) a8 x' y i c = a8 i c by unfold virtF; rw [if_pos (by omega)], ha8 c hc hc', star_star]
  · have ex : x' r i = (∑ k ∈ range (N - (i + 1)), star (starT (virtF (i + 1) i a x y) (i + 1 + k) r) * colU (i + 1) (i + 1) N i al5 (i + 1 + k)) * t := by
      rw [hxi r hr hr']
      congr 1
      have : ∀ k ∈ range (N - (i + 1)), star (starT (virtF (i + 1) i a x y) (i + 1 + k) r) * colU (i + 1) (i + 1) N i al5 (i + 1 + k) =
          a r (i + 1 + k) * colU (i + 1) (i + 1) N i al5 (i + 1 + k) - (∑ j ∈ range (i + 1), a r j * (star (y (i + 1 + k) j) * colU (i + 1) (i + 1) N i al5 (i + 1 + k)))
            - ∑ j ∈ range i, x r j * (a j (i + 1 + k) * colU (i + 1) (i + 1) N i al5 (i + 1 + k)) := by
        intro k hk
        have := mem_range.1 hk
        unfold starT
        rw [star_star, big r (i + 1 + k) (by omega) (by omega) (by omega) (by omega)]
        simp only [sub_mul, Finset.sum_mul]
        refine congrArg₂ _ (congrArg₂ _ rfl ?_) ?_
        · exact Finset.sum_congr rfl fun j _ => by ring
        · exact Finset.sum_congr rfl fun j _ => by ring
      rw [Finset.sum_congr rfl this, Finset.sum_sub_distrib, Finset.sum_sub_distrib]
      refine congrArg₂ _ (congrArg₂ _ rfl ?_) ?_
      · rw [Finset.sum_comm (s := range (N - (i + 1)))]
        exact Finset.sum_congr rfl fun j _ => by rw [Finset.mul_sum]
      · rw [Finset.sum_comm (s := range (N - (i + 1)))]
        exact Finset.sum_congr rfl fun j _ => by rw [Finset.mul_sum]
    rw [← ex]
    have hu : colU (i + 1) (i + 1) N i al5 c = star (if c = i + 1 then 1 else a8 i c) := by
      unfold colU
      by_cases h : c = i + 1
      · rw [if_pos h, if_pos h, star_one]
      · rw [if_neg h, if_neg h, if_pos ⟨hc, hc'⟩, ha8 c hc hc', star_star]
    unfold starT
    rw [hu, big r c hr hr' (by omega) hc', ← star_mul', ← star_sub]
    congr 1
    unfold virtF
    rw [if_neg (by omega), Finset.sum_range_succ (fun j => x' r j * _) i, ha r c hr' hc' (by omega)]
    have e1 : ∑ j ∈ range (i + 1), (if r = j then 1 else a8 r j) * star (y c j) = ∑ j ∈ range (i + 1), a r j * star (y c j) := by
      refine Finset.sum_congr rfl fun j hj => ?_
      have := mem_range.1 hj
      rw [if_neg (by omega), ha r j hr' (by omega) (by omega)]
    have e2 : ∑ j ∈ range i, x' r j * (if c = j + 1 then 1 else a8 j c) = ∑ j ∈ range i, x r j * a j c := by
      refine Finset.sum_congr rfl fun j hj => ?_
      have := mem_range.1 hj
      rw [if_neg (by omega), ha j c (by omega) hc' (by omega), hx r j hr' this]
    rw [e1, e2]
    ring

/-- A matrix with its lower right block from `(s, s)` on replaced. -/
def glue (s : Nat) (g G : Nat → Nat → 𝕜) : Nat → Nat → 𝕜 := fun r c => if r < s ∨ c < s then g r c else G (r - s) (c - s)

theorem glue_starT (s : Nat) (g G : Nat → Nat → 𝕜) : starT (glue s g G) = glue s (starT g) (starT G) := by
  funext r c
  unfold starT glue
  by_cases h : c < s ∨ r < s
  · rw [if_pos h, if_pos (by omega)]
  · rw [if_neg h, if_neg (by omega)]

theorem ColStep.glue {M N P s c s0 : Nat} {t : 𝕜} {g G G2 : Nat → Nat → 𝕜} (hP : P < M) (hc : c < N)
    (h : ColStep M N P P M c (c + 1) N t G G2) :
    ColStep (s + M) (s + N) (s + P) (s + P) (s + M) (s + c) (s + c + 1) (s + N) t (TLA.glue s g G) (TLA.glue s g G2) := by
  have hu0 : ∀ r, r < s → colU (s + P) (s + P) (s + M) (s + c) (TLA.glue s g G2) r = 0 := by
    intro r hr
    unfold colU
    rw [if_neg (by omega), if_neg (by omega)]
  have hu1 : ∀ r, colU (s + P) (s + P) (s + M) (s + c) (TLA.glue s g G2) (s + r) = colU P P M c G2 r := by
    intro r
    unfold colU TLA.glue
    by_cases e : r = P
    · rw [if_pos (by omega), if_pos e]
    · rw [if_neg (by omega), if_neg e]
      by_cases e2 : P ≤ r ∧ r < M
      · rw [if_pos (by omega), if_pos e2, if_neg (by omega)]
        congr 1 <;> omega
      · rw [if_neg (by omega), if_neg e2]
  have hs : ∀ (F : Nat → 𝕜), (∀ k, k < s → F k = 0) → ∑ k ∈ range (s + M), F k = ∑ k ∈ range M, F (s + k) := by
    intro F h0
    rw [sum_from (show s ≤ s + M by omega) h0, Nat.add_sub_cancel_left]
  have hg : ∀ (F : Nat → Nat → 𝕜) r c, TLA.glue s g F (s + r) (s + c) = F r c := by
    intro F r c
    unfold TLA.glue
    rw [if_neg (by omega)]
    congr 1 <;> omega
  refine ⟨fun r c' hr hc' hn => ?_, ?_, fun r hr => ?_, ?_, fun r c' hr hc0 hc1 => ?_⟩
  · unfold TLA.glue
    by_cases e : r < s ∨ c' < s
    · rw [if_pos e, if_pos e]
    · rw [if_neg e, if_neg e]
      exact h.same _ _ (by omega) (by omega) (by omega)
  · rw [hs _ (fun k hk => by rw [hu0 k hk, zero_mul])]
    simp only [hu1]
    exact h.unit
  · rw [hs _ (fun k hk => by rw [hu0 k hk, star_zero, zero_mul])]
    simp only [hu1, hg]
    by_cases e : r < s
    · rw [hu0 r e, mul_zero, zero_mul, sub_zero, if_neg (by omega), if_neg (by omega)]
    · obtain ⟨r, rfl⟩ : ∃ r', r = s + r' := ⟨r - s, by omega⟩
      rw [hu1, hg, h.ann r (by omega)]
      split_ifs <;> first | rfl | (exfalso; omega)
  · rw [hg]; exact h.real
  · obtain ⟨c', rfl⟩ : ∃ r', c' = s + r' := ⟨c' - s, by omega⟩
    unfold applyL
    rw [hs _ (fun k hk => by rw [hu0 k hk, star_zero, zero_mul])]
    simp only [hu1, hg]
    by_cases e : r < s
    · rw [hu0 r e, mul_zero, zero_mul, sub_zero]
      unfold TLA.glue
      rw [if_pos (by omega), if_pos (by omega)]
    · obtain ⟨r, rfl⟩ : ∃ r', r = s + r' := ⟨r - s, by omega⟩
      rw [hu1, hg, hg, h.rest r c' (by omega) (by omega) (by omega)]
      rfl

/-- The last row step does nothing: its reflector is the identity whatever its factor. -/
theorem BInv.last' {M N s : Nat} {A0 G : Nat → Nat → 𝕜} {v w v' w' : Nat → 𝕜}
    (h : BInv M N A0 (s + 1) s G v w) (hs : s + 1 = N) (hv : ∀ i, i < s + 1 → v' i = v i)
    (hw : ∀ i, i < s → w' i = w i) : BInv M N A0 (s + 1) (s + 1) G v' w' := by
  have h1 : mat N N (reflF (w' s) (reflRow 1 N G s)) = 1 := by
    rw [← mat_idF, mat_ext_iff]
    intro r c hr hc
    unfold reflF idF
    have : reflRow 1 N G s r = 0 := by unfold reflRow; rw [if_neg (by omega), if_neg (by omega)]
    rw [this]
    simp
  refine ⟨?_, fun i hi => ?_, fun i hi => ?_, h.reald, fun i hi hi' => h.reale i (by omega) hi'⟩
  · rw [reflProd_succ N 0 s, Nat.zero_add, h1, Matrix.mul_one,
      reflProd_congr (t' := v') (t := v) (fun i _ hi => hv i (by omega)) (fun i _ hi r _ => rfl),
      reflProd_congr (t' := w') (t := w) (fun i _ hi => hw i (by omega)) (fun i _ hi r _ => rfl), h.prod]
    refine congrArg₂ _ (congrArg₂ _ rfl ?_) rfl
    rw [mat_ext_iff]
    intro r c _ hc
    unfold maskF
    by_cases hz : bz (s + 1) s r c
    · rw [if_pos hz, if_pos (by unfold bz at hz ⊢; omega)]
    · rw [if_neg hz, if_neg (by unfold bz at hz ⊢; omega)]
  · rw [refl_congr (hv i (by omega)) (fun r _ => rfl)]
    exact h.unitv i hi
  · by_cases e : i = s
    · subst e; rw [h1]; simp
    · rw [refl_congr (hw i (by omega)) (fun r _ => rfl)]
      exact h.unitw i (by omega)

end TLA
