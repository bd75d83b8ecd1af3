import Verif.Proofs.Gemm
import Verif.Proofs.RankK
import Verif.Proofs.Sub

/-!
The law-free result values depend only on the entries the routine is meant to read:
the operands, the selected triangle, and the old output unless `beta` is StrongZero.
-/

namespace TLA
set_option linter.unusedSectionVars false
variable {T : Type}

theorem foldUp_congr2 {σ : Type} {lo hi : Nat} {s s' : σ} {f g : Nat → σ → σ} (hs : s = s')
    (h : ∀ i s, lo ≤ i → i < hi → f i s = g i s) : foldUp lo hi s f = foldUp lo hi s' g := by
  subst hs; exact foldUp_congr h

theorem foldDown_congr2 {σ : Type} {lo hi : Nat} {s s' : σ} {f g : Nat → σ → σ} (hs : s = s')
    (h : ∀ i s, lo ≤ i → i < hi → f i s = g i s) : foldDown lo hi s f = foldDown lo hi s' g := by
  subst hs; exact foldDown_congr h

/-- The old output value matters only if `beta` is not StrongZero. -/
def Coef.Same (beta : Coef T) (c c' : T) : Prop := beta = .strongZero ∨ c = c'

variable [Zero T] [Add T] [Mul T]

theorem Coef.Same.mulAssign {beta : Coef T} {c c' : T} (h : beta.Same c c') :
    beta.mulAssign c = beta.mulAssign c' := by
  rcases h with rfl | rfl <;> rfl
theorem Coef.Same.mulVal {beta : Coef T} {c c' : T} (h : beta.Same c c') :
    beta.mulVal c = beta.mulVal c' := by
  rcases h with rfl | rfl <;> rfl
theorem Coef.Same.addMul {beta : Coef T} {c c' : T} (h : beta.Same c c') (x : T) :
    beta.addMul x c = beta.addMul x c' := by
  rcases h with rfl | rfl <;> rfl
theorem Coef.Same.mulAdd {beta : Coef T} {c c' : T} (h : beta.Same c c') (x : T) :
    beta.mulAdd c x = beta.mulAdd c' x := by
  rcases h with rfl | rfl <;> rfl
theorem Coef.Same.map {beta : Coef T} {c c' : T} (h : beta.Same c c') (f : T → T) :
    beta.Same (f c) (f c') := by
  rcases h with rfl | rfl
  · exact Or.inl rfl
  · exact Or.inr rfl

theorem gemvVal_congr [Star T] {trans : Op} {alpha : T} {a a' : Nat → Nat → T} {x x' y y' : Nat → T}
    {beta : Coef T} {n i : Nat} (ha : ∀ l, l < n → opF trans a i l = opF trans a' i l)
    (hx : ∀ l, l < n → x l = x' l) (hy : beta.Same (y i) (y' i)) :
    gemvVal trans alpha a x beta y n i = gemvVal trans alpha a' x' beta y' n i := by
  unfold gemvVal
  cases trans <;> simp only [hy.mulAssign]
  · exact foldUp_congr (fun l s _ hl => by rw [ha l hl, hx l hl])
  · congr 2; exact foldUp_congr (fun l s _ hl => by rw [ha l hl, hx l hl])
  · congr 2; exact foldUp_congr (fun l s _ hl => by rw [ha l hl, hx l hl])
  · exact foldUp_congr (fun l s _ hl => by rw [ha l hl, hx l hl])

theorem gemmVal_congr [Star T] {transA transB : Op} {alpha : T} {a a' b b' c c' : Nat → Nat → T}
    {beta : Coef T} {k i j : Nat} (hA : transA ≠ .Conj) (hB : transB ≠ .Conj)
    (ha : ∀ l, l < k → (if transA = .NoTrans then a i l = a' i l else a l i = a' l i))
    (hb : ∀ l, l < k → (if transB = .NoTrans then b l j = b' l j else b j l = b' j l))
    (hc : beta.Same (c i j) (c' i j)) :
    gemmVal transA transB alpha a b beta c k i j =
      gemmVal transA transB alpha a' b' beta c' k i j := by
  unfold gemmVal
  cases transA <;> cases transB <;>
    simp only [gemmNVal, gemmTVal, hc.mulAssign, hc.addMul, opF, reduceCtorEq, if_true, if_false] at ha hb hA hB ⊢ <;>
    first
    | exact foldUp_congr (fun l s _ hl => by rw [ha l hl, hb l hl])
    | (congr 2; exact foldUp_congr (fun l s _ hl => by rw [ha l hl, hb l hl]))
    | (congr 3; exact foldUp_congr (fun l s _ hl => by rw [ha l hl, hb l hl]))
    | exact absurd rfl hA
    | exact absurd rfl hB

theorem hemvVal_congr {f g : T → T} {uplo : Uplo} {alpha : T} {a a' : Nat → Nat → T}
    {x x' y y' : Nat → T} {n i : Nat} (hu : uplo = .Upper ∨ uplo = .Lower) (hi : i < n)
    (ha : ∀ i j, i < n → j < n → inTri uplo i j → a i j = a' i j)
    (hx : ∀ l, l < n → x l = x' l) (hy : y i = y' i) :
    hemvVal f g uplo alpha a x y n i = hemvVal f g uplo alpha a' x' y' n i := by
  unfold hemvVal
  rcases hu with rfl | rfl
  · have ha' : ∀ i j, i < n → j < n → i ≤ j → a i j = a' i j := ha
    simp only [if_true]
    rw [hy, hx i hi, ha' i i hi hi (le_refl _)]
    refine foldUp_congr2 ?_ (fun l s h1 hl => by rw [hx l hl, ha' i l hi hl (by omega)])
    congr 3
    exact foldUp_congr (fun l s _ hl => by rw [ha' l i (by omega) hi (by omega), hx l (by omega)])
  · have ha' : ∀ i j, i < n → j < n → j ≤ i → a i j = a' i j := ha
    simp only [reduceCtorEq, if_false]
    rw [hy, hx i hi, ha' i i hi hi (le_refl _)]
    congr 1
    · exact foldUp_congr (fun l s h1 hl => by rw [hx l (by omega), ha' i l hi (by omega) (by omega)])
    · congr 2
      exact foldUp_congr (fun l s h1 hl => by rw [hx l hl, ha' l i hl hi (by omega)])

theorem hemmVal_congr {f g : T → T} {side : Side} {uplo : Uplo} {alpha : T}
    {a a' b b' c c' : Nat → Nat → T} {beta : Coef T} {k m n i j : Nat}
    (hside : side = .Left ∨ side = .Right) (hk : k = if side = .Left then m else n)
    (hi : i < m) (hj : j < n)
    (ha : ∀ i j, i < k → j < k → inTri (compTri uplo) i j → a i j = a' i j)
    (hb : ∀ i j, i < m → j < n → b i j = b' i j) (hc : beta.Same (c i j) (c' i j)) :
    hemmVal f g side uplo alpha a b beta c k i j = hemmVal f g side uplo alpha a' b' beta c' k i j := by
  unfold hemmVal
  rcases hside with rfl | rfl
  · simp only [if_true] at hk ⊢
    subst hk
    unfold hemmLVal
    by_cases hu : uplo = .Lower
    · subst hu
      have ha' : ∀ i j, i < k → j < k → j ≤ i → a i j = a' i j := ha
      simp only [ne_eq, not_true_eq_false, if_false]
      rw [hc.mulAdd, ha' i i hi hi (le_refl _), hb i j hi hj]
      refine foldDown_congr2 ?_ (fun l s h1 hl => by
        rw [ha' i l hi (by omega) (by omega), hb l j (by omega) hj])
      congr 2
      exact foldUp_congr (fun l s h1 hl => by rw [ha' l i hl hi (by omega), hb l j hl hj])
    · have ha' : ∀ i j, i < k → j < k → i ≤ j → a i j = a' i j := by
        simp only [compTri, hu, if_false] at ha; exact ha
      simp only [ne_eq, hu, not_false_eq_true, if_true]
      rw [hc.mulAdd, ha' i i hi hi (le_refl _), hb i j hi hj]
      refine foldUp_congr2 ?_ (fun l s h1 hl => by
        rw [ha' i l hi hl (by omega), hb l j hl hj])
      congr 2
      exact foldUp_congr (fun l s h1 hl => by
        rw [ha' l i (by omega) hi (by omega), hb l j (by omega) hj])
  · simp only [reduceCtorEq, if_false] at hk ⊢
    subst hk
    unfold hemmRVal
    by_cases hu : uplo = .Lower
    · subst hu
      have ha' : ∀ i j, i < k → j < k → j ≤ i → a i j = a' i j := ha
      simp only [ne_eq, not_true_eq_false, if_false]
      rw [hc.mulAdd, ha' j j hj hj (le_refl _), hb i j hi hj]
      refine foldUp_congr2 ?_ (fun l s h1 hl => by
        rw [ha' l j hl hj (by omega), hb i l hi hl])
      exact foldUp_congr (fun l s h1 hl => by
        rw [ha' j l hj (by omega) (by omega), hb i l hi (by omega)])
    · have ha' : ∀ i j, i < k → j < k → i ≤ j → a i j = a' i j := by
        simp only [compTri, hu, if_false] at ha; exact ha
      simp only [ne_eq, hu, not_false_eq_true, if_true]
      rw [hc.mulAdd, ha' j j hj hj (le_refl _), hb i j hi hj]
      refine foldUp_congr2 ?_ (fun l s h1 hl => by
        rw [ha' j l hj hl (by omega), hb i l hi hl])
      exact foldUp_congr (fun l s h1 hl => by
        rw [ha' l j (by omega) hj (by omega), hb i l hi (by omega)])

/-- Agreement of the rank-k operand on the entries used for `(i,j)`. -/
theorem herkVal_congr [Sub T] [Star T] [ReIm T] {trans : Op} {alpha : T} {a a' c c' : Nat → Nat → T}
    {beta : Coef T} {n k i j : Nat} (hop : trans = .NoTrans ∨ trans = .ConjTrans) (hi : i < n)
    (hj : j < n)
    (ha : ∀ i l, i < n → l < k → (if trans = .NoTrans then a i l = a' i l else a l i = a' l i))
    (hc : beta.Same (c i j) (c' i j)) :
    herkVal trans alpha a beta c k i j = herkVal trans alpha a' beta c' k i j := by
  rcases hop with rfl | rfl
  · simp only [if_true] at ha
    simp only [herkVal]
    rw [hc.mulAssign, (hc.map re).mulVal]
    exact foldUp_congr (fun l s _ hl => by rw [ha i l hi hl, ha j l hj hl])
  · simp only [reduceCtorEq, if_false] at ha
    simp only [herkVal]
    have e1 : foldUp 0 k 0 (fun l s => s + (re (a l j) * re (a l j) + im (a l j) * im (a l j))) =
        foldUp 0 k 0 (fun l s => s + (re (a' l j) * re (a' l j) + im (a' l j) * im (a' l j))) :=
      foldUp_congr (fun l s _ hl => by rw [ha j l hj hl])
    have e2 : foldUp 0 k 0 (fun l s => s + star (a l i) * a l j) =
        foldUp 0 k 0 (fun l s => s + star (a' l i) * a' l j) :=
      foldUp_congr (fun l s _ hl => by rw [ha i l hi hl, ha j l hj hl])
    rw [hc.addMul, (hc.map re).addMul, e1, e2]

theorem syrkVal_congr {trans : Op} {alpha : T} {a a' c c' : Nat → Nat → T}
    {beta : Coef T} {n k i j : Nat} (hop : trans = .NoTrans ∨ trans = .Trans) (hi : i < n)
    (hj : j < n)
    (ha : ∀ i l, i < n → l < k → (if trans = .NoTrans then a i l = a' i l else a l i = a' l i))
    (hc : beta.Same (c i j) (c' i j)) :
    syrkVal trans alpha a beta c k i j = syrkVal trans alpha a' beta c' k i j := by
  rcases hop with rfl | rfl
  · simp only [if_true] at ha
    simp only [syrkVal]
    rw [hc.mulAssign]
    exact foldUp_congr (fun l s _ hl => by rw [ha i l hi hl, ha j l hj hl])
  · simp only [reduceCtorEq, if_false] at ha
    simp only [syrkVal]
    have e2 : foldUp 0 k 0 (fun l s => s + a l i * a l j) =
        foldUp 0 k 0 (fun l s => s + a' l i * a' l j) :=
      foldUp_congr (fun l s _ hl => by rw [ha i l hi hl, ha j l hj hl])
    rw [hc.addMul, e2]

theorem her2kVal_congr [Sub T] [Star T] [ReIm T] [OfNat T 2] {trans : Op} {alpha : T}
    {a a' b b' c c' : Nat → Nat → T}
    {beta : Coef T} {n k i j : Nat} (hop : trans = .NoTrans ∨ trans = .ConjTrans) (hi : i < n)
    (hj : j < n)
    (ha : ∀ i l, i < n → l < k → (if trans = .NoTrans then a i l = a' i l else a l i = a' l i))
    (hb : ∀ i l, i < n → l < k → (if trans = .NoTrans then b i l = b' i l else b l i = b' l i))
    (hc : beta.Same (c i j) (c' i j)) :
    her2kVal trans alpha a b beta c k i j = her2kVal trans alpha a' b' beta c' k i j := by
  rcases hop with rfl | rfl
  · simp only [if_true] at ha hb
    simp only [her2kVal]
    rw [hc.mulAssign, (hc.map re).mulVal]
    exact foldUp_congr (fun l s _ hl => by
      rw [ha i l hi hl, ha j l hj hl, hb i l hi hl, hb j l hj hl])
  · simp only [reduceCtorEq, if_false] at ha hb
    simp only [her2kVal]
    have e2 : foldUp 0 k ((0 : T), (0 : T)) (fun l s => (s.1 + star (a l i) * b l j, s.2 + star (b l i) * a l j)) =
        foldUp 0 k ((0 : T), (0 : T)) (fun l s => (s.1 + star (a' l i) * b' l j, s.2 + star (b' l i) * a' l j)) :=
      foldUp_congr (fun l s _ hl => by
        rw [ha i l hi hl, ha j l hj hl, hb i l hi hl, hb j l hj hl])
    rw [hc.addMul, (hc.map re).addMul, e2]

theorem syr2kVal_congr {trans : Op} {alpha : T} {a a' b b' c c' : Nat → Nat → T}
    {beta : Coef T} {n k i j : Nat} (hop : trans = .NoTrans ∨ trans = .Trans) (hi : i < n)
    (hj : j < n)
    (ha : ∀ i l, i < n → l < k → (if trans = .NoTrans then a i l = a' i l else a l i = a' l i))
    (hb : ∀ i l, i < n → l < k → (if trans = .NoTrans then b i l = b' i l else b l i = b' l i))
    (hc : beta.Same (c i j) (c' i j)) :
    syr2kVal trans alpha a b beta c k i j = syr2kVal trans alpha a' b' beta c' k i j := by
  rcases hop with rfl | rfl
  · simp only [if_true] at ha hb
    simp only [syr2kVal]
    rw [hc.mulAssign]
    exact foldUp_congr (fun l s _ hl => by
      rw [ha i l hi hl, ha j l hj hl, hb i l hi hl, hb j l hj hl])
  · simp only [reduceCtorEq, if_false] at ha hb
    simp only [syr2kVal]
    have e2 : foldUp 0 k ((0 : T), (0 : T)) (fun l s => (s.1 + a l i * b l j, s.2 + b l i * a l j)) =
        foldUp 0 k ((0 : T), (0 : T)) (fun l s => (s.1 + a' l i * b' l j, s.2 + b' l i * a' l j)) :=
      foldUp_congr (fun l s _ hl => by
        rw [ha i l hi hl, ha j l hj hl, hb i l hi hl, hb j l hj hl])
    rw [hc.addMul, e2]

theorem rankRes_congr {f : T → T} {uplo : Uplo} {F F' c c' : Nat → Nat → T} {n i j : Nat}
    (hu : uplo = .Upper ∨ uplo = .Lower ∨ uplo = .General)
    (hi : i < n) (hj : j < n)
    (hF : ∀ i j, i < n → j < n → inTri (compTri uplo) i j → F i j = F' i j)
    (hc : ¬ inTri uplo i j → c i j = c' i j) :
    rankRes f uplo F c i j = rankRes f uplo F' c' i j := by
  unfold rankRes
  rcases hu with rfl | rfl | rfl
  · simp only [reduceCtorEq, if_false]
    split
    · exact hF i j hi hj ‹_›
    · exact hc ‹_›
  · simp only [reduceCtorEq, if_false]
    split
    · exact hF i j hi hj ‹_›
    · exact hc ‹_›
  · simp only [if_true]
    have hF' : ∀ i j, i < n → j < n → i ≤ j → F i j = F' i j := hF
    split
    · exact hF' i j hi hj ‹_›
    · rw [hF' j i hj hi (by omega)]

end TLA
