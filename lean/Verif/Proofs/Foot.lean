import Verif.SpecFoot
import Verif.Model.Lu
import Verif.Model.House

/-!
# Footprints: rules for `Confined`
-/

set_option linter.unusedTactic false
set_option linter.unusedVariables false

namespace TLA

variable {L T α β σ ρ : Type}

/-- One-hypothesis form of `Confined`, convenient for composing. -/
def Foot (R W : L → Prop) (x : M L T α) : Prop :=
  ∀ μ μ', (∀ l, R l → μ l = μ' l) →
    (x μ).1 = (x μ').1 ∧ (∀ l, μ l = μ' l → (x μ).2 l = (x μ').2 l) ∧
    (∀ l, ¬ W l → (x μ).2 l = μ l)

theorem Foot.confined {R W : L → Prop} {x : M L T α} (h : Foot R W x) : Confined R W x where
  result μ μ' e := (h μ μ' e).1
  values μ μ' e := (h μ μ' e).2.1
  writes μ := (h μ μ (fun _ _ => rfl)).2.2

theorem Foot.mono {R W R' W' : L → Prop} {x : M L T α} (h : Foot R W x) (hR : ∀ l, R l → R' l)
    (hW : ∀ l, W l → W' l) : Foot R' W' x := fun μ μ' e =>
  have k := h μ μ' (fun l hl => e l (hR l hl))
  ⟨k.1, k.2.1, fun l hl => k.2.2 l (fun w => hl (hW l w))⟩

section rules
variable {R W : L → Prop}

theorem Foot.pure (a : α) : Foot R W (Pure.pure a : M L T α) :=
  fun _ _ _ => ⟨rfl, fun _ h => h, fun _ _ => rfl⟩

theorem Foot.fail (e : Err) : Foot R W (M.fail e : M L T α) :=
  fun _ _ _ => ⟨rfl, fun _ h => h, fun _ _ => rfl⟩

theorem Foot.bind {x : M L T α} {f : α → M L T β} (hx : Foot R W x) (hf : ∀ a, Foot R W (f a)) :
    Foot R W (x >>= f) := by
  intro μ μ' e
  obtain ⟨h1, h2, h3⟩ := hx μ μ' e
  have hb : ∀ μ : Store L T, (x >>= f) μ = match x μ with
      | (.ok a, ν) => f a ν
      | (.error er, ν) => (.error er, ν) := fun _ => rfl
  rw [hb, hb]
  rcases hxm : x μ with ⟨r, ν⟩
  rcases hxm' : x μ' with ⟨r', ν'⟩
  rw [hxm, hxm'] at h1 h2
  rw [hxm] at h3
  simp only at h1 h2 h3
  subst h1
  cases r with
  | error er => exact ⟨rfl, h2, h3⟩
  | ok a =>
    obtain ⟨k1, k2, k3⟩ := hf a ν ν' (fun l hl => h2 l (e l hl))
    exact ⟨k1, fun l hl => k2 l (h2 l hl), fun l hl => (k3 l hl).trans (h3 l hl)⟩

theorem Foot.check (c : Bool) : Foot R W (TLA.check c : M L T Unit) := by
  unfold TLA.check
  split
  · exact Foot.pure _
  · exact Foot.fail _

theorem Foot.check_bind {c : Bool} {f : Unit → M L T α} (h : c = true → Foot R W (f ())) :
    Foot R W (TLA.check c >>= f) := by
  cases c with
  | true => exact Foot.bind (Foot.check _) (fun _ => h rfl)
  | false =>
    have : (TLA.check false >>= f : M L T α) = M.fail .check := rfl
    rw [this]; exact Foot.fail _

theorem Foot.error (k : Nat) : Foot R W (TLA.error k : M L T α) := Foot.fail _

theorem Foot.raise [DecidableEq L] (thr : Bool) (k : Nat) :
    Foot R W (TLA.raise thr k : M L T Unit) := by
  unfold TLA.raise
  split
  · exact Foot.error _
  · exact Foot.pure _

theorem Foot.ite {c : Prop} [Decidable c] {x y : M L T α} (hx : c → Foot R W x)
    (hy : ¬ c → Foot R W y) : Foot R W (if c then x else y) := by
  split
  · exact hx ‹_›
  · exact hy ‹_›

theorem Foot.dite {c : Prop} [Decidable c] {x : c → M L T α} {y : ¬ c → M L T α}
    (hx : ∀ h, Foot R W (x h)) (hy : ∀ h, Foot R W (y h)) :
    Foot R W (if h : c then x h else y h) := by
  split
  · exact hx ‹_›
  · exact hy ‹_›

/-! ### Covered views -/

/-- All entries of the view satisfy `P`. -/
def CovM (P : L → Prop) (A : MatV L) : Prop := ∀ i j, i < A.m → j < A.n → P (A.cell i j)

def CovV (P : L → Prop) (x : VecV L) : Prop := ∀ i, i < x.n → P (x.cell i)

/-- The selected triangle satisfies `P`. -/
def CovT (P : L → Prop) (uplo : Uplo) (diag : Diag) (A : MatV L) : Prop :=
  ∀ i j, i < A.m → j < A.n → inTri uplo i j → (diag = .Unit → i ≠ j) → P (A.cell i j)

variable {P : L → Prop}

theorem CovM.tri {A : MatV L} (h : CovM P A) (uplo : Uplo) (diag : Diag) : CovT P uplo diag A :=
  fun i j hi hj _ _ => h i j hi hj

theorem CovT.diag {A : MatV L} {uplo : Uplo} (h : CovT P uplo .NonUnit A) (diag : Diag) :
    CovT P uplo diag A :=
  fun i j hi hj ht _ => h i j hi hj ht (by intro h; cases h)

theorem CovM.sub {A : MatV L} (h : CovM P A) {r0 r1 c0 c1 : Nat} (h1 : r1 ≤ A.m) (h2 : c1 ≤ A.n) :
    CovM P (A.sub r0 r1 c0 c1) := fun i j hi hj => by
  simp only [MatV.sub] at hi hj ⊢
  exact h _ _ (by omega) (by omega)

theorem CovM.rowv {A : MatV L} (h : CovM P A) {i c0 c1 : Nat} (h1 : i < A.m) (h2 : c1 ≤ A.n) :
    CovV P (A.rowv i c0 c1) := fun j hj => by
  simp only [MatV.rowv] at hj ⊢
  exact h _ _ (by omega) (by omega)

theorem CovM.colv {A : MatV L} (h : CovM P A) {r0 r1 j : Nat} (h1 : r1 ≤ A.m) (h2 : j < A.n) :
    CovV P (A.colv r0 r1 j) := fun i hi => by
  simp only [MatV.colv] at hi ⊢
  exact h _ _ (by omega) (by omega)

theorem CovV.sub {x : VecV L} (h : CovV P x) {a b : Nat} (h1 : b ≤ x.n) :
    CovV P (x.sub a b) := fun i hi => by
  simp only [VecV.sub] at hi ⊢
  exact h _ (by omega)

/-- Diagonal block. -/
theorem CovT.sub {A : MatV L} {uplo : Uplo} {diag : Diag} (h : CovT P uplo diag A) {a b : Nat}
    (h1 : b ≤ A.m) (h2 : b ≤ A.n) : CovT P uplo diag (A.sub a b a b) := fun i j hi hj ht hd => by
  simp only [MatV.sub] at hi hj ⊢
  refine h _ _ (by omega) (by omega) ?_ (fun e => by have := hd e; omega)
  cases uplo <;> simp only [inTri] at ht ⊢ <;> omega

/-- Block above the diagonal. -/
theorem CovT.subU {A : MatV L} {diag : Diag} (h : CovT P .Upper diag A) {r0 r1 c0 c1 : Nat}
    (h1 : r1 ≤ A.m) (h2 : c1 ≤ A.n) (h3 : r1 ≤ c0) : CovM P (A.sub r0 r1 c0 c1) :=
  fun i j hi hj => by
    simp only [MatV.sub] at hi hj ⊢
    exact h _ _ (by omega) (by omega) (by simp only [inTri]; omega) (fun _ => by omega)

/-- Block below the diagonal. -/
theorem CovT.subL {A : MatV L} {diag : Diag} (h : CovT P .Lower diag A) {r0 r1 c0 c1 : Nat}
    (h1 : r1 ≤ A.m) (h2 : c1 ≤ A.n) (h3 : c1 ≤ r0) : CovM P (A.sub r0 r1 c0 c1) :=
  fun i j hi hj => by
    simp only [MatV.sub] at hi hj ⊢
    exact h _ _ (by omega) (by omega) (by simp only [inTri]; omega) (fun _ => by omega)

theorem CovT.colU {A : MatV L} {diag : Diag} (h : CovT P .Upper diag A) {r0 r1 j : Nat}
    (h1 : r1 ≤ A.m) (h2 : j < A.n) (h3 : r1 ≤ j) : CovV P (A.colv r0 r1 j) :=
  fun i hi => by
    simp only [MatV.colv] at hi ⊢
    exact h _ _ (by omega) (by omega) (by simp only [inTri]; omega) (fun _ => by omega)

theorem CovT.rowU {A : MatV L} {diag : Diag} (h : CovT P .Upper diag A) {c0 c1 i : Nat}
    (h1 : i < A.m) (h2 : c1 ≤ A.n) (h3 : i < c0) : CovV P (A.rowv i c0 c1) :=
  fun j hj => by
    simp only [MatV.rowv] at hj ⊢
    exact h _ _ (by omega) (by omega) (by simp only [inTri]; omega) (fun _ => by omega)

theorem CovT.colL {A : MatV L} {diag : Diag} (h : CovT P .Lower diag A) {r0 r1 j : Nat}
    (h1 : r1 ≤ A.m) (h2 : j < A.n) (h3 : j < r0) : CovV P (A.colv r0 r1 j) :=
  fun i hi => by
    simp only [MatV.colv] at hi ⊢
    exact h _ _ (by omega) (by omega) (by simp only [inTri]; omega) (fun _ => by omega)

theorem CovT.rowL {A : MatV L} {diag : Diag} (h : CovT P .Lower diag A) {c0 c1 i : Nat}
    (h1 : i < A.m) (h2 : c1 ≤ A.n) (h3 : c1 ≤ i) : CovV P (A.rowv i c0 c1) :=
  fun j hj => by
    simp only [MatV.rowv] at hj ⊢
    exact h _ _ (by omega) (by omega) (by simp only [inTri]; omega) (fun _ => by omega)

theorem covM_owns (A : MatV L) : CovM A.Owns A := fun i j hi hj => ⟨i, j, hi, hj, rfl⟩
theorem covV_owns (x : VecV L) : CovV x.Owns x := fun i hi => ⟨i, hi, rfl⟩
theorem covT_owns (A : MatV L) (uplo : Uplo) (diag : Diag) :
    CovT (A.OwnsTri uplo diag) uplo diag A := fun i j hi hj ht hd => ⟨i, j, hi, hj, ht, hd, rfl⟩

theorem CovM.imp {Q : L → Prop} {A : MatV L} (h : CovM P A) (f : ∀ l, P l → Q l) : CovM Q A :=
  fun i j hi hj => f _ (h i j hi hj)
theorem CovV.imp {Q : L → Prop} {x : VecV L} (h : CovV P x) (f : ∀ l, P l → Q l) : CovV Q x :=
  fun i hi => f _ (h i hi)
theorem CovT.imp {Q : L → Prop} {A : MatV L} {uplo : Uplo} {diag : Diag} (h : CovT P uplo diag A)
    (f : ∀ l, P l → Q l) : CovT Q uplo diag A :=
  fun i j hi hj ht hd => f _ (h i j hi hj ht hd)

/-! ### Element access -/

theorem Foot.get' {A : MatV L} {i j : Nat} (h : i < A.m → j < A.n → R (A.cell i j)) :
    Foot R W (A.get i j : M L T T) := by
  intro μ μ' e
  simp only [MatV.get]
  split
  · next hb => exact ⟨by rw [e _ (h hb.1 hb.2)], fun _ h => h, fun _ _ => rfl⟩
  · exact ⟨rfl, fun _ h => h, fun _ _ => rfl⟩

theorem Foot.set' [DecidableEq L] {A : MatV L} {i j : Nat} {v : T}
    (h : i < A.m → j < A.n → W (A.cell i j)) : Foot R W (A.set i j v) := by
  intro μ μ' e
  simp only [MatV.set]
  split
  · next hb =>
    refine ⟨rfl, fun l hl => ?_, fun l hl => ?_⟩
    · simp only [upd]; split
      · rfl
      · exact hl
    · simp only [upd]
      rw [if_neg (fun e : l = _ => hl (e ▸ h hb.1 hb.2))]
  · exact ⟨rfl, fun _ h => h, fun _ _ => rfl⟩

theorem Foot.vget' {x : VecV L} {i : Nat} (h : i < x.n → R (x.cell i)) :
    Foot R W (x.get i : M L T T) := by
  intro μ μ' e
  simp only [VecV.get]
  split
  · next hb => exact ⟨by rw [e _ (h hb)], fun _ h => h, fun _ _ => rfl⟩
  · exact ⟨rfl, fun _ h => h, fun _ _ => rfl⟩

theorem Foot.vset' [DecidableEq L] {x : VecV L} {i : Nat} {v : T}
    (h : i < x.n → W (x.cell i)) : Foot R W (x.set i v) := by
  intro μ μ' e
  simp only [VecV.set]
  split
  · next hb =>
    refine ⟨rfl, fun l hl => ?_, fun l hl => ?_⟩
    · simp only [upd]; split
      · rfl
      · exact hl
    · simp only [upd]
      rw [if_neg (fun e : l = _ => hl (e ▸ h hb))]
  · exact ⟨rfl, fun _ h => h, fun _ _ => rfl⟩

theorem Foot.modify' [DecidableEq L] {A : MatV L} {i j : Nat} {f : T → T}
    (h : i < A.m → j < A.n → R (A.cell i j)) (h' : i < A.m → j < A.n → W (A.cell i j)) :
    Foot R W (A.modify i j f) :=
  Foot.bind (Foot.get' h) (fun _ => Foot.set' h')

theorem Foot.vmodify' [DecidableEq L] {x : VecV L} {i : Nat} {f : T → T}
    (h : i < x.n → R (x.cell i)) (h' : i < x.n → W (x.cell i)) :
    Foot R W (x.modify i f) :=
  Foot.bind (Foot.vget' h) (fun _ => Foot.vset' h')

theorem Foot.slice_bind {A : MatV L} {r0 r1 c0 c1 : Nat} {f : MatV L → M L T α}
    (h : r0 ≤ r1 → r1 ≤ A.m → c0 ≤ c1 → c1 ≤ A.n → Foot R W (f (A.sub r0 r1 c0 c1))) :
    Foot R W (A.slice r0 r1 c0 c1 >>= f) := by
  unfold MatV.slice
  split
  · next hb => exact h hb.1.2.2 hb.1.2.1 hb.2.2.2 hb.2.2.1
  · exact Foot.fail _

theorem Foot.sliceChk_bind {A : MatV L} {r0 r1 c0 c1 : Nat} {f : Unit → M L T α}
    (h : r0 ≤ r1 → r1 ≤ A.m → c0 ≤ c1 → c1 ≤ A.n → Foot R W (f ())) :
    Foot R W (A.sliceChk r0 r1 c0 c1 >>= f) := by
  unfold MatV.sliceChk
  split
  · next hb => exact h hb.1.2.2 hb.1.2.1 hb.2.2.2 hb.2.2.1
  · exact Foot.fail _

theorem Foot.sliceRow_bind {A : MatV L} {i c0 c1 : Nat} {f : VecV L → M L T α}
    (h : i < A.m → c0 ≤ c1 → c1 ≤ A.n → Foot R W (f (A.rowv i c0 c1))) :
    Foot R W (A.sliceRow i c0 c1 >>= f) := by
  unfold MatV.sliceRow
  split
  · next hb => exact h hb.2 hb.1.2.2 hb.1.2.1
  · exact Foot.fail _

theorem Foot.sliceCol_bind {A : MatV L} {r0 r1 j : Nat} {f : VecV L → M L T α}
    (h : j < A.n → r0 ≤ r1 → r1 ≤ A.m → Foot R W (f (A.colv r0 r1 j))) :
    Foot R W (A.sliceCol r0 r1 j >>= f) := by
  unfold MatV.sliceCol
  split
  · next hb => exact h hb.2 hb.1.2.2 hb.1.2.1
  · exact Foot.fail _

theorem Foot.vslice_bind {x : VecV L} {a b : Nat} {f : VecV L → M L T α}
    (h : a ≤ b → b ≤ x.n → Foot R W (f (x.sub a b))) :
    Foot R W (x.slice a b >>= f) := by
  unfold VecV.slice
  split
  · next hb => exact h hb.2.2 hb.2.1
  · exact Foot.fail _

/-! ### Index arrays (values, no memory) -/

theorem Foot.iget (p : IArr) (i : Nat) : Foot R W (p.get i : M L T Nat) := by
  unfold IArr.get; split
  · exact Foot.pure _
  · exact Foot.fail _

theorem Foot.iset (p : IArr) (i v : Nat) : Foot R W (p.set i v : M L T IArr) := by
  unfold IArr.set; split
  · exact Foot.pure _
  · exact Foot.fail _

theorem Foot.islice (p : IArr) (a b : Nat) : Foot R W (p.slice a b : M L T IArr) := by
  unfold IArr.slice; split
  · exact Foot.pure _
  · exact Foot.fail _

/-! ### Loops -/

theorem Foot.forUpN {body : Nat → σ → M L T σ} : ∀ (c lo : Nat) (s : σ),
    (∀ i s, lo ≤ i → i < lo + c → Foot R W (body i s)) → Foot R W (TLA.forUpN lo c s body)
  | 0, lo, s, _ => Foot.pure _
  | c + 1, lo, s, h => by
    unfold TLA.forUpN
    refine Foot.bind (h lo s (by omega) (by omega)) (fun s' => ?_)
    exact Foot.forUpN c (lo + 1) s' (fun i s h1 h2 => h i s (by omega) (by omega))

theorem Foot.forUp {body : Nat → σ → M L T σ} {lo hi : Nat} {s : σ}
    (h : ∀ i s, lo ≤ i → i < hi → Foot R W (body i s)) : Foot R W (TLA.forUp lo hi s body) :=
  Foot.forUpN _ _ _ (fun i s h1 h2 => h i s h1 (by omega))

theorem Foot.forUp_ {body : Nat → M L T Unit} {lo hi : Nat}
    (h : ∀ i, lo ≤ i → i < hi → Foot R W (body i)) : Foot R W (TLA.forUp_ lo hi body) :=
  Foot.forUp (fun i _ h1 h2 => h i h1 h2)

theorem Foot.forDownN {body : Nat → σ → M L T σ} : ∀ (c lo : Nat) (s : σ),
    (∀ i s, lo ≤ i → i < lo + c → Foot R W (body i s)) → Foot R W (TLA.forDownN lo c s body)
  | 0, lo, s, _ => Foot.pure _
  | c + 1, lo, s, h => by
    unfold TLA.forDownN
    refine Foot.bind (h (lo + c) s (by omega) (by omega)) (fun s' => ?_)
    exact Foot.forDownN c lo s' (fun i s h1 h2 => h i s (by omega) (by omega))

theorem Foot.forDown {body : Nat → σ → M L T σ} {lo hi : Nat} {s : σ}
    (h : ∀ i s, lo ≤ i → i < hi → Foot R W (body i s)) : Foot R W (TLA.forDown lo hi s body) :=
  Foot.forDownN _ _ _ (fun i s h1 h2 => h i s h1 (by omega))

theorem Foot.forDown_ {body : Nat → M L T Unit} {lo hi : Nat}
    (h : ∀ i, lo ≤ i → i < hi → Foot R W (body i)) : Foot R W (TLA.forDown_ lo hi body) :=
  Foot.forDown (fun i _ h1 h2 => h i h1 h2)

theorem Foot.forRetN {body : Nat → σ → M L T (σ ⊕ ρ)} : ∀ (c lo : Nat) (s : σ),
    (∀ i s, lo ≤ i → i < lo + c → Foot R W (body i s)) → Foot R W (TLA.forRetN lo c s body)
  | 0, lo, s, _ => Foot.pure _
  | c + 1, lo, s, h => by
    unfold TLA.forRetN
    refine Foot.bind (h lo s (by omega) (by omega)) (fun r => ?_)
    cases r with
    | inl s' => exact Foot.forRetN c (lo + 1) s' (fun i s h1 h2 => h i s (by omega) (by omega))
    | inr r => exact Foot.pure _

theorem Foot.forRet {body : Nat → σ → M L T (σ ⊕ ρ)} {lo hi : Nat} {s : σ}
    (h : ∀ i s, lo ≤ i → i < hi → Foot R W (body i s)) : Foot R W (TLA.forRet lo hi s body) :=
  Foot.forRetN _ _ _ (fun i s h1 h2 => h i s h1 (by omega))

theorem Foot.forStep [DecidableEq L] {nb n : Nat} {body : Nat → M L T (Option ρ)}
    (h : ∀ j, j < n → Foot R W (body j)) (j : Nat) : Foot R W (TLA.forStep nb n body j) := by
  induction hk : n - j using Nat.strong_induction_on generalizing j with
  | _ k ih =>
    rw [TLA.forStep]
    refine Foot.dite (fun hj => ?_) (fun _ => Foot.pure _)
    refine Foot.bind (h j hj) (fun r => ?_)
    cases r with
    | some r => exact Foot.pure _
    | none =>
      refine Foot.dite (fun _ => Foot.fail _) (fun hb => ?_)
      exact ih (n - (j + nb)) (by omega) _ rfl

end rules

/-! ### Access to covered views -/

section acc
variable {R W : L → Prop}

theorem Foot.get_m {A : MatV L} {i j : Nat} (h : CovM R A) : Foot R W (A.get i j : M L T T) :=
  Foot.get' (h i j)

theorem Foot.get_t {A : MatV L} {i j : Nat} {uplo : Uplo} {diag : Diag} (h : CovT R uplo diag A)
    (ht : inTri uplo i j) (hd : diag = .Unit → i ≠ j) : Foot R W (A.get i j : M L T T) :=
  Foot.get' (fun h1 h2 => h i j h1 h2 ht hd)

theorem Foot.set_m [DecidableEq L] {A : MatV L} {i j : Nat} {v : T} (h : CovM W A) :
    Foot R W (A.set i j v) := Foot.set' (h i j)

theorem Foot.set_t [DecidableEq L] {A : MatV L} {i j : Nat} {v : T} {uplo : Uplo} {diag : Diag}
    (h : CovT W uplo diag A) (ht : inTri uplo i j) (hd : diag = .Unit → i ≠ j) :
    Foot R W (A.set i j v) :=
  Foot.set' (fun h1 h2 => h i j h1 h2 ht hd)

theorem Foot.modify_m [DecidableEq L] {A : MatV L} {i j : Nat} {f : T → T} (h : CovM R A)
    (h' : CovM W A) : Foot R W (A.modify i j f) := Foot.modify' (h i j) (h' i j)

theorem Foot.modify_t [DecidableEq L] {A : MatV L} {i j : Nat} {f : T → T} {uplo : Uplo}
    {diag : Diag} (h : CovT R uplo diag A) (h' : CovT W uplo diag A)
    (ht : inTri uplo i j) (hd : diag = .Unit → i ≠ j) : Foot R W (A.modify i j f) :=
  Foot.modify' (fun h1 h2 => h i j h1 h2 ht hd) (fun h1 h2 => h' i j h1 h2 ht hd)

theorem Foot.vget_v {x : VecV L} {i : Nat} (h : CovV R x) : Foot R W (x.get i : M L T T) :=
  Foot.vget' (h i)

theorem Foot.vset_v [DecidableEq L] {x : VecV L} {i : Nat} {v : T} (h : CovV W x) :
    Foot R W (x.set i v) := Foot.vset' (h i)

theorem Foot.vmodify_v [DecidableEq L] {x : VecV L} {i : Nat} {f : T → T} (h : CovV R x)
    (h' : CovV W x) : Foot R W (x.modify i f) := Foot.vmodify' (h i) (h' i)

end acc

/-- `inTri uplo i j` for a literal `uplo`. -/
macro "ftri" : tactic => `(tactic| (simp only [inTri]; omega))

/-- `diag = .Unit → i ≠ j`. -/
macro "fdiag" : tactic => `(tactic| (
  intro hdiag
  first
  | omega
  | exact absurd hdiag (by decide)
  | exact Diag.noConfusion (hdiag.symm.trans (by assumption : _ = Diag.NonUnit))))

/-- One step. -/
macro "foot1" : tactic => `(tactic| with_reducible first
  | exact Foot.pure _
  | exact Foot.fail _
  | exact Foot.error _
  | exact Foot.raise _ _
  | refine Foot.check_bind (fun _ => ?_)
  | exact Foot.check _
  | exact Foot.iget _ _
  | exact Foot.iset _ _ _
  | exact Foot.islice _ _ _
  | refine Foot.slice_bind (fun _ _ _ _ => ?_)
  | refine Foot.sliceChk_bind (fun _ _ _ _ => ?_)
  | refine Foot.sliceRow_bind (fun _ _ _ => ?_)
  | refine Foot.sliceCol_bind (fun _ _ _ => ?_)
  | refine Foot.vslice_bind (fun _ _ => ?_)
  | refine Foot.bind ?_ (fun _ => ?_)
  | exact Foot.get_m (by assumption)
  | exact Foot.set_m (by assumption)
  | exact Foot.modify_m (by assumption) (by assumption)
  | exact Foot.vget_v (by assumption)
  | exact Foot.vset_v (by assumption)
  | exact Foot.vmodify_v (by assumption) (by assumption)
  | refine Foot.forUp_ (fun _ _ _ => ?_)
  | refine Foot.forDown_ (fun _ _ _ => ?_)
  | refine Foot.forUp (fun _ _ _ _ => ?_)
  | refine Foot.forDown (fun _ _ _ _ => ?_)
  | refine Foot.forRet (fun _ _ _ _ => ?_)
  | refine Foot.forStep (fun _ _ => ?_) _
  | refine Foot.ite (fun _ => ?_) (fun _ => ?_)
  | refine Foot.dite (fun _ => ?_) (fun _ => ?_)
  | refine Foot.get_t (by assumption) ?_ ?_
  | refine Foot.set_t (by assumption) ?_ ?_
  | refine Foot.modify_t (by assumption) (by assumption) ?_ ?_)

/-- Prove a footprint by walking through the program. -/
macro "foot" : tactic => `(tactic| repeat' (first
  | foot1
  | fdiag
  | ftri
  | (dsimp only; foot1)
  | split))

end TLA
