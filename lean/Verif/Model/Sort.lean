import Verif.Core

/-!
# Model of lasrt and lamrg
-/

namespace TLA

variable {L T : Type}

/-! ### lasrt

`lt a b` is the comparison `a < b` of the entry type (for floating point it is false when one of
the two is NaN).  `asc` is `dir == 1`. -/

/-- The comparison used by the sort: `(dir == 1 && x < y) || (dir == 0 && x > y)`
(lapack/lasrt.hpp:76-77, 116-117; with arguments swapped 119-120). -/
def before (lt : T → T → Bool) (asc : Bool) (x y : T) : Bool := if asc then lt x y else lt y x

/-- Swap of two entries through a temporary (lapack/lasrt.hpp:78-80, 124-126). -/
def vswap [DecidableEq L] (d : VecV L) (i j : Nat) : M L T Unit := do
  let t ← d.get i
  let u ← d.get j
  d.set i u
  d.set j t

/-- `for (j = ..; j > start; --j) if (..) swap else break` (lapack/lasrt.hpp:75-85). -/
def insDown [DecidableEq L] (bf : T → T → Bool) (d : VecV L) (start : Nat) : Nat → M L T Unit
  | 0 => pure ()
  | j + 1 =>
    if j + 1 > start then do
      let x ← d.get (j + 1)
      let y ← d.get j
      if bf x y then do
        vswap d (j + 1) j
        insDown bf d start j
      else pure ()
    else pure ()

/-- Insertion sort of `d[start..fin]` (lapack/lasrt.hpp:74-86). -/
def insertionSort [DecidableEq L] (bf : T → T → Bool) (d : VecV L) (start fin : Nat) : M L T Unit :=
  forUp_ (start + 1) (fin + 1) fun i => insDown bf d start i

/-- The pivot: median of the first, last and middle entries (lapack/lasrt.hpp:90-111). -/
def median3 (lt : T → T → Bool) (d1 d2 d3 : T) : T :=
  if lt d1 d2 then
    if lt d3 d1 then d1 else if lt d3 d2 then d3 else d2
  else
    if lt d3 d2 then d2 else if lt d3 d1 then d3 else d1

/-- `while (i <= fin && before(d[i], pivot)) ++i` (lapack/lasrt.hpp:116-118); `cnt = fin + 1 - i`. -/
def scanUp (bf : T → T → Bool) (d : VecV L) (pivot : T) : (cnt : Nat) → (i : Nat) → M L T Nat
  | 0, i => pure i
  | c + 1, i => do
    let x ← d.get i
    if bf x pivot then scanUp bf d pivot c (i + 1) else pure i

/-- `while (j >= start && before(pivot, d[j])) --j` (lapack/lasrt.hpp:119-121).  Decrementing
`j = 0` wraps to the largest index, which the next iteration would access: `ub`. -/
def scanDown (bf : T → T → Bool) (d : VecV L) (pivot : T) (start : Nat) : (j : Nat) → M L T Nat
  | 0 =>
    if 0 ≥ start then do
      let x ← d.get 0
      if bf pivot x then M.fail .ub else pure 0
    else pure 0
  | j + 1 =>
    if j + 1 ≥ start then do
      let x ← d.get (j + 1)
      if bf pivot x then scanDown bf d pivot start j else pure (j + 1)
    else pure (j + 1)

/-- The partition loop (lapack/lasrt.hpp:115-133) with a bound on the number of rounds; returns the
final `j`. -/
def partLoop [DecidableEq L] (bf : T → T → Bool) (d : VecV L) (pivot : T) (start fin : Nat) :
    (fuel : Nat) → (i j : Nat) → M L T Nat
  | 0, _, _ => M.fail .diverge
  | fuel + 1, i, j => do
    let i ← scanUp bf d pivot (fin + 1 - i) i
    let j ← scanDown bf d pivot start j
    if i < j then do
      vswap d i j
      partLoop bf d pivot start fin fuel (i + 1) (j - 1)
    else pure j

/-- The loop over the stack of intervals (lapack/lasrt.hpp:68-144), head of the list = top of the
stack, with a bound on the number of pops. Unsigned subtraction: `end - start` with
`end < start` is a huge number, modelled by `fin < start ∨ fin - start > 20`. -/
def lasrtLoop [DecidableEq L] (lt : T → T → Bool) (asc : Bool) (d : VecV L) :
    (fuel : Nat) → List (Nat × Nat) → M L T Unit
  | _, [] => pure ()
  | 0, _ :: _ => M.fail .diverge
  | fuel + 1, (start, fin) :: stack => do
    if fin - start ≤ 20 ∧ fin > start then do
      insertionSort (before lt asc) d start fin
      lasrtLoop lt asc d fuel stack
    else if fin < start ∨ fin - start > 20 then do
      let d1 ← d.get start
      let d2 ← d.get fin
      let d3 ← d.get ((start + fin) / 2)
      let pivot := median3 lt d1 d2 d3
      let j ← partLoop (before lt asc) d pivot start fin (fin + 1 - start) start fin
      if j - start > fin - j - 1 then
        lasrtLoop lt asc d fuel ((j + 1, fin) :: (start, j) :: stack)
      else
        lasrtLoop lt asc d fuel ((start, j) :: (j + 1, fin) :: stack)
    else lasrtLoop lt asc d fuel stack

/-- lasrt (lapack/lasrt.hpp:51-147).  `id` is the option character. `n` is unsigned, so line 62
never returns. -/
def lasrt [DecidableEq L] (lt : T → T → Bool) (fuel : Nat) (id : Char) (n : Nat) (d : VecV L) :
    M L T Int :=
  if id = 'd' ∨ id = 'D' then
    if n ≤ 1 then pure 0 else do
      lasrtLoop lt false d fuel [(0, n - 1)]
      pure 0
  else if id = 'i' ∨ id = 'I' then
    if n ≤ 1 then pure 0 else do
      lasrtLoop lt true d fuel [(0, n - 1)]
      pure 0
  else pure (-1)

/-! ### Index arrays

Arrays of indices (pivots, permutations) cannot overlap arrays of scalars, so they are modelled as
values passed around instead of cells of the store. -/

/-- An array of `n` indices. -/
structure IArr where
  n : Nat
  f : Nat → Nat

/-- `index[i] = v`. -/
def IArr.set (p : IArr) (i v : Nat) : M L T IArr :=
  if i < p.n then pure ⟨p.n, fun k => if k = i then v else p.f k⟩ else M.fail .ub

/-- `index[i]`. -/
def IArr.get (p : IArr) (i : Nat) : M L T Nat :=
  if i < p.n then pure (p.f i) else M.fail .ub

/-! ### lamrg -/

/-- `a[ind]` for an index computed in wrap-around arithmetic, modelled as an integer: reading a
negative one is `ub`. -/
def getI (a : VecV L) (ind : Int) : M L T T := if 0 ≤ ind then a.get ind.toNat else M.fail .ub

/-- `index[i] = ind` likewise: only a non-negative `ind` may be stored. -/
def IArr.setI (p : IArr) (i : Nat) (ind : Int) : M L T IArr :=
  if 0 ≤ ind then p.set i ind.toNat else M.fail .ub

/-- The merging loop (lapack/lamrg.hpp:87-100); `le` is `<=` on entries.  Returns
`n1sv, n2sv, ind1, ind2, i` and the index array. -/
def lamrgLoop (le : T → T → Bool) (a : VecV L) (dtrd1 dtrd2 : Int) (n1sv n2sv : Nat)
    (ind1 ind2 : Int) (i : Nat) (index : IArr) : M L T (Nat × Nat × Int × Int × Nat × IArr) :=
  if n1sv > 0 ∧ n2sv > 0 then do
    let x ← getI a ind1
    let y ← getI a ind2
    if le x y then do
      let index ← index.setI i ind1
      lamrgLoop le a dtrd1 dtrd2 (n1sv - 1) n2sv (ind1 + dtrd1) ind2 (i + 1) index
    else do
      let index ← index.setI i ind2
      lamrgLoop le a dtrd1 dtrd2 n1sv (n2sv - 1) ind1 (ind2 + dtrd2) (i + 1) index
  else pure (n1sv, n2sv, ind1, ind2, i, index)
termination_by n1sv + n2sv

/-- Copying the indices that are left (lapack/lamrg.hpp:102-115). -/
def lamrgTail (dtrd : Int) : (cnt : Nat) → (ind : Int) → (i : Nat) → IArr → M L T IArr
  | 0, _, _, index => pure index
  | c + 1, ind, i, index => do
    let index ← index.setI i ind
    lamrgTail dtrd c (ind + dtrd) (i + 1) index

/-- lamrg (lapack/lamrg.hpp:64-118). -/
def lamrg (le : T → T → Bool) (n1 n2 : Nat) (a : VecV L) (dtrd1 dtrd2 : Int) (index : IArr) :
    M L T IArr := do
  let ind1 : Int := if dtrd1 > 0 then 0 else (n1 : Int) - 1
  let ind2 : Int := if dtrd2 > 0 then (n1 : Int) else (n1 : Int) + n2 - 1
  let (n1sv, n2sv, ind1, ind2, i, index) ← lamrgLoop le a dtrd1 dtrd2 n1 n2 ind1 ind2 0 index
  if n1sv = 0 then lamrgTail dtrd2 n2sv ind2 i index
  else lamrgTail dtrd1 n1sv ind1 i index

end TLA
