import Mathlib.Data.Rat.Floor

/-!
Model of the sorting routines: src/base/ipsort.c (index sort, comb sort) and src/base/isort.f, sort.f (heap sort in
place).  They are written once for each type of value; here the type is a parameter and `gt` is the comparison.
An access outside of an array is `none`.
-/
namespace Verif.Sorts

variable {α : Type}

/-- The next gap, ipsort.c lines 88-101, 148-161, 204-217, 263-276; `quot` is the quotient of the gap, as a float,
by 1.3. -/
def next (quot : Nat → ℚ) (gap : Nat) : Nat :=
  let q := ⌊quot gap⌋.toNat
  if q = 0 then 1
  else if q = 9 ∨ q = 10 then 11
  else q

/-- Exchange of two indices by exclusive or, ipsort.c lines 111-113. -/
def swap (idx : List Nat) (i j : Nat) : List Nat :=
  let idx := idx.set i (idx.getD i 0 ^^^ idx.getD j 0)
  let idx := idx.set j (idx.getD i 0 ^^^ idx.getD j 0)
  idx.set i (idx.getD i 0 ^^^ idx.getD j 0)

/-- Value of the element with index `a` (from 1). -/
def value (list : List α) (a : Nat) : Option α := if a = 0 then none else list[a - 1]?

/-- One pass, ipsort.c lines 107-116: `n` comparisons from position `i` on. -/
def pass (gt : α → α → Bool) (list : List α) (gap : Nat) : Nat → Nat → List Nat → Nat → Option (List Nat × Nat)
  | 0, _, idx, switches => some (idx, switches)
  | n + 1, i, idx, switches =>
    match idx[i]?, idx[i + gap]? with
    | some a, some b =>
      match value list a, value list b with
      | some x, some y =>
        if gt x y then pass gt list gap n (i + 1) (swap idx i (i + gap)) (switches + 1)
        else pass gt list gap n (i + 1) idx switches
      | _, _ => none
    | _, _ => none

/-- The outer loop, ipsort.c lines 87-117.  `none` also when it takes more than `fuel` rounds. -/
def comb (quot : Nat → ℚ) (gt : α → α → Bool) (list : List α) (size : Nat) : Nat → Nat → List Nat → Option (List Nat)
  | 0, _, _ => none
  | fuel + 1, gap, idx =>
    let gap := next quot gap
    match pass gt list gap (size - gap) 0 idx 0 with
    | none => none
    | some (idx, switches) =>
      if switches ≠ 0 ∨ gap > 1 then comb quot gt list size fuel gap idx else some idx

/-- `csortr`, ipsort.c lines 70-119, and its copies for other types: the indices are initialised if the first is not
positive. -/
def csort (quot : Nat → ℚ) (gt : α → α → Bool) (list : List α) (fuel : Nat) (index : List Int) : Option (List Nat) :=
  let size := list.length
  match index[0]? with
  | none => none
  | some i0 =>
    if i0 ≤ 0 then
      if index.length < size then none
      else comb quot gt list size fuel size ((List.range size).map (· + 1) ++ (index.drop size).map Int.toNat)
    else comb quot gt list size fuel size (index.map Int.toNat)

/-- `ipsort`, ipsort.c lines 122-129. -/
def ipsort (quot : Nat → ℚ) (gt : α → α → Bool) (list : List α) (fuel : Nat) (index : List Int) : Option (List Nat) :=
  if index.length = 0 then none else csort quot gt list fuel (index.set 0 (-1))

/-- Label 80: the greater of the elements at `j` and `j + 1`. -/
def pick (gt : α → α → Bool) (nn j : Nat) (l : List α) : Option Nat :=
  if j < nn then
    match l[j]?, l[j - 1]? with
    | some y, some x => some (if gt y x then j + 1 else j)
    | _, _ => none
  else some j

/-- `SIFTUP`, isort.f lines 99-109, sort.f lines 96-106: from label 70 on, position `i` is free and `save` has to be
placed.  Positions count from 1. -/
def sift (gt : α → α → Bool) (nn : Nat) (save : α) : Nat → Nat → List α → Option (List α)
  | 0, _, _ => none
  | fuel + 1, i, l =>
    let j := i + i
    let place := if 1 ≤ i ∧ i ≤ l.length then some (l.set (i - 1) save) else none
    if j > nn then place
    else
      match pick gt nn j l with
      | none => none
      | some j =>
        match l[j - 1]? with
        | none => none
        | some x =>
          if !gt x save then place
          else if 1 ≤ i ∧ i ≤ l.length then sift gt nn save fuel j (l.set (i - 1) x)
          else none

/-- Label 60. -/
def siftup (gt : α → α → Bool) (ii nn : Nat) (l : List α) : Option (List α) :=
  if ii = 0 then none
  else
    match l[ii - 1]? with
    | none => none
    | some save => sift gt nn save (nn + 1) ii l

/-- First loop, labels 20 to 30: from `ii` down to 2. -/
def build (gt : α → α → Bool) (nn : Nat) : Nat → List α → Option (List α)
  | 0, l => some l
  | 1, l => some l
  | ii + 2, l =>
    match siftup gt (ii + 2) nn l with
    | none => none
    | some l => build gt nn (ii + 1) l

/-- Exchange of the first element with that at `nn`, label 50. -/
def exchange (nn : Nat) (l : List α) : Option (List α) :=
  match l[0]?, (if nn = 0 then none else l[nn - 1]?) with
  | some a, some b => some ((l.set 0 b).set (nn - 1) a)
  | _, _ => none

/-- Second loop, labels 40 to 60, with `nn` after its decrement. -/
def drain (gt : α → α → Bool) : Nat → List α → Option (List α)
  | 0, _ => none
  | nn + 1, l =>
    match siftup gt 1 (nn + 1) l with
    | none => none
    | some l =>
      match exchange (nn + 1) l with
      | none => none
      | some l => if nn + 1 ≥ 3 then drain gt nn l else some l

/-- `ISORT`, isort.f lines 65-109, `SORT`, sort.f lines 62-106. -/
def sort (gt : α → α → Bool) (l : List α) : Option (List α) :=
  let n := l.length
  if n ≤ 1 then some l
  else
    match (if n ≤ 3 then some l else build gt n (n / 2) l) with
    | none => none
    | some l => drain gt n l

end Verif.Sorts
