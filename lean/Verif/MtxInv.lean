import Mathlib.Data.Fintype.BigOperators
import Mathlib.Algebra.Order.Ring.Rat
import Mathlib.Data.List.FinRange
/-! # Inverting a matrix

Model of `EZ_MTXINV8` (src/interp/ez_mtxinv8.inc:22-153): Gauss-Jordan with the largest element as pivot,
in place.  Simplified: real numbers are rationals without rounding; rows and columns are counted from 0;
a loop whose turns do not depend on each other is written as one assignment to the array. -/

namespace Verif.MtxInv

abbrev Mat (n : Nat) := Fin n → Fin n → ℚ

/-- A turn of the search for the largest element (ez_mtxinv8.inc:68-72). -/
def better {n : Nat} (A : Mat n) (s : ℚ × Fin n × Fin n) (i j : Fin n) : ℚ × Fin n × Fin n :=
  if |s.1| < |A i j| then (A i j, i, j) else s

/-- The loops of the search (ez_mtxinv8.inc:63-73): `BIGA`, `L(K)`, `M(K)`. -/
def search {n : Nat} (A : Mat n) (k : Fin n) : ℚ × Fin n × Fin n :=
  ((List.finRange n).filter (k ≤ ·)).foldl (fun s j =>
    ((List.finRange n).filter (k ≤ ·)).foldl (fun s i => better A s i j) s) (A k k, k, k)

/-- Interchange of rows (ez_mtxinv8.inc:77-83). -/
def rowSwap {n : Nat} (A : Mat n) (k l : Fin n) : Mat n :=
  if k < l then fun i j => if i = k then A l j else if i = l then -A k j else A i j else A

/-- Interchange of columns (ez_mtxinv8.inc:87-93). -/
def colSwap {n : Nat} (A : Mat n) (k m : Fin n) : Mat n :=
  if k < m then fun i j => if j = k then A i m else if j = m then -A i k else A i j else A

/-- Column divided by minus the pivot (ez_mtxinv8.inc:102-105). -/
def divCol {n : Nat} (A : Mat n) (k : Fin n) (p : ℚ) : Mat n :=
  fun i j => if j = k ∧ i ≠ k then A i k / (-p) else A i j

/-- The reduction (ez_mtxinv8.inc:109-117). -/
def reduce {n : Nat} (A : Mat n) (k : Fin n) : Mat n :=
  fun i j => if i ≠ k ∧ j ≠ k then A i k * A k j + A i j else A i j

/-- Row divided by the pivot (ez_mtxinv8.inc:121-124). -/
def divRow {n : Nat} (A : Mat n) (k : Fin n) (p : ℚ) : Mat n :=
  fun i j => if i = k ∧ j ≠ k then A k j / p else A i j

/-- The pivot replaced (ez_mtxinv8.inc:128). -/
def recip {n : Nat} (A : Mat n) (k : Fin n) (p : ℚ) : Mat n :=
  fun i j => if i = k ∧ j = k then 1 / p else A i j

/-- A turn of the main loop (ez_mtxinv8.inc:62-129) with what it notes in `L(K)` and `M(K)`; `none` where
the program stops. -/
def turn {n : Nat} (A : Mat n) (k : Fin n) : Option (Mat n × Fin n × Fin n) :=
  let s := search A k
  let A := colSwap (rowSwap A k s.2.1) k s.2.2
  if s.1 = 0 then none
  else some (recip (divRow (reduce (divCol A k s.1) k) k s.1) k s.1, s.2.1, s.2.2)

/-- The main loop over the rows `ks`, with the notes. -/
def forward {n : Nat} : List (Fin n) → Mat n → Option (Mat n × List (Fin n × Fin n × Fin n))
  | [], A => some (A, [])
  | k :: ks, A =>
    match turn A k with
    | none => none
    | some (A', l, m) =>
      match forward ks A' with
      | none => none
      | some (B, notes) => some (B, (k, l, m) :: notes)

/-- Final interchange of columns (ez_mtxinv8.inc:134-140). -/
def colBack {n : Nat} (A : Mat n) (k l : Fin n) : Mat n :=
  if k < l then fun i j => if j = k then -A i l else if j = l then A i k else A i j else A

/-- Final interchange of rows (ez_mtxinv8.inc:141-147). -/
def rowBack {n : Nat} (A : Mat n) (k m : Fin n) : Mat n :=
  if k < m then fun i j => if i = k then -A m j else if i = m then A k j else A i j else A

/-- The last loop (ez_mtxinv8.inc:133-148), which begins with row N-1. -/
def back {n : Nat} (notes : List (Fin n × Fin n × Fin n)) (A : Mat n) : Mat n :=
  (notes.reverse.drop 1).foldl (fun A t => rowBack (colBack A t.1 t.2.1) t.1 t.2.2) A

/-- `EZ_MTXINV8`; `none` where the program stops. -/
def mtxinv {n : Nat} (A : Mat n) : Option (Mat n) :=
  (forward (List.finRange n) A).map fun r => back r.2 r.1

end Verif.MtxInv
