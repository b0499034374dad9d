import Mathlib.Algebra.Order.Floor.Ring
import Mathlib.Data.Rat.Floor
/-! # Small operations on fields

Model of `bilin.f`, `coupe.f`, `polagr.f`, `permut.f`, `mxma.F` and of `move3216` and `move832`
(src/base).  Simplified: real numbers are rationals without rounding; a division by zero and an access
outside of an array are `none`. -/

namespace Verif.Field

/-- `Z(I,J)` of a field of `ni` by `nj` points (from 1). -/
def at2 (z : Nat → Nat → ℚ) (ni nj i j : Int) : Option ℚ :=
  if 1 ≤ i ∧ i ≤ ni ∧ 1 ≤ j ∧ j ≤ nj then some (z i.toNat j.toNat) else none

/-- `BILIN` (bilin.f:57-77): the value and `OK`. -/
def bilin (z : Nat → Nat → ℚ) (ni nj : Int) (x y : ℚ) (ok : Bool) : Option (ℚ × Bool) :=
  let ok := ok && decide (1 ≤ x ∧ x ≤ ni ∧ 1 ≤ y ∧ y ≤ nj)
  if ok = false then some (0, false)
  else
    let i := if ⌊x⌋ = ni then ni - 1 else ⌊x⌋
    let j := if ⌊y⌋ = nj then nj - 1 else ⌊y⌋
    let dx := x - i
    let dy := y - j
    match at2 z ni nj i j, at2 z ni nj i (j + 1), at2 z ni nj (i + 1) j, at2 z ni nj (i + 1) (j + 1) with
    | some z00, some z01, some z10, some z11 =>
      let z1 := z00 + dy * (z01 - z00)
      let z2 := z10 + dy * (z11 - z10)
      some (z1 + dx * (z2 - z1), true)
    | _, _, _, _ => none

/-- The loop of `COUPE` (coupe.f:66-70): points `k`, …, with what `OK` is before. -/
def sections (z : Nat → Nat → ℚ) (ni nj : Int) (x1 y1 dx dy : ℚ) : Nat → Nat → Bool → Option (List ℚ × Bool)
  | _, 0, ok => some ([], ok)
  | k, n + 1, ok =>
    match bilin z ni nj (x1 + k * dx) (y1 + k * dy) ok with
    | none => none
    | some (v, ok') =>
      match sections z ni nj x1 y1 dx dy (k + 1) n ok' with
      | none => none
      | some (l, ok'') => some (v :: l, ok'')

/-- `COUPE` (coupe.f:61-73). -/
def coupe (np : Nat) (z : Nat → Nat → ℚ) (ni nj : Int) (x1 y1 x2 y2 : ℚ) : Option (List ℚ × Bool) :=
  if np = 1 then none
  else sections z ni nj x1 y1 ((x2 - x1) / ((np : ℚ) - 1)) ((y2 - y1) / ((np : ℚ) - 1)) 0 np true

/-- The inner loop of `POLAGR` (polagr.f:55-59): elements `j`, …, `j+m-1`. -/
def factors (zz : ℚ) (z : Nat → ℚ) (i : Nat) : Nat → Nat → ℚ → Option ℚ
  | _, 0, p => some p
  | j, m + 1, p =>
    if j = i then factors zz z i (j + 1) m p
    else if z i - z j = 0 then none
    else factors zz z i (j + 1) m (p * (zz - z j) / (z i - z j))

/-- The outer loop (polagr.f:51-63). -/
def terms (zz : ℚ) (f z : Nat → ℚ) (n : Nat) : Nat → Nat → ℚ → Option ℚ
  | _, 0, s => some s
  | i, m + 1, s =>
    match factors zz z i 0 n 1 with
    | none => none
    | some p => terms zz f z n (i + 1) m (s + f i * p)

/-- `POLAGR` (polagr.f:22-65), with elements from 0. -/
def polagr (zz : ℚ) (f z : Nat → ℚ) (n : Nat) : Option ℚ := terms zz f z n 0 n 0

/-- An assignment to an element. -/
def put {α : Type} (m : Int → α) (i : Int) (v : α) : Int → α := fun k => if k = i then v else m k

/-- The exchange of one element of row `j` (permut.f:61-63). -/
def swap1 {α : Type} (z : Int → α) (ni nj : Int) (i j : Int) : Int → α :=
  let a := (i - 1) + (nj + 1 - j - 1) * ni
  let b := (i - 1) + (j - 1) * ni
  let t := z a
  put (put z a (z b)) b t

/-- The inner loop (permut.f:60-64) over elements `i`, …, `i+n-1`. -/
def swapRow {α : Type} (ni nj j : Int) : Nat → Int → (Int → α) → Int → α
  | 0, _, z => z
  | n + 1, i, z => swapRow ni nj j n (i + 1) (swap1 z ni nj i j)

/-- The outer loop (permut.f:58-66) over rows `j`, …, `j+n-1`. -/
def swapRows {α : Type} (ni : Nat) (nj : Int) : Nat → Int → (Int → α) → Int → α
  | 0, _, z => z
  | n + 1, j, z => swapRows ni nj n (j + 1) (swapRow ni nj j ni 1 z)

/-- `PERMUT` (permut.f:22-69). -/
def permut {α : Type} (z : Int → α) (ni nj : Nat) : Int → α := swapRows ni nj (nj / 2) 1 z

/-- `do 10` of `mxma` (mxma.F:41-45); an element `a(ar,ac)` of an array declared `a(1,1)` is at
`ar + ac - 2`. -/
def dot (a b : Int → ℚ) (ar bc iad nb : Int) (at' : Int) : Nat → Int → Int → (Int → ℚ) → Int → ℚ
  | 0, _, _, c => c
  | n + 1, ac, br, c =>
    dot a b ar bc iad nb at' n (ac + iad) (br + nb) (put c at' (c at' + a (ar + ac - 2) * b (br + bc - 2)))

/-- `do 20` (mxma.F:37-48). -/
def mxCol (a b : Int → ℚ) (na iad nb nc : Int) (nac : Nat) (bc cc : Int) : Nat → Int → Int → (Int → ℚ) → Int → ℚ
  | 0, _, _, c => c
  | n + 1, cr, ar, c =>
    mxCol a b na iad nb nc nac bc cc n (cr + nc) (ar + na)
      (dot a b ar bc iad nb (cr + cc - 2) nac 1 1 (put c (cr + cc - 2) 0))

/-- `do 30` (mxma.F:34-51). -/
def mxCols (a b : Int → ℚ) (na iad nb ibd nc icd : Int) (nar nac : Nat) : Nat → Int → Int → (Int → ℚ) → Int → ℚ
  | 0, _, _, c => c
  | n + 1, bc, cc, c =>
    mxCols a b na iad nb ibd nc icd nar nac n (bc + ibd) (cc + icd) (mxCol a b na iad nb nc nac bc cc nar 1 1 c)

/-- `mxma` (mxma.F:21-53), the same as `mxma8`; the result is an array apart. -/
def mxma (a : Int → ℚ) (na iad : Int) (b : Int → ℚ) (nb ibd : Int) (c : Int → ℚ) (nc icd : Int)
    (nar nac nbc : Nat) : Int → ℚ := mxCols a b na iad nb ibd nc icd nar nac nbc 1 1 c

/-- An element of `move3216` on a little endian computer (movlev.F90:42). -/
def move3216 (x : BitVec 32) : BitVec 32 := (x <<< 16) ||| ((x >>> 16) &&& 65535#32)

/-- An element of `move832` (movlev.F90:72-75). -/
def move832 (x : BitVec 32) : BitVec 32 :=
  (((x &&& 255#32) <<< 24 ||| ((x <<< 8) &&& 16711680#32)) ||| ((x >>> 8) &&& 65280#32)) |||
    ((x >>> 24) &&& 255#32)

end Verif.Field
