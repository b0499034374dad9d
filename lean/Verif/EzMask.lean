import Mathlib.Data.Rat.Floor

/-! # Masks (`src/interp/ezget_mask_zones.inc`, `src/interp/lorenzo_mask_fill.inc`)

`qqq_ezget_mask_zones`, `qqq_ezsint_mask` and `lorenzo_mask_fill`.  Fields are functions of the two indices,
from 1; `none` is a read outside the array.  Reals are rational numbers without rounding. -/

namespace Verif.EzMask

/-- `int`. -/
def trunc (q : ℚ) : Int := if 0 ≤ q then ⌊q⌋ else ⌈q⌉

/-- `nint`. -/
def nint (q : ℚ) : Int := if 0 ≤ q then ⌊q + 1 / 2⌋ else ⌈q - 1 / 2⌉

/-- An element of an array of `ni` times `nj`. -/
def get (ni nj : Int) (m : Int → Int → Int) (i j : Int) : Option Int :=
  if 1 ≤ i ∧ i ≤ ni ∧ 1 ≤ j ∧ j ≤ nj then some (m i j) else none

/-- One if the mask is zero. -/
def gone (v : Int) : Nat := if v = 0 then 1 else 0

/-- The choice of ezget_mask_zones.inc:42-53. -/
def zone (missing : Nat) : Int :=
  match missing with
  | 0 => 4
  | 1 => 3
  | 2 => 2
  | 3 => 1
  | _ => 0

/-- `qqq_ezget_mask_zones` for one point (ezget_mask_zones.inc:24-54); the value 5 of line 32 is always replaced
by one of the values of lines 42-53. -/
def maskZone (ni nj : Int) (m : Int → Int → Int) (x y : ℚ) : Option Int :=
  let ix := trunc x
  let iy := trunc y
  if ix < 1 ∨ ni < ix ∨ iy < 1 ∨ nj < iy then some 7
  else do
    let _ ← get ni nj m (nint x) (nint y)
    let a ← get ni nj m ix iy
    let b ← get ni nj m ix (iy + 1)
    let c ← get ni nj m (ix + 1) iy
    let d ← get ni nj m (ix + 1) (iy + 1)
    return zone (gone a + gone b + gone c + gone d)

/-- The first part of `qqq_ezsint_mask` for one point (ezget_mask_zones.inc:77-89). -/
def sintNear (ni nj : Int) (m : Int → Int → Int) (x y : ℚ) : Option Int :=
  let ix := trunc x
  let iy := trunc y
  if ix < 1 ∨ ni < ix ∨ iy < 1 ∨ nj < iy then some 0
  else do
    let v ← get ni nj m (nint x) (nint y)
    return if v = 0 then 0 else 1

/-- The second part, of `cloud_interp_alg` `linear` (ezget_mask_zones.inc:91-103). -/
def sintCell (ni nj : Int) (m : Int → Int → Int) (x y : ℚ) : Option Int := do
  let ix := trunc x
  let iy := trunc y
  let b ← get ni nj m (ix + 1) iy
  let c ← get ni nj m ix (iy + 1)
  let d ← get ni nj m (ix + 1) (iy + 1)
  return if b = 0 ∨ c = 0 ∨ d = 0 then 0 else 1

/-- `qqq_ezsint_mask` (ezget_mask_zones.inc:61-105) for the point `i`, `j` of an output grid of `niOut` times
`njOut`, at the place `x`, `y` of the input grid. -/
def sintMask (linear : Bool) (niOut njOut i j : Int) (ni nj : Int) (m : Int → Int → Int) (x y : ℚ) : Option Int := do
  let v ← sintNear ni nj m x y
  if linear ∧ i ≤ niOut - 1 ∧ j ≤ njOut - 1 ∧ v = 1 then sintCell ni nj m x y else return v

/-- A field. -/
abbrev F := Nat → Nat → ℚ

/-- An assignment. -/
def put (f : F) (i j : Nat) (v : ℚ) : F := fun a b => if a = i ∧ b = j then v else f a b

/-- All points of the grid. -/
def cells (ni nj : Nat) : List (Nat × Nat) :=
  (List.range nj).flatMap fun j => (List.range ni).map fun i => (i + 1, j + 1)

/-- `minval` (of a field that is not empty). -/
def minval (ni nj : Nat) (f : F) : ℚ := ((cells ni nj).map fun c => f c.1 c.2).foldl min (f 1 1)

/-- `maxval`. -/
def maxval (ni nj : Nat) (f : F) : ℚ := ((cells ni nj).map fun c => f c.1 c.2).foldl max (f 1 1)

/-- Clipping (lorenzo_mask_fill.inc:37-38). -/
def clip (rmin rmax v : ℚ) : ℚ :=
  let v := if v < rmin then rmin else v
  if rmax < v then rmax else v

/-- The body of the first method (lorenzo_mask_fill.inc:35-39). -/
def lor (m : Nat → Nat → Int) (rmin rmax : ℚ) (j i : Nat) (f : F) : F :=
  if m i j = 0 then put f i j (clip rmin rmax (f (i - 1) j + f i (j - 1) - f (i - 1) (j - 1))) else f

/-- A loop from 2 to `n + 1`. -/
def loop2 {α : Type} (body : Nat → α → α) : Nat → α → α
  | 0, s => s
  | n + 1, s => body (n + 2) (loop2 body n s)

/-- The body of the second method (lorenzo_mask_fill.inc:45-47). -/
def low (m : Nat → Nat → Int) (rmin : ℚ) (f : F) (c : Nat × Nat) : F :=
  if m c.1 c.2 = 0 then put f c.1 c.2 rmin else f

/-- The values of one row from 1 to `n` set (lorenzo_mask_fill.inc:60 and 65-67). -/
def fill (r : Nat → ℚ) (n : Nat) (v : ℚ) : Nat → ℚ := fun a => if 1 ≤ a ∧ a ≤ n then v else r a

/-- The loop of lorenzo_mask_fill.inc:71-78 from `i` on. -/
def carry (m : Nat → Int) : Nat → Nat → Nat → (Nat → ℚ) → Nat → ℚ
  | 0, _, _, r => r
  | k + 1, i, last, r => carry m k (i + 1) i (if m i = 0 then fun a => if a = i then r last else r a else r)

/-- The third method on one row (lorenzo_mask_fill.inc:53-78); `none` if it reads outside. -/
def row3 (ni : Nat) (m : Nat → Int) (rmin : ℚ) (r : Nat → ℚ) : Option (Nat → ℚ) :=
  if m 1 = 0 then
    if ni = 1 then none
    else
      match ((List.range (ni - 1)).map (· + 2)).find? fun i => m i ≠ 0 with
      | none => some (fill r ni rmin)
      | some i => some (carry m (ni - i) (i + 1) 1 (if i < ni then fill r (i - 1) (r i) else r))
  else some (carry m (ni - 1) 2 1 r)

/-- `lorenzo_mask_fill` (lorenzo_mask_fill.inc:1-82). -/
def lorenzo (methode : Int) (ni nj : Nat) (m : Nat → Nat → Int) (f : F) : Option F :=
  let rmin := minval ni nj f
  let rmax := maxval ni nj f
  if methode = 1 then some (loop2 (fun j => loop2 (lor m rmin rmax j) (ni - 1)) (nj - 1) f)
  else if methode = 2 then some ((cells ni nj).foldl (low m rmin) f)
  else if methode = 3 then
    (if ∀ j ∈ List.range nj, (row3 ni (fun i => m i (j + 1)) rmin fun i => f i (j + 1)).isSome then
      some fun i j =>
        if 1 ≤ j ∧ j ≤ nj then ((row3 ni (fun i => m i j) rmin fun i => f i j).getD fun i => f i j) i else f i j
    else none)
  else some f

end Verif.EzMask
