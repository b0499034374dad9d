import Mathlib.Data.Rat.Floor

/-!
Model of the conversion between real grid parameters and integer grid descriptors, `CXGAIG` (src/base/xgaig.f90) and
`CIGAXG` (src/base/igaxg.f90), except the general style of polar stereographic grids.  Messages about values out of
range (`VALIDE`) change nothing and are left out.

Reals are rationals.  Each operation of the code is followed by a rounding, to single (`r4`) or double (`r8`)
precision; no operation is fused with another.
-/
namespace Verif.Grid

/-- Roundings to single and double precision. -/
structure Rounding where
  r4 : ℚ → ℚ
  r8 : ℚ → ℚ

/-- `NINT`: nearest integer, halves away from zero. -/
def nint (x : ℚ) : Int := if 0 ≤ x then ⌊x + 1 / 2⌋ else -⌊-x + 1 / 2⌋

/-- Conversion of a real to an integer by truncation. -/
def trunc (x : ℚ) : Int := if 0 ≤ x then ⌊x⌋ else -⌊-x⌋

abbrev Ints := Int × Int × Int × Int
abbrev Reals := ℚ × ℚ × ℚ × ℚ

/-- Integers of 32 bits. -/
def wrap (x : Int) : Int := Int.bmod x (2 ^ 32)

/-- `IAND(x,3)`. -/
def low2 (x : Int) : Int := x % 4

/-- `ISHFT(x,-2)`, a shift without sign. -/
def shr2 (x : Int) : Int := x % 2 ^ 32 / 4

/-- `IOR(ISHFT(x,2),b)` for `b` from 0 to 3. -/
def shl2or (x b : Int) : Int := wrap (4 * x) + b

/-- Loops 100, 200, 300 and 400 of xgaig.f90: add `p` until the value is not negative. -/
def addUp (p : Int) : Nat → Int → Option Int
  | 0, _ => none
  | fuel + 1, x => if x < 0 then addUp p fuel (x + p) else some x

/-- Loops 500 and 600, lines 146-155 of xgaig.f90: add 360 until the value is not negative. -/
def addTurns (R : Rounding) : Nat → ℚ → Option ℚ
  | 0, _ => none
  | fuel + 1, x => if x < 0 then addTurns R fuel (R.r4 (x + 360)) else some x

/-- Grid 'L', xgaig.f90 lines 129-139. -/
def encodeL (R : Rounding) (fuel : Nat) (x : Reals) : Option Ints :=
  let r := R.r4
  let ig1 := nint (r (x.2.2.1 * 100))
  let ig2 := nint (r (x.2.2.2 * 100))
  let ig3 := nint (r (r (90 + x.1) * 100))
  match addUp 36000 fuel (nint (r (x.2.1 * 100))) with
  | none => none
  | some ig4 => some (ig1, ig2, ig3, ig4)

/-- Grid 'L', igaxg.f90 lines 93-97. -/
def decodeL (R : Rounding) (g : Ints) : Reals :=
  let r := R.r4
  let c := r (1 / 100)
  (r (r (r g.2.2.1 * c) - 90), r (r g.2.2.2 * c), r (r g.1 * c), r (r g.2.1 * c))

/-- Grid 'C', xgaig.f90 lines 105-115. -/
def encodeC (R : Rounding) (fuel : Nat) (x : Reals) : Option Ints :=
  let r := R.r4
  let ig1 := nint (r (180 / x.2.2.1))
  let ig2 := nint (r (360 / x.2.2.2))
  let ig3 := nint (r (r (90 + x.1) * 100))
  match addUp 36000 fuel (nint (r (x.2.1 * 100))) with
  | none => none
  | some ig4 => some (ig1, ig2, ig3, ig4)

/-- Grid 'C', igaxg.f90 lines 81-85. -/
def decodeC (R : Rounding) (g : Ints) : Reals :=
  let r := R.r4
  let c := r (1 / 100)
  (r (r (r g.2.2.1 * c) - 90), r (r g.2.2.2 * c), r (180 / r g.1), r (360 / r g.2.1))

/-- Grids 'A', 'B' and 'G', xgaig.f90 lines 97-103. -/
def encodeA (x : Reals) : Ints := (trunc x.1, trunc x.2.1, 0, 0)

/-- Grids 'A', 'B' and 'G', igaxg.f90 lines 87-91. -/
def decodeA (R : Rounding) (g : Ints) : Reals := (R.r4 g.1, R.r4 g.2.1, 0, 0)

/-- Grid 'H', xgaig.f90 lines 118-127. -/
def encodeH (R : Rounding) (fuel : Nat) (x : Reals) : Option Ints :=
  let r := R.r4
  match addUp 1800 fuel (nint (r (5 * x.2.2.2))) with
  | none => none
  | some ig1 =>
    some (ig1, nint (r (r (2 / 1000) * x.2.2.1)), nint x.1, nint (r (100 * r (90 + x.2.1))))

/-- Grid 'H', igaxg.f90 lines 99-103. -/
def decodeH (R : Rounding) (g : Ints) : Reals :=
  let r := R.r4
  (r g.2.2.1, r (r (r (1 / 100) * r g.2.2.2) - 90), r (wrap (500 * g.2.1) : Int), r (r g.1 * r (2 / 10)))

/-- Grid 'E', xgaig.f90 lines 141-171. -/
def encodeE (R : Rounding) (fuel : Nat) (x : Reals) : Option Ints :=
  let r := R.r4
  match addTurns R fuel x.2.1, addTurns R fuel x.2.2.2 with
  | some xx2, some xx4 =>
    let ig1 := nint (r (r (x.1 + 90) * 40))
    let ig2 := nint (r (x.2.2.1 * 40))
    let ig3 := nint (r (r (xx2 + 90) * 40))
    let ig3 := if ig3 ≥ 16384 then ig3 - 16384 else ig3
    let ig4 := nint (r (xx4 * 40))
    let i2b := low2 ig1
    let ig1 := shr2 ig1
    let ig3 := shl2or ig3 i2b
    let ig2 := if ig2 < 0 then ig2 + 7201 else ig2
    let i2b := low2 ig2
    let ig2 := shr2 ig2
    let ig4 := shl2or ig4 i2b
    some (ig1, ig2, ig3, ig4)
  | _, _ => none

/-- Grid 'E', igaxg.f90 lines 106-122. -/
def decodeE (R : Rounding) (g : Ints) : Reals :=
  let i2b := low2 g.2.2.1
  let lg3 := shr2 g.2.2.1
  let lg1 := shl2or g.1 i2b
  let i2b := low2 g.2.2.2
  let lg4 := shr2 g.2.2.2
  let lg2 := shl2or g.2.1 i2b
  let lg2 := if lg2 > 3600 then lg2 - 7201 else lg2
  let lg3 := if lg3 < 3559 then lg3 + 16384 else lg3
  (R.r4 (R.r8 (R.r8 (lg1 - 3600) / 40)), R.r4 (R.r8 (R.r8 (lg3 - 3600) / 40)), R.r4 (R.r8 (lg2 / 40)), R.r4 (R.r8 (lg4 / 40)))

/-- Grid '+', xgaig.f90 lines 173-189. -/
def encodePlus (R : Rounding) (x : Reals) : Ints :=
  let r := R.r8
  let lat := x.1
  let lon := if x.2.1 < 0 then r (x.2.1 + 360) else x.2.1
  let ig3 := nint (r (r (lat + 100) * 100))
  let ig4 := nint (r (lon * 100))
  let ig1 := nint (r (r (lat + 100) * 100000)) - ig3 * 1000
  let ig2 := nint (r (lon * 100000)) - ig4 * 1000
  (ig1 + 1000, ig2 + 1000, ig3, ig4)

/-- Grid '+', igaxg.f90 lines 124-134. -/
def decodePlus (R : Rounding) (g : Ints) : Reals :=
  let r := R.r8
  let x1 := r (r (g.2.2.1 * r (1 / 100)) - 100)
  let x1 := if g.1 ≠ 0 then r (x1 + r ((g.1 - 1000 : Int) * r (1 / 100000))) else x1
  let x2 := r (g.2.2.2 * r (1 / 100))
  let x2 := if g.2.1 ≠ 0 then r (x2 + r ((g.2.1 - 1000 : Int) * r (1 / 100000))) else x2
  (R.r4 x1, R.r4 x2, 0, 0)

/-- Grids 'N' and 'S', xgaig.f90 lines 57-67; `none` also if the descriptors do not fit and the general style
(lines 68-94, not modelled) is used. -/
def encodeN (R : Rounding) (fuel : Nat) (x : Reals) : Option Ints :=
  let r := R.r4
  let ig1 := nint (r (x.2.1 * 10))
  let ig2 := nint (r (x.1 * 10))
  let ig4 := nint (r (x.2.2.1 * r (1 / 100)))
  match addUp 36000 fuel (nint (r (x.2.2.2 * 100))) with
  | none => none
  | some ig3 =>
    if ig1 < 0 ∨ ig2 < 0 ∨ ig1 > 2047 ∨ ig2 > 2047 ∨ ig4 > 32000 then none else some (ig1, ig2, ig3, ig4)

/-- Grids 'N' and 'S', igaxg.f90 lines 52-57; `none` for the general style. -/
def decodeN (R : Rounding) (g : Ints) : Option Reals :=
  let r := R.r4
  if g.2.2.2 < 32768 then
    some (r (r g.2.1 * r (1 / 10)), r (r g.1 * r (1 / 10)), r (r g.2.2.2 * 100), r (r g.2.2.1 * r (1 / 100)))
  else none

end Verif.Grid
