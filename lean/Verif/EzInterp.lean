/-
Model of the horizontal interpolation kernels of the interpolation package.

  src/interp/ez_rgdint_0.inc       lines 20-35    nearest neighbour
  src/interp/ez_rgdint_1_nw.inc    lines 20-44    bilinear, regular grid
  src/interp/ez_rgdint_1_w.inc     lines 20-51    bilinear, regular grid that wraps
  src/interp/ez_rgdint_3_nw.inc    lines 20-77    bicubic, regular grid
  src/interp/ez_rgdint_3_w.inc     lines 20-108   bicubic, regular grid that wraps
  src/interp/ez_nwtncof.inc        lines 20-178   inverse distances of an irregular axis
  src/interp/ez_irgdint_1_nw.inc   lines 20-50    bilinear, irregular axes
  src/interp/ez_irgdint_1_w.inc    lines 20-64    bilinear, irregular axes, wrapping
  src/interp/ez_irgdint_3_nw.inc   lines 20-168   bicubic, irregular axes
  src/interp/ez_irgdint_3_w.inc    lines 20-235   bicubic, irregular axes, wrapping
  src/interp/cubic8.cdk            line 3         the cubic of four equidistant values
  src/interp/zlin8.cdk             line 7         the linear mean

Simplifications.  Values and positions are rationals and the arithmetic is exact; the two
constants of `cubic8.cdk` are the single precision numbers the compiler makes of them, since
that error is much larger than the rounding of the double precision arithmetic around it.
Positions are assumed to fit a default integer, as `ifix` and `nint` need.  A read outside the
declared bounds of an array and a division by zero are the outcome `none`.  One point is
interpolated at a time (the loop over `n` has no state).
-/
import Mathlib.Data.Rat.Floor
import Mathlib.Algebra.Order.Ring.Rat

namespace Verif.EzInterp

/-- Fortran `ifix`: truncation towards zero. -/
def ifix (q : ℚ) : ℤ := if 0 ≤ q then ⌊q⌋ else ⌈q⌉

/-- Fortran `nint`: nearest integer, halves away from zero. -/
def nint (q : ℚ) : ℤ := if 0 ≤ q then ⌊q + 1 / 2⌋ else ⌈q - 1 / 2⌉

/-- `real z(ni,j1:j2)`: a value inside the declared bounds. -/
def rd (ni j1 j2 : ℤ) (z : ℤ → ℤ → ℚ) (i j : ℤ) : Option ℚ :=
  if 1 ≤ i ∧ i ≤ ni ∧ j1 ≤ j ∧ j ≤ j2 then some (z i j) else none

/-- `real ax(lo:hi)`: a value inside the declared bounds. -/
def rd1 (lo hi : ℤ) (a : ℤ → ℚ) (i : ℤ) : Option ℚ :=
  if lo ≤ i ∧ i ≤ hi then some (a i) else none

/-- ez_rgdint_0.inc, lines 27-32. -/
def rgdint0 (ni j1 j2 : ℤ) (z : ℤ → ℤ → ℚ) (px py : ℚ) : Option ℚ :=
  rd ni j1 j2 z (min ni (max 1 (nint px))) (min j2 (max j1 (nint py)))

/-- zlin8.cdk, line 7. -/
def zlin (z1 z2 dx : ℚ) : ℚ := z1 + (z2 - z1) * dx

/-- The four reads and three means shared by the bilinear kernels
(ez_rgdint_1_w.inc, lines 41-47): `i`, `ip` are the two columns, `j` the lower row. -/
def bilin (ni j1 j2 : ℤ) (z : ℤ → ℤ → ℚ) (i ip j : ℤ) (dx dy : ℚ) : Option ℚ := do
  let a ← rd ni j1 j2 z i j
  let b ← rd ni j1 j2 z ip j
  let c ← rd ni j1 j2 z i (j + 1)
  let d ← rd ni j1 j2 z ip (j + 1)
  return zlin (zlin a b dx) (zlin c d dx) dy

/-- ez_rgdint_1_nw.inc, lines 30-41. -/
def rgdint1nw (ni j1 j2 : ℤ) (z : ℤ → ℤ → ℚ) (px py : ℚ) : Option ℚ :=
  let i := min (ni - 1) (max 1 (ifix px))
  let j := min (j2 - 1) (max j1 (ifix py))
  bilin ni j1 j2 z i (i + 1) j (px - i) (py - j)

/-- ez_rgdint_1_w.inc, lines 31-48.  `%` is the Fortran `mod` since its arguments are not
negative where it is used. -/
def rgdint1w (ni j1 j2 wrap : ℤ) (z : ℤ → ℤ → ℚ) (px py : ℚ) : Option ℚ :=
  let limite := ni + 2 - wrap
  let i := min (ni - 2 + wrap) (max 1 (ifix px))
  let j := min (j2 - 1) (max j1 (ifix py))
  let ip := if 0 < wrap ∧ i = ni - 2 + wrap then (limite + i + 1) % limite else i + 1
  bilin ni j1 j2 z i ip j (px - i) (py - j)

/-- The constant `0.1666666666666` of cubic8.cdk in single precision. -/
def c6 : ℚ := 11184811 / 67108864

/-- The constant `0.3333333333333` of cubic8.cdk in single precision. -/
def c3 : ℚ := 11184811 / 33554432

/-- cubic8.cdk, line 3, with the two constants as parameters. -/
def cubicWith (k6 k3 z1 z2 z3 z4 dx : ℚ) : ℚ :=
  ((((z4 - z1) * k6 + 1 / 2 * (z2 - z3)) * dx + 1 / 2 * (z1 + z3) - z2) * dx
    + z3 - k6 * z4 - 1 / 2 * z2 - k3 * z1) * dx + z2

/-- cubic8.cdk, line 3. -/
def cubic (z1 z2 z3 z4 dx : ℚ) : ℚ := cubicWith c6 c3 z1 z2 z3 z4 dx

/-- Four values of one row. -/
def row4 (ni j1 j2 : ℤ) (z : ℤ → ℤ → ℚ) (im i ip ipp j : ℤ) : Option (ℚ × ℚ × ℚ × ℚ) := do
  let a ← rd ni j1 j2 z im j
  let b ← rd ni j1 j2 z i j
  let c ← rd ni j1 j2 z ip j
  let d ← rd ni j1 j2 z ipp j
  return (a, b, c, d)

/-- The sixteen reads and five cubics of ez_rgdint_3_nw.inc, lines 65-73, and
ez_rgdint_3_w.inc, lines 95-103. -/
def bicubic (ni j1 j2 : ℤ) (z : ℤ → ℤ → ℚ) (im i ip ipp j : ℤ) (dx dy : ℚ) : Option ℚ := do
  let r1 ← row4 ni j1 j2 z im i ip ipp (j - 1)
  let r2 ← row4 ni j1 j2 z im i ip ipp j
  let r3 ← row4 ni j1 j2 z im i ip ipp (j + 1)
  let r4 ← row4 ni j1 j2 z im i ip ipp (j + 2)
  return cubic (cubic r1.1 r1.2.1 r1.2.2.1 r1.2.2.2 dx) (cubic r2.1 r2.2.1 r2.2.2.1 r2.2.2.2 dx)
    (cubic r3.1 r3.2.1 r3.2.2.1 r3.2.2.2 dx) (cubic r4.1 r4.2.1 r4.2.2.1 r4.2.2.2 dx) dy

/-- ez_rgdint_3_nw.inc, lines 61-74. -/
def rgdint3nw (ni j1 j2 : ℤ) (z : ℤ → ℤ → ℚ) (px py : ℚ) : Option ℚ :=
  let i := min (ni - 2) (max 2 (ifix px))
  let j := min (j2 - 2) (max (j1 + 1) (ifix py))
  bicubic ni j1 j2 z (i - 1) i (i + 1) (i + 2) j (px - i) (py - j)

/-- ez_rgdint_3_w.inc, lines 77-89: the columns beside column `i`.  Line 82 (`i` zero) cannot
happen, because line 73 makes `i` at least one. -/
def cols3w (ni wrap i : ℤ) : ℤ × ℤ × ℤ :=
  if 0 < wrap then
    let limite := ni + 2 - wrap
    let im := (limite + i - 1) % limite
    let ip := (limite + i + 1) % limite
    let ipp := (limite + i + 2) % limite
    let im := if im = 0 then ni else im
    let ip := if ip = 0 then ni else ip
    let ipp := if ipp = 0 then ni else ipp
    let ipp := if wrap = 1 ∧ ipp = ni then 2 else ipp
    let im := if wrap = 1 ∧ im = ni then ni - 1 else im
    (im, ip, ipp)
  else (i - 1, i + 1, i + 2)

/-- ez_rgdint_3_w.inc, lines 68-104. -/
def rgdint3w (ni j1 j2 wrap : ℤ) (z : ℤ → ℤ → ℚ) (px py : ℚ) : Option ℚ :=
  let i := min (ni - 2 + wrap) (max 1 (max (2 - wrap) (ifix px)))
  let j := min (j2 - 2) (max (j1 + 1) (ifix py))
  let c := cols3w ni wrap i
  bicubic ni j1 j2 z c.1 i c.2.1 c.2.2 j (px - i) (py - j)

/-- A quotient; division by zero (which gives a NaN or an infinity) is `none`. -/
def quo (a b : ℚ) : Option ℚ := if b = 0 then none else some (a / b)

/-- ez_irgdint_1_nw.inc, lines 31-47. -/
def irgdint1nw (ni nj : ℤ) (ax ay : ℤ → ℚ) (z : ℤ → ℤ → ℚ) (px py : ℚ) : Option ℚ := do
  let i := min (ni - 1) (max 1 (ifix px))
  let j := min (nj - 1) (max 1 (ifix py))
  let x1 ← rd1 1 ni ax i
  let x2 ← rd1 1 ni ax (i + 1)
  let y1 ← rd1 1 nj ay j
  let y2 ← rd1 1 nj ay (j + 1)
  let x := x1 + (x2 - x1) * (px - i)
  let y := y1 + (y2 - y1) * (py - j)
  let dx ← quo (x - x1) (x2 - x1)
  let dy ← quo (y - y1) (y2 - y1)
  bilin ni 1 nj z i (i + 1) j dx dy

/-- ez_irgdint_1_w.inc, lines 43-50: the coordinate `x2` of the second column. -/
def nextX (ni wrap : ℤ) (ax : ℤ → ℚ) (i : ℤ) : Option ℚ :=
  if 0 < wrap ∧ i = ni - 2 + wrap then do
    let a ← rd1 1 ni ax 2
    let b ← rd1 1 ni ax ni
    return a + b
  else rd1 1 ni ax (i + 1)

/-- ez_irgdint_1_w.inc, lines 31-61. -/
def irgdint1w (ni j1 j2 wrap : ℤ) (ax ay : ℤ → ℚ) (z : ℤ → ℤ → ℚ) (px py : ℚ) : Option ℚ := do
  let limite := ni + 2 - wrap
  let i := min (ni - 2 + wrap) (max 1 (ifix px))
  let j := min (j2 - 1) (max (j1 + 1) (ifix py))
  let j := if j < 0 then j - 1 else j
  let ip := if 0 < wrap ∧ i = ni - 2 + wrap then (limite + i + 1) % limite else i + 1
  let x1 ← rd1 1 ni ax i
  let x2 ← nextX ni wrap ax i
  let y1 ← rd1 j1 j2 ay j
  let y2 ← rd1 j1 j2 ay (j + 1)
  let x := x1 + (x2 - x1) * (px - i)
  let y := y1 + (y2 - y1) * (py - j)
  let dx ← quo (x - x1) (x2 - x1)
  let dy ← quo (y - y1) (y2 - y1)
  bilin ni j1 j2 z i ip j dx dy

/-- The six inverse distances of four coordinates. -/
structure Inv where
  v1 : ℚ
  v2 : ℚ
  v3 : ℚ
  v4 : ℚ
  v5 : ℚ
  v6 : ℚ
deriving DecidableEq

/-- ez_nwtncof.inc, lines 96-101 (and 105-110, 120-125 …): the inverses of the distances. -/
def inv4 (x1 x2 x3 x4 : ℚ) : Inv :=
  ⟨1 / (x2 - x1), 1 / (x3 - x1), 1 / (x3 - x2), 1 / (x4 - x1), 1 / (x4 - x2), 1 / (x4 - x3)⟩

/-- ez_nwtncof.inc, lines 83-102 and 114-176: the line `i` of `cx`.  The later assignments of
lines 114-176 win over those of the loop, hence the order of the tests. -/
def nwtx (ni ext : ℤ) (ax : ℤ → ℚ) (i : ℤ) : Inv :=
  if ext = 2 ∧ i = ni then inv4 (ax (ni - 1)) (ax ni) (ax 1 + 360) (ax 2 + 360)
  else if ext = 2 ∧ i = ni - 1 then inv4 (ax (ni - 2)) (ax (ni - 1)) (ax ni) (ax 1 + 360)
  else if ext = 2 ∧ i = 1 then inv4 (ax 1 - (360 - ax ni)) (ax 1) (ax 2) (ax 3)
  else if ext = 1 ∧ i = ni - 1 then
    inv4 (ax (ni - 2)) (ax (ni - 1)) (ax ni) (ax ni + (ax 2 - ax 1))
  else if ext = 1 ∧ i = 1 then inv4 (ax 1 - (ax ni - ax (ni - 1))) (ax 1) (ax 2) (ax 3)
  else if 2 ≤ i ∧ i ≤ ni - 2 then inv4 (ax (i - 1)) (ax i) (ax (i + 1)) (ax (i + 2))
  else ⟨1, 1, 1, 1, 1, 1⟩

/-- ez_nwtncof.inc, lines 89-93 and 104-111: the line `j` of `cy`. -/
def nwty (j1 j2 : ℤ) (ay : ℤ → ℚ) (j : ℤ) : Inv :=
  if j1 + 1 ≤ j ∧ j ≤ j2 - 2 then inv4 (ay (j - 1)) (ay j) (ay (j + 1)) (ay (j + 2))
  else ⟨1, 1, 1, 1, 1, 1⟩

/-- ez_irgdint_3_nw.inc, lines 84-87: the statement functions `fa2`, `fa3`, `fa4` and `fa`,
applied as in lines 113-117. -/
def newton (c : Inv) (z1 z2 z3 z4 x x1 x2 x3 : ℚ) : ℚ :=
  let a2 := c.v1 * (z2 - z1)
  let a3 := c.v2 * (c.v3 * (z3 - z2) - c.v1 * (z2 - z1))
  let a4 := c.v4 * (c.v5 * (c.v6 * (z4 - z3) - c.v3 * (z3 - z2))
    - c.v2 * (c.v3 * (z3 - z2) - c.v1 * (z2 - z1)))
  z1 + (x - x1) * (a2 + (x - x2) * (a3 + a4 * (x - x3)))

/-- The sixteen reads and five Newton forms of ez_irgdint_3_nw.inc, lines 93-164, and
ez_irgdint_3_w.inc, lines 162-228. -/
def binewton (ni j1 j2 : ℤ) (ay : ℤ → ℚ) (cx cy : Inv) (z : ℤ → ℤ → ℚ) (im i ip ipp j : ℤ)
    (x1 x2 x3 px py : ℚ) : Option ℚ := do
  let x := x2 + (x3 - x2) * (px - i)
  let y1 ← rd1 j1 j2 ay (j - 1)
  let y2 ← rd1 j1 j2 ay j
  let y3 ← rd1 j1 j2 ay (j + 1)
  let y := y2 + (y3 - y2) * (py - j)
  let r1 ← row4 ni j1 j2 z im i ip ipp (j - 1)
  let r2 ← row4 ni j1 j2 z im i ip ipp j
  let r3 ← row4 ni j1 j2 z im i ip ipp (j + 1)
  let r4 ← row4 ni j1 j2 z im i ip ipp (j + 2)
  let b1 := newton cx r1.1 r1.2.1 r1.2.2.1 r1.2.2.2 x x1 x2 x3
  let b2 := newton cx r2.1 r2.2.1 r2.2.2.1 r2.2.2.2 x x1 x2 x3
  let b3 := newton cx r3.1 r3.2.1 r3.2.2.1 r3.2.2.2 x x1 x2 x3
  let b4 := newton cx r4.1 r4.2.1 r4.2.2.1 r4.2.2.2 x x1 x2 x3
  return newton cy b1 b2 b3 b4 y y1 y2 y3

/-- ez_irgdint_3_nw.inc, lines 89-165, called with `i1 = 1` and `i2 = ni` and the coefficients
of ez_nwtncof. -/
def irgdint3nw (ni j1 j2 : ℤ) (ax ay : ℤ → ℚ) (z : ℤ → ℤ → ℚ) (px py : ℚ) : Option ℚ := do
  let i := min (ni - 2) (max 2 (ifix px))
  let j := min (j2 - 2) (max (j1 + 1) (ifix py))
  let x1 ← rd1 1 ni ax (i - 1)
  let x2 ← rd1 1 ni ax i
  let x3 ← rd1 1 ni ax (i + 1)
  let _ ← rd1 1 ni ax (i + 2)
  let _ ← rd1 j1 j2 ay (j + 2)
  binewton ni j1 j2 ay (nwtx ni 0 ax i) (nwty j1 j2 ay j) z (i - 1) i (i + 1) (i + 2) j
    x1 x2 x3 px py

/-- ez_irgdint_3_w.inc, lines 97-160: the columns beside column `i` and the coordinates of the
first three of the four columns (the fourth, `x4`, is set but never used). -/
def cols3iw (ni wrap : ℤ) (ax : ℤ → ℚ) (i : ℤ) : Option (ℤ × ℤ × ℤ × ℚ × ℚ × ℚ) :=
  if wrap = 1 ∧ i = 1 then do
    let x1 ← rd1 1 ni ax (ni - 1)
    let x2 ← rd1 1 ni ax 1
    let x3 ← rd1 1 ni ax 2
    return (ni - 1, 2, 3, x1 - 360, x2, x3)
  else if wrap = 1 ∧ i = ni - 1 then do
    let x1 ← rd1 1 ni ax (ni - 2)
    let x2 ← rd1 1 ni ax (ni - 1)
    let x3 ← rd1 1 ni ax ni
    return (ni - 2, ni, 2, x1, x2, x3)
  else if wrap = 2 ∧ i = 1 then do
    let x1 ← rd1 1 ni ax ni
    let x2 ← rd1 1 ni ax 1
    let x3 ← rd1 1 ni ax 2
    return (ni, 2, 3, x1 - 360, x2, x3)
  else if wrap = 2 ∧ i = ni - 1 then do
    let x1 ← rd1 1 ni ax (ni - 2)
    let x2 ← rd1 1 ni ax (ni - 1)
    let x3 ← rd1 1 ni ax ni
    return (ni - 2, ni, 1, x1, x2, x3)
  else if wrap = 2 ∧ i = ni then do
    let x1 ← rd1 1 ni ax (ni - 1)
    let x2 ← rd1 1 ni ax ni
    let x3 ← rd1 1 ni ax 1
    return (ni - 1, 1, 2, x1, x2, x3 + 360)
  else do
    let x1 ← rd1 1 ni ax (i - 1)
    let x2 ← rd1 1 ni ax i
    let x3 ← rd1 1 ni ax (i + 1)
    let _ ← rd1 1 ni ax (i + 2)
    return (i - 1, i + 1, i + 2, x1, x2, x3)

/-- ez_irgdint_3_w.inc, lines 93-229, with the coefficients of ez_nwtncof for the extension
`wrap`. -/
def irgdint3w (ni j1 j2 wrap : ℤ) (ax ay : ℤ → ℚ) (z : ℤ → ℤ → ℚ) (px py : ℚ) : Option ℚ := do
  let i := min (ni - 2 + wrap) (max 1 (max (2 - wrap) (ifix px)))
  let j := min (j2 - 2) (max (j1 + 1) (ifix py))
  let c ← cols3iw ni wrap ax i
  let _ ← rd1 j1 j2 ay (j + 2)
  binewton ni j1 j2 ay (nwtx ni wrap ax i) (nwty j1 j2 ay j) z c.1 i c.2.1 c.2.2.1 j
    c.2.2.2.1 c.2.2.2.2.1 c.2.2.2.2.2 px py

end Verif.EzInterp
