import Mathlib.Data.Rat.Floor

/-! # Averages over cells (`src/interp/ez_avg.inc`, `src/interp/ez_avg_sph.inc`)

The value of each point of the output is the average of the input over the cell around it.  Both routines are
the same but for the factor of the widths of the cells in x, 1/cos of the latitude in `ez_avg_sph`, which is an
arbitrary rational number for each row here (1 in `ez_avg`).  Reals are rational numbers without rounding.
`none` is a read outside an array; elements of `ztmp` never written are `junk`. -/

namespace Verif.EzAvg

/-- `int`. -/
def trunc (q : ℚ) : Int := if 0 ≤ q then ⌊q⌋ else ⌈q⌉

/-- `nint`. -/
def nint (q : ℚ) : Int := if 0 ≤ q then ⌊q + 1 / 2⌋ else ⌈q - 1 / 2⌉

/-- `ztmp` (ez_avg.inc:19-52, ez_avg_sph.inc:21-54), from the field `z` of `ni` columns and `nj` rows.  In the
order of the loops: with extension 1 the three writes of one column go to different elements, and with extension
2 too.  With another extension `ztmp` is not allocated. -/
def ztmp (ext : Nat) (ni nj : Int) (z junk : Int → Int → ℚ) (i j : Int) : Option ℚ :=
  if ¬ (1 ≤ j ∧ j ≤ nj) then none
  else if ext = 0 then (if 1 ≤ i ∧ i ≤ ni then some (z i j) else none)
  else if ext = 1 then
    if 1 ≤ i ∧ i ≤ ni - 1 then some (z i j)
    else if 2 - ni ≤ i ∧ i ≤ 0 then some (z (i - 1 + ni) j)
    else if ni ≤ i ∧ i ≤ 2 * ni - 2 then some (z (i - ni + 1) j)
    else if -ni ≤ i ∧ i ≤ 2 * ni - 2 then some (junk i j) else none
  else if ext = 2 then
    if 1 ≤ i ∧ i ≤ ni then some (z i j)
    else if 1 - ni ≤ i ∧ i ≤ 0 then some (z (i + ni) j)
    else if ni + 1 ≤ i ∧ i ≤ 2 * ni then some (z (i - ni) j) else none
  else none

/-- The first coordinate (ez_avg.inc:54-56, ez_avg_sph.inc:67-69). -/
def xs (ni : Int) (x : Nat → ℚ) (i : Nat) : ℚ :=
  if i = 1 ∧ ((ni - 1 : Int) : ℚ) < x 1 then 1 else x i

/-- `x_low` (ez_avg.inc:57-60, ez_avg_sph.inc:71-76). -/
def xLow (x : Nat → ℚ) (a : ℚ) (i : Nat) : ℚ :=
  if i = 1 then x 1 - 1 / 2 * (x 2 - x 1) * a else x i - 1 / 2 * (x i - x (i - 1)) * a

/-- `x_high` (ez_avg.inc:67-70, ez_avg_sph.inc:83-88). -/
def xHigh (nid : Nat) (x : Nat → ℚ) (a : ℚ) (i : Nat) : ℚ :=
  if i = nid then x nid + 1 / 2 * (x nid - x (nid - 1)) * a else x i + 1 / 2 * (x (i + 1) - x i) * a

/-- `y_low` (ez_avg.inc:62-65). -/
def yLow (y : Nat → ℚ) (j : Nat) : ℚ :=
  if j = 1 then max 1 (y 1 - 1 / 2 * (y 2 - y 1)) else y j - 1 / 2 * (y j - y (j - 1))

/-- `y_high` (ez_avg.inc:72-75). -/
def yHigh (njd : Nat) (nj : Int) (y : Nat → ℚ) (j : Nat) : ℚ :=
  if j = njd then min nj (y njd + 1 / 2 * (y njd - y (njd - 1))) else y j + 1 / 2 * (y (j + 1) - y j)

/-- First tile: `istart`, and `jstart` of the rows inside (ez_avg.inc:79-81, 86-88). -/
def start (lo : ℚ) : Int := if 1 / 2 + (trunc lo : ℚ) < lo then trunc lo + 1 else trunc lo

/-- The part of the tile from `tmin` to `tmax` between `lo` and `hi` (ez_avg.inc:93-99, 103-109). -/
def cut (lo hi tmin tmax : ℚ) : ℚ :=
  let f := tmax - tmin
  let f := if tmin < lo then tmax - lo else f
  if hi < tmax then hi - tmin else f

/-- `xfrac`, and `yfrac` of the rows inside. -/
def frac (lo hi : ℚ) (k : Int) : ℚ := cut lo hi (k - 1 / 2) (k + 1 / 2)

/-- `yfrac` of the first row (ez_avg.inc:134-147). -/
def fracFirst (lo hi : ℚ) (k : Int) : ℚ := cut lo hi (if k = 1 then 1 else k - 1 / 2) (k + 1 / 2)

/-- `yfrac` of the last row (ez_avg.inc:180-192). -/
def fracLast (nj : Int) (lo hi : ℚ) (k : Int) : ℚ := cut lo hi (k - 1 / 2) (if k = nj then nj else k + 1 / 2)

/-- `do k = a, b`. -/
def loop (a b : Int) : List Int := (List.range (b + 1 - a).toNat).map fun (n : Nat) => a + (n : Int)

/-- One tile (ez_avg.inc:110-112): `zout` and `total_area`. -/
def tile (zt : Int → Int → Option ℚ) (xf yf : Int → ℚ) (jj : Int) (s : Option (ℚ × ℚ)) (ii : Int) :
    Option (ℚ × ℚ) := do
  let (z, t) ← s
  let v ← zt ii jj
  some (z + v * (xf ii * yf jj), t + xf ii * yf jj)

/-- The loops over the tiles and the division (ez_avg.inc:84-115). -/
def cell (zt : Int → Int → Option ℚ) (is ie js je : Int) (xf yf : Int → ℚ) : Option ℚ := do
  let (z, t) ← (loop js je).foldl (fun s jj => (loop is ie).foldl (tile zt xf yf jj) s) (some (0, 0))
  some (if t = 0 then z else z / t)

/-- The last tile in x; in the first row one more (ez_avg.inc:87, 129-131, 178). -/
def stop (first : Bool) (hi : ℚ) : Int :=
  if first = true ∧ (nint hi : ℚ) < hi then nint hi + 1 else nint hi

/-- `ez_avg`, `ez_avg_sph`: the value at `i`, `j` of the output of `nid` columns and `njd` rows.  The rows inside
are written first, then the first and the last (ez_avg.inc:78-210).  With one column or row `x(2)` or `y(2)` is
outside the array (ez_avg.inc:57, 62). -/
def avg (ext : Nat) (ni nj : Int) (z junk : Int → Int → ℚ) (nid njd : Nat) (x y amp : Nat → ℚ) (i j : Nat) :
    Option ℚ :=
  if nid < 2 ∨ njd < 2 then none
  else
    let zt := ztmp ext ni nj z junk
    let lo := xLow (xs ni x) (amp j) i
    let hi := xHigh nid (xs ni x) (amp j) i
    let yl := yLow y j
    let yh := yHigh njd nj y j
    if j = njd then cell zt (start lo) (stop false hi) (trunc (y njd)) (nint yh) (frac lo hi) (fracLast nj yl yh)
    else if j = 1 then
      cell zt (start lo) (stop true hi)
        (if yl < (trunc yl : ℚ) then trunc yl - 1 else trunc yl) (nint yh) (frac lo hi) (fracFirst yl yh)
    else cell zt (start lo) (stop false hi) (start yl) (nint yh) (frac lo hi) (frac yl yh)

end Verif.EzAvg
