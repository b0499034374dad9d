import Verif.EzInterp
import Verif.EzLocate

/-! # Expansion of hemispheric grids, extrapolation and corrections at the poles (`src/interp`)

`ez_xpnsrcgd`, `ez_xpncof` (types A, B and G), `ez_defzones`, `ez_corrval` and what they call.
Arithmetic is exact (rational numbers).  A field is a function of column and row, the rows numbered
from `j1` to `j2` as in the Fortran declarations; a list of points is a function of the 0-based index.
`none` is a value that is not defined: a read outside an array, a division by zero, or memory never
written.  Not modelled: the averages of `c_gdinterp`, grids of type Y, `ez_corrbgd`, yin-yang pairs and
the printed messages. -/

namespace Verif.EzZones
open Verif.EzInterp

/-- The first expanded row, `j1` of `ez_xpncof` (ez_xpncof.c:108-150; the other types, 69-73 and
152-223, have `j1` = 1). -/
def firstRow (typ : EzLocate.Typ) (ig1 nj : ℤ) : ℤ :=
  match typ with
  | .A | .G => if ig1 = 1 then -nj + 1 else 1
  | .B => if ig1 = 1 then -nj + 2 else 1
  | _ => 1

/-- One assignment of a whole row: `zout(i,k) = row(i)`, `i` = 1..`ni`. -/
def setRow (ni k : ℤ) (row : ℤ → ℚ) (z : ℤ → ℤ → ℚ) : ℤ → ℤ → ℚ :=
  fun i j => if j = k ∧ 1 ≤ i ∧ i ≤ ni then row i else z i j

/-- `do j=lo,hi`, row `j` of the source going to row `f j`, multiplied by `s`. -/
def rows (ni lo : ℤ) (f : ℤ → ℤ) (s : ℚ) (zi : ℤ → ℤ → ℚ) : ℕ → (ℤ → ℤ → ℚ) → ℤ → ℤ → ℚ
  | 0, z => z
  | n + 1, z => setRow ni (f (lo + n)) (fun i => s * zi i (lo + n)) (rows ni lo f s zi n z)

/-- The `sign` of ez_xpngdag2.inc:36-40 and ez_xpngdb2.inc:35-39. -/
def sign (sym : ℤ) : ℚ := if sym = 0 then -1 else 1

/-- `ez_xpngdag2` (ez_xpngdag2.inc:42-68). -/
def xpngdag2 (ni : ℤ) (nj : ℕ) (hem sym : ℤ) (zi z : ℤ → ℤ → ℚ) : ℤ → ℤ → ℚ :=
  let s := sign sym
  let z := if hem = 1 then
      rows ni 1 (fun j => -j + 1) s zi nj (rows ni 1 (fun j => j) 1 zi nj z)
    else z
  if hem = 2 then
    rows ni 1 (fun j => nj + j) s (fun i j => zi i (nj - j + 1)) nj (rows ni 1 (fun j => j) 1 zi nj z)
  else z

/-- `ez_xpngdb2` (ez_xpngdb2.inc:41-67). -/
def xpngdb2 (ni : ℤ) (nj : ℕ) (hem sym : ℤ) (zi z : ℤ → ℤ → ℚ) : ℤ → ℤ → ℚ :=
  let s := sign sym
  let z := if hem = 1 then
      rows ni 2 (fun j => 2 - j) s zi (nj - 1) (rows ni 1 (fun j => j) 1 zi nj z)
    else z
  if hem = 2 then
    rows ni 2 (fun j => nj + j - 1) s (fun i j => zi i (nj - j + 1)) (nj - 1)
      (rows ni 1 (fun j => j) 1 zi nj z)
  else z

/-- `ez_xpnsrcgd` (ez_xpnsrcgd.c:36-49). -/
def xpnsrcgd (typ : EzLocate.Typ) (ni : ℤ) (nj : ℕ) (ig1 sym : ℤ) (zi z : ℤ → ℤ → ℚ) : ℤ → ℤ → ℚ :=
  match typ with
  | .A | .G => xpngdag2 ni nj ig1 sym zi z
  | .B => xpngdb2 ni nj ig1 sym zi z
  | _ => z

/-- The members of the source grid used below.  `aym` is the array `ay` as C indexes it, from 0; the
array has `j2 - j1 + 1` entries.  `ypn` and `yps` are the rows of the poles: what `c_gdxyfll_orig`
answers for latitude 90 and -90 (ez_defzone_polenord.c:46-53 and ez_defzone_polesud.c:46-53), or
`nj + 0.5` and `0.5` for type Z over E. -/
structure Src where
  typ : Char
  ref : Char := ' '
  ni : ℤ
  nj : ℤ
  j1 : ℤ
  j2 : ℤ
  ext : ℤ
  ax : ℤ → ℚ := fun _ => 0
  aym : ℤ → ℚ := fun _ => 0
  ypn : ℚ
  yps : ℚ

/-- `ay` as the Fortran routines see it: `ay(j1:j2)`. -/
def Src.ay (s : Src) (j : ℤ) : ℚ := s.aym (j - s.j1)

/-- The options used (`groptions`): `degre_interp`, `degre_extrap`, `valeur_extrap`, `vecteur`. -/
structure Opt where
  interp : ℤ
  extrap : ℤ
  valeur : ℚ := 0
  vecteur : Bool := false

/-- `c_gdinterp` (gdinterp.c:133-309) for the types other than Y and the degrees 0 (nearest), 1
(linear) and 3 (cubic). -/
def gdinterp (s : Src) (deg : ℤ) (zin : ℤ → ℤ → ℚ) (x y : ℚ) : Option ℚ :=
  if s.typ = 'Y' then none
  else if deg = 0 then rgdint0 s.ni s.j1 s.j2 zin x y
  else if s.typ = '#' ∨ s.typ = 'Z' ∨ s.typ = 'G' then
    if deg = 1 then
      if s.ext = 0 then irgdint1nw s.ni s.nj s.ax s.ay zin x y
      else irgdint1w s.ni s.j1 s.j2 s.ext s.ax s.ay zin x y
    else if deg = 3 then
      if s.ext = 0 then irgdint3nw s.ni s.j1 s.j2 s.ax s.ay zin x y
      else irgdint3w s.ni s.j1 s.j2 s.ext s.ax s.ay zin x y
    else none
  else if deg = 1 then
    if s.ext = 2 then rgdint1w s.ni s.j1 s.j2 2 zin x y else rgdint1nw s.ni s.j1 s.j2 zin x y
  else if deg = 3 then
    if s.ext = 0 then rgdint3nw s.ni s.j1 s.j2 zin x y
    else rgdint3w s.ni s.j1 s.j2 s.ext zin x y
  else none

/-- The choice of ez_defzones.c:43-81: may points lie outside the source grid?  Type L has no `break`
and goes on into the test of `grref`. -/
def mayLeave (s : Src) : Bool :=
  if s.typ = 'N' ∨ s.typ = 'S' ∨ s.typ = '!' then true
  else if s.typ = 'L' ∨ s.typ = '#' ∨ s.typ = 'Z' ∨ s.typ = 'Y' then
    let e : Bool := s.typ = 'L' ∧ s.ext = 0
    if s.ref = 'N' ∨ s.ref = 'S' then true
    else if s.ref = 'E' ∨ s.ref = 'L' then (if 358 > s.ax s.ni - s.ax 1 then true else e)
    else e
  else false

/-- The test of ez_defzone_dehors.c:65-67. -/
def outside (s : Src) (x y : ℚ) : Bool :=
  let ix := ifix (x + 1 / 2)
  let iy := ifix (y + 1 / 2)
  ix < 1 ∨ iy < 1 ∨ ix > s.ni ∨ iy > s.nj

/-- The test of ez_defzone_nord.c:41-43. -/
def north (s : Src) (y : ℚ) : Bool := ifix y > s.j2 - 2

/-- The test of ez_defzone_sud.c:42-44. -/
def south (s : Src) (y : ℚ) : Bool := ifix y < s.j1 + 1

/-- The test of ez_defzone_polenord.c:56 and ez_defzone_polesud.c:56. -/
def near (y yp : ℚ) : Bool := |y - yp| < 1 / 1000

/-- The points a zone keeps, in order (ez_defzone_dehors.c:62-90 and the same loops elsewhere). -/
def zone (n : ℕ) (p : ℕ → Bool) : List ℕ := (List.range n).filter p

/-- The loops `zout[idx[i]] = vals[i]`. -/
def paste (v : ℕ → Option ℚ) : List ℕ → (ℕ → Option ℚ) → ℕ → Option ℚ
  | [], z => z
  | k :: l, z => paste v l (fun m => if m = k then v k else z m)

/-- The values of the field `FLD(NI,NJ)` in memory order (ez_aminmax.inc:21-28); the rows are
`j1..j2`. -/
def cells (s : Src) (zin : ℤ → ℤ → ℚ) : List ℚ :=
  (List.range (s.j2 - s.j1 + 1).toNat).flatMap fun (b : ℕ) =>
    (List.range s.ni.toNat).map fun (a : ℕ) => zin (1 + a) (s.j1 + b)

/-- `MINVAL` and `MAXVAL` (ez_aminmax.inc:26-27); an empty field is left out. -/
def minmax : List ℚ → Option (ℚ × ℚ)
  | [] => none
  | a :: l => some (l.foldl min a, l.foldl max a)

/-- The value given to the points outside (ez_corrval.c:63-96). -/
def fudge (s : Src) (o : Opt) (zin : ℤ → ℤ → ℚ) : Option ℚ := do
  let (lo, hi) ← minmax (cells s zin)
  if o.vecteur then return 0
  else if o.extrap = 4 then return hi + 1 / 20 * (hi - lo)
  else if o.extrap = 5 then return lo - 1 / 20 * (hi - lo)
  else if o.extrap = 6 then return o.valeur
  else return 0

/-- The sum of `f 1 … f n`, added in that order. -/
def sumTo (f : ℤ → ℚ) : ℕ → ℚ
  | 0 => 0
  | n + 1 => sumTo f n + f (n + 1)

/-- `ez_calcpoleval` (ez_calcpoleval.inc:30-45); `z` is the row. -/
def poleval (s : Src) (z : ℤ → ℚ) : Option ℚ :=
  if s.typ = 'Z' ∧ s.ref = 'E' then
    let t := sumTo (fun i => z i * (s.ax (i + 1) - s.ax i)) (s.ni - 1).toNat
    some (if s.ax s.ni - s.ax 1 ≠ 0 then t / (s.ax s.ni - s.ax 1) else t)
  else if s.ni = 0 then none
  else some (sumTo z s.ni.toNat / s.ni)

/-- ez_rgdint_3_wnnc.inc:76-94: the columns beside column `i` (line 82 cannot happen). -/
def cols3wnnc (ni wrap i : ℤ) : ℤ × ℤ × ℤ :=
  if (0 < wrap ∧ i ≤ 1) ∨ ni - 1 ≤ i then cols3w ni wrap i else (i - 1, i + 1, i + 2)

/-- `ez_rgdint_3_wnnc` (ez_rgdint_3_wnnc.inc:70-104).  With `wrap` = 0 column `i` is at most `ni - 2`,
so that line 76 asks for the wrapped columns only with `wrap` > 0. -/
def rgdint3wnnc (ni j1 j2 wrap : ℤ) (z : ℤ → ℤ → ℚ) (px py : ℚ) : Option ℚ :=
  let i := min (ni - 2 + wrap) (max 1 (max (2 - wrap) (ifix px)))
  let j := min (j2 - 2) (max (j1 + 1) (ifix py))
  let c := cols3wnnc ni wrap i
  bicubic ni j1 j2 z c.1 i c.2.1 c.2.2 j (px - i) (py - j)

/-- ez_irgdint_3_wnnc.inc:97-160: the columns beside column `i` and the four longitudes. -/
def cols3iwnnc (ni wrap : ℤ) (ax : ℤ → ℚ) (i : ℤ) :
    Option ((ℤ × ℤ × ℤ) × (ℚ × ℚ × ℚ × ℚ)) :=
  if wrap = 1 ∧ i = ni - 1 then do
    let x1 ← rd1 1 ni ax (ni - 2)
    let x2 ← rd1 1 ni ax (ni - 1)
    let x3 ← rd1 1 ni ax ni
    let x4 ← rd1 1 ni ax 2
    return ((ni - 2, ni, 1), (x1, x2, x3, x4 + 360))
  else if wrap = 1 ∧ i = 1 then do
    let x1 ← rd1 1 ni ax (ni - 1)
    let x2 ← rd1 1 ni ax 1
    let x3 ← rd1 1 ni ax 2
    let x4 ← rd1 1 ni ax 3
    return ((ni - 1, 2, 3), (x1 - 360, x2, x3, x4))
  else if wrap = 2 ∧ i = ni then do
    let x1 ← rd1 1 ni ax (ni - 1)
    let x2 ← rd1 1 ni ax ni
    let x3 ← rd1 1 ni ax 1
    let x4 ← rd1 1 ni ax 2
    return ((ni - 1, 1, 2), (x1, x2, x3 + 360, x4 + 360))
  else if wrap = 2 ∧ i = ni - 1 then do
    let x1 ← rd1 1 ni ax (ni - 2)
    let x2 ← rd1 1 ni ax (ni - 1)
    let x3 ← rd1 1 ni ax ni
    let x4 ← rd1 1 ni ax 1
    return ((ni - 2, ni, 1), (x1, x2, x3, x4 + 360))
  else if wrap = 2 ∧ i = 1 then do
    let x1 ← rd1 1 ni ax ni
    let x2 ← rd1 1 ni ax 1
    let x3 ← rd1 1 ni ax 2
    let x4 ← rd1 1 ni ax 3
    return ((ni, 2, 3), (x1 - 360, x2, x3, x4))
  else do
    let x1 ← rd1 1 ni ax (i - 1)
    let x2 ← rd1 1 ni ax i
    let x3 ← rd1 1 ni ax (i + 1)
    let x4 ← rd1 1 ni ax (i + 2)
    return ((i - 1, i + 1, i + 2), (x1, x2, x3, x4))

/-- No two of four coordinates are equal: the twelve divisions of ez_irgdint_3_wnnc.inc:165-170 and
231-236 are defined. -/
def distinct4 (a b c d : ℚ) : Bool := a ≠ b ∧ a ≠ c ∧ b ≠ c ∧ a ≠ d ∧ b ≠ d ∧ c ≠ d

/-- `ez_irgdint_3_wnnc` (ez_irgdint_3_wnnc.inc:92-243). -/
def irgdint3wnnc (ni j1 j2 wrap : ℤ) (ax ay : ℤ → ℚ) (z : ℤ → ℤ → ℚ) (px py : ℚ) : Option ℚ := do
  let i := min (ni - 2 + wrap) (max 1 (max (2 - wrap) (ifix px)))
  let j := min (j2 - 2) (max (j1 + 1) (ifix py))
  let (c, x) ← cols3iwnnc ni wrap ax i
  let y4 ← rd1 j1 j2 ay (j + 2)
  if distinct4 x.1 x.2.1 x.2.2.1 x.2.2.2 && distinct4 (ay (j - 1)) (ay j) (ay (j + 1)) y4 then
    binewton ni j1 j2 ay (inv4 x.1 x.2.1 x.2.2.1 x.2.2.2) (inv4 (ay (j - 1)) (ay j) (ay (j + 1)) y4) z
      c.1 i c.2.1 c.2.2 j x.1 x.2.1 x.2.2.1 px py
  else none

/-- `ez_fillnpole` (ez_fillnpole.inc:26-34), `temp(ni,4)`. -/
def fillnpole (s : Src) (zin : ℤ → ℤ → ℚ) (pole : ℚ) (i k : ℤ) : ℚ :=
  if k = 4 then pole else zin i (s.j2 - 3 + k)

/-- `ez_fillspole` (ez_fillspole.inc:26-34), `temp(ni,4)`. -/
def fillspole (s : Src) (zin : ℤ → ℤ → ℚ) (pole : ℚ) (i k : ℤ) : ℚ :=
  if k = 1 then pole else zin i (s.j1 - 2 + k)

/-- A read of `lgd->ay[k]`. -/
def ayAt (s : Src) (k : ℤ) : Option ℚ := rd1 0 (s.j2 - s.j1) s.aym k

/-- The four latitudes of ez_corrval_aunord.c:60-71, from index 0. -/
def aynorth (s : Src) : Option (ℚ × ℚ × ℚ × ℚ) := do
  let a ← ayAt s (s.j2 - 1)
  let b ← ayAt s (s.j2 - 2)
  let c ← ayAt s (s.j2 - 3)
  if a = 90 then
    let d ← ayAt s (s.j2 - 4)
    return (d, c, b, a)
  else return (c, b, a, 90)

/-- The four latitudes of ez_corrval_ausud.c:72-88. -/
def aysouth (s : Src) : Option (ℚ × ℚ × ℚ × ℚ) := do
  let t ← ayAt s (s.j1 - 1)
  let a ← ayAt s 0
  let b ← ayAt s 1
  let c ← ayAt s 2
  if t = -90 then
    let d ← ayAt s 3
    return (a, b, c, d)
  else return (-90, a, b, c)

/-- Four latitudes as the array `ay(j1:j1+3)`. -/
def four (j1 : ℤ) (a : ℚ × ℚ × ℚ × ℚ) (j : ℤ) : ℚ :=
  if j = j1 then a.1 else if j = j1 + 1 then a.2.1 else if j = j1 + 2 then a.2.2.1 else a.2.2.2

/-- `ez_corrval_aunord` (ez_corrval_aunord.c:42-107), the value of one point.  `temp` is passed as the
rows `j2-2..j2+1` to the cubic routines and as the rows 1..4 to the others.  The degrees without a
case leave `vals` as `malloc` gave it. -/
def aunord (s : Src) (o : Opt) (zin : ℤ → ℤ → ℚ) (x y : ℚ) : Option ℚ := do
  let pole ← poleval s (fun i => zin i s.j2)
  if s.j2 - 2 < s.j1 then none
  else
    let temp := fillnpole s zin pole
    let tempj := fun i j => temp i (j - (s.j2 - 3))
    if o.interp = 3 then
      if s.typ = 'Z' ∨ s.typ = 'E' ∨ s.typ = 'G' then
        let ay ← aynorth s
        irgdint3wnnc s.ni (s.j2 - 2) (s.j2 + 1) s.ext s.ax (four (s.j2 - 2) ay) tempj x y
      else rgdint3wnnc s.ni (s.j2 - 2) (s.j2 + 1) s.ext tempj x y
    else if o.interp = 1 then rgdint1w s.ni 1 4 s.ext temp x (y - (s.j2 - 3))
    else if o.interp = 0 then rgdint0 s.ni 1 4 temp x (y - (s.j2 - 3))
    else none

/-- `ez_corrval_ausud` (ez_corrval_ausud.c:53-126), the value of one point; the rows are
`j1-1..j1+2`. -/
def ausud (s : Src) (o : Opt) (zin : ℤ → ℤ → ℚ) (x y : ℚ) : Option ℚ := do
  let pole ← poleval s (fun i => zin i s.j1)
  if s.j2 < s.j1 + 2 then none
  else
    let tempj := fun i j => fillspole s zin pole i (j - (s.j1 - 2))
    if o.interp = 3 then
      if s.typ = 'Z' ∨ s.typ = 'E' ∨ s.typ = 'G' then
        let ay ← aysouth s
        irgdint3wnnc s.ni (s.j1 - 1) (s.j1 + 2) s.ext s.ax (four (s.j1 - 1) ay) tempj x y
      else rgdint3wnnc s.ni (s.j1 - 1) (s.j1 + 2) s.ext tempj x y
    else if o.interp = 1 then rgdint1w s.ni (s.j1 - 1) (s.j1 + 2) s.ext tempj x y
    else if o.interp = 0 then rgdint0 s.ni (s.j1 - 1) (s.j1 + 2) tempj x y
    else none

/-- The zones `ez_defzones` fills (ez_defzones.c:83-109): outside, near the north, near the south,
north pole, south pole. -/
structure Zones where
  dehors : List ℕ := []
  nord : List ℕ := []
  sud : List ℕ := []
  polen : List ℕ := []
  poles : List ℕ := []

/-- `ez_defzones` (ez_defzones.c:27-113). -/
def defzones (s : Src) (n : ℕ) (x y : ℕ → ℚ) : Zones :=
  if mayLeave s then { dehors := zone n fun k => outside s (x k) (y k) }
  else
    { nord := zone n fun k => north s (y k)
      sud := zone n fun k => south s (y k)
      polen := zone n fun k => near (y k) s.ypn
      poles := zone n fun k => near (y k) s.yps }

/-- The corrections near the poles and at the poles (ez_corrval.c:117-145). -/
def corrpoles (s : Src) (o : Opt) (zin : ℤ → ℤ → ℚ) (x y : ℕ → ℚ) (w : Zones)
    (zout : ℕ → Option ℚ) : ℕ → Option ℚ :=
  if o.vecteur then zout
  else
    let zout := paste (fun k => aunord s o zin (x k) (y k)) w.nord zout
    let zout := paste (fun k => ausud s o zin (x k) (y k)) w.sud zout
    let zout := paste (fun _ => poleval s (fun i => zin i s.j2)) w.polen zout
    paste (fun _ => poleval s (fun i => zin i s.j1)) w.poles zout

/-- `ez_corrval` (ez_corrval.c:29-151) without line 146-148: the code returned and the corrected
points. -/
def corrval (s : Src) (o : Opt) (zin : ℤ → ℤ → ℚ) (n : ℕ) (x y : ℕ → ℚ) (zout : ℕ → Option ℚ) :
    ℤ × (ℕ → Option ℚ) :=
  let w := defzones s n x y
  if w.dehors ≠ [] then
    if o.extrap = 13 then (-1, zout)
    else
      let zout := if o.extrap ≥ 4 then paste (fun _ => fudge s o zin) w.dehors zout
        else paste (fun k => gdinterp s o.extrap zin (x k) (y k)) w.dehors zout
      (2, corrpoles s o zin x y w zout)
  else (0, corrpoles s o zin x y w zout)

end Verif.EzZones
