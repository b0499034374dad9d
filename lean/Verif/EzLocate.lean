import Mathlib.Algebra.Order.Floor.Ring
import Mathlib.Data.Rat.Floor
import Mathlib.Tactic.Linarith
import Mathlib.Tactic.FieldSimp
import Mathlib.Tactic.Ring
import Verif.EzCherche

/-! # Grid indices and geographic coordinates of latitude-longitude grids (`src/interp`)

`gdllfxy`, `gdxyfll`, `gdll` and the positions computed for interpolation, for the grid types A, B, L, G,
and Z and `#` over an L reference.  The arithmetic is exact (rational numbers); rounding to `float` is
not modelled, nor are the types over a projection (see `EzProj`) and the yin-yang pairs.  Every
routine is modelled on one point, the loops over points treat each point alone.  `none` stands for a
division by zero, a read outside an array, or values never set. -/

namespace Verif.EzLocate

/-- `(int)x` of C, and the quotient taken by `fmod`: truncation toward zero. -/
def trunc (q : ℚ) : ℤ := if 0 ≤ q then ⌊q⌋ else ⌈q⌉

/-- `fmod(a, p)` of C, `amod(a, p)` of Fortran. -/
def fmod (a p : ℚ) : ℚ := a - p * trunc (a / p)

/-- The grid types; `Z` also stands for `#`, which these routines treat alike. -/
inductive Typ where
  | A | B | L | Z | G
  deriving DecidableEq

/-- The entries `SWLAT`, `SWLON`, `DLAT`, `DLON` of `xg` or `xgref` (ez_def.h:79-82). -/
structure Lin where
  swlat : ℚ
  swlon : ℚ
  dlat : ℚ
  dlon : ℚ

/-- The members of `_Grille` used here.  `ref` is what `cigaxg` gives for `grref` = L and `igref`; it is
also what is kept in `xgref` (ez_defaxes.c:46-47, 69-74). -/
structure Grille where
  typ : Typ
  ni : ℕ
  nj : ℕ
  ig1 : ℤ
  ig2 : ℤ
  ig3 : ℤ := 0
  ig4 : ℤ := 0
  ax : List ℚ := []
  ay : List ℚ := []
  ref : Lin := ⟨0, 0, 1, 1⟩

/-- `igaxg` for type L (base/igaxg.f90:93-97). -/
def igaxgL (ig1 ig2 ig3 ig4 : ℤ) : Lin := ⟨ig3 * (1 / 100) - 90, ig4 * (1 / 100), ig1 * (1 / 100), ig2 * (1 / 100)⟩

/-- `c_ezdefxg` (ez_defxg.c:27-80 for A and G, 79-116 for B, 145-148 for L); `none` where `xg` is not set
or is set by a division by zero. -/
def defxg (g : Grille) : Option Lin :=
  match g.typ with
  | .A | .G =>
    if g.ni = 0 ∨ g.nj = 0 then none
    else
      let dlon : ℚ := 360 / g.ni
      if g.ig1 = 0 then let dlat : ℚ := 180 / g.nj; some ⟨-90 + 1 / 2 * dlat, 0, dlat, dlon⟩
      else if g.ig1 = 1 then let dlat : ℚ := 90 / g.nj; some ⟨1 / 2 * dlat, 0, dlat, dlon⟩
      else if g.ig1 = 2 then let dlat : ℚ := 90 / g.nj; some ⟨-90 + 1 / 2 * dlat, 0, dlat, dlon⟩
      else none
  | .B =>
    if g.ni ≤ 1 ∨ g.nj ≤ 1 then none
    else
      let dlon : ℚ := 360 / (g.ni - 1)
      if g.ig1 = 0 then some ⟨-90, 0, 180 / (g.nj - 1), dlon⟩
      else if g.ig1 = 1 then some ⟨0, 0, 90 / (g.nj - 1), dlon⟩
      else if g.ig1 = 2 then some ⟨-90, 0, 90 / (g.nj - 1), dlon⟩
      else none
  | .L => some (igaxgL g.ig1 g.ig2 g.ig3 g.ig4)
  | .Z => none

/-- The `j2` of `ez_xpncof` (ez_xpncof.c:69-73, 101-145, 161-221), for the hemispheres it knows. -/
def j2 (g : Grille) : ℤ :=
  match g.typ with
  | .A | .G => if g.ig1 = 2 then 2 * g.nj else g.nj
  | .B => if g.ig1 = 2 then 2 * g.nj - 1 else g.nj
  | _ => g.nj

/-- A read of `a[i]`. -/
def get (a : List ℚ) (i : ℤ) : Option ℚ := if i < 0 then none else a[i.toNat]?

/-- The value of an axis at a fractional index (gdllfxy.c:191, 197-207), the index limited to the first
`n` entries. -/
def onAxis (a : List ℚ) (n : ℤ) (x : ℚ) : Option ℚ := do
  let ind := trunc x - 1
  let ind := if ind < 0 then 0 else ind
  let ind := if ind > n - 2 then n - 2 else ind
  let a0 ← get a ind
  let a1 ← get a (ind + 1)
  let del := a1 - a0
  some (a0 + (x - 1 - ind) * del)

/-- `c_gdllfxy_new` (gdllfxy.c:93-250) and, with `flip` false, `c_gdllfxy_orig` (252-404): latitude and
longitude of a position. -/
def gdllfxyWith (flip : Bool) (g : Grille) (x y : ℚ) : Option (ℚ × ℚ) :=
  match g.typ with
  | .A | .B | .L => do
    let xg ← defxg g
    let lat := (y - 1) * xg.dlat + xg.swlat
    let lon := (x - 1) * xg.dlon + xg.swlon
    some (lat, fmod (lon + 360) 360)
  | .Z | .G => do
    let ytmp := if flip ∧ g.ig2 = 1 then g.nj + 1 - y else y
    let tmpx ← onAxis g.ax g.ni x
    let tmpy ← onAxis g.ay (j2 g) ytmp
    let lat := tmpy * g.ref.dlat + g.ref.swlat
    let lon := tmpx * g.ref.dlon + g.ref.swlon
    some (lat, fmod (lon + 360) 360)

/-- `c_gdllfxy` (gdllfxy.c:30-84) for a grid that is no yin-yang pair. -/
def gdllfxy (g : Grille) (x y : ℚ) : Option (ℚ × ℚ) := gdllfxyWith true g x y

/-- The range `ez_llll2gd` brings a longitude into (ez_llll2gd.inc:31-46). -/
def wrap (lonref lon : ℚ) : ℚ :=
  if lonref = -180 then (if lon > 180 then lon - 360 else lon) else (if lon < 0 then lon + 360 else lon)

/-- `ez_llll2gd` (ez_llll2gd.inc:22-56): position, and what it leaves in `dlon`. -/
def llll2gd (lat lon xlat0 xlon0 dellat dellon lonref : ℚ) : Option ((ℚ × ℚ) × ℚ) :=
  let lon := wrap lonref lon
  if dellon = 0 ∨ dellat = 0 then none
  else some (((lon - xlon0) / dellon + 1, (lat - xlat0) / dellat + 1), lon)

/-- The range `ez_ll2rgd` brings a longitude into for type L (ez_ll2rgd.inc:137-145). -/
def shiftL (xlon0 dellon : ℚ) (ni : ℕ) (lon : ℚ) : ℚ :=
  let lon := if lon < xlon0 then lon + 360 else lon
  if lon > xlon0 + ni * dellon then lon - 360 else lon

/-- `ez_ll2rgd` (ez_ll2rgd.inc:62-112 for A and B, 134-149 for L): position, and what it leaves in
`xlon`. -/
def ll2rgd (g : Grille) (lat lon : ℚ) : Option ((ℚ × ℚ) × ℚ) :=
  match g.typ with
  | .A =>
    if g.ni = 0 ∨ g.nj = 0 then none
    else
      let dellon : ℚ := 360 / g.ni
      let lon := if lon < 0 then lon + 360 else lon
      if g.ig1 = 0 then let dellat : ℚ := 180 / g.nj; llll2gd lat lon (-90 + dellat * (1 / 2)) 0 dellat dellon 0
      else if g.ig1 = 1 then let dellat : ℚ := 90 / g.nj; llll2gd lat lon (dellat * (1 / 2)) 0 dellat dellon 0
      else if g.ig1 = 2 then let dellat : ℚ := 90 / g.nj; llll2gd lat lon (-90 + dellat * (1 / 2)) 0 dellat dellon 0
      else none
  | .B =>
    if g.ni ≤ 1 ∨ g.nj ≤ 1 then none
    else
      let dellon : ℚ := 360 / (g.ni - 1)
      let lon := if lon < 0 then lon + 360 else lon
      if g.ig1 = 0 then llll2gd lat lon (-90) 0 (180 / (g.nj - 1)) dellon 0
      else if g.ig1 = 1 then llll2gd lat lon 0 0 (90 / (g.nj - 1)) dellon 0
      else if g.ig1 = 2 then llll2gd lat lon (-90) 0 (90 / (g.nj - 1)) dellon 0
      else none
  | .L =>
    let p := igaxgL g.ig1 g.ig2 g.ig3 g.ig4
    let lon := shiftL p.swlon p.dlon g.ni lon
    llll2gd lat lon p.swlat p.swlon p.dlat p.dlon 0
  | _ => none

/-- The comparison `val .le. tableau(k)` of `ez_cherche` (ez_cherche.inc:60). -/
def leAxis (a : List ℚ) (v : ℚ) (k : ℕ) : Bool :=
  match get a (k - 1) with
  | some t => decide (v ≤ t)
  | none => false

/-- The fractional index of a value on an axis of `n` entries (ez_ll2igd.inc:74-83). -/
def toAxis (a : List ℚ) (n : ℕ) (v : ℚ) : Option ℚ := do
  let ind ← EzCherche.ezCherche (leAxis a v) n n
  let ind := if ind ≥ n then n - 1 else ind
  let a0 ← get a (ind - 1)
  let a1 ← get a ind
  if a1 - a0 = 0 then none else some (ind + (v - a0) / (a1 - a0))

/-- `ez_ll2igd` (ez_ll2igd.inc:22-86) with `grref` = L and `coordflag` = `relatif`, on axes of `ni` and
`nj` entries: position, and what it leaves in `xlon` (which is declared `intent(in)`). -/
def ll2igd (g : Grille) (nj : ℕ) (lat lon : ℚ) : Option ((ℚ × ℚ) × ℚ) := do
  let ax1 ← get g.ax 0
  let lonref : ℚ := if ax1 < 0 then -180 else 0
  let ((px, py), lon) ← llll2gd lat lon g.ref.swlat g.ref.swlon g.ref.dlat g.ref.dlon lonref
  let px := px - 1
  let py := py - 1
  let px ← toAxis g.ax g.ni px
  let py ← toAxis g.ay nj py
  some ((px, py), lon)

/-- `c_gdxyfll_new` (gdxyfll.c:29-104): position of a latitude and longitude, and what is left in the
caller's `lon`; `c_gdxyfll` (147-202) for a grid that is no yin-yang pair. -/
def gdxyfll (g : Grille) (lat lon : ℚ) : Option ((ℚ × ℚ) × ℚ) :=
  match g.typ with
  | .A | .B | .L => (ll2rgd g lat lon).map fun r => (r.1, lon)
  | .Z | .G => do
    let njIn := j2 g
    let ((px, py), lon) ← ll2igd g njIn.toNat lat lon
    let py := if g.typ = .G ∧ g.ig1 = 1 then py - njIn else py
    let py := if g.typ = .G ∧ g.ig2 = 1 then njIn + 1 - py else py
    some ((px, py), lon)

/-- `ez_calclatlon` (ez_calclatlon.c:30-270) for the point `i`, `j` counted from 0: `grll`
(base/grll.f:56-64), the axes and `c_llfgr` (ez_llfgr.c:26-35), then `permut` of the latitudes
(base/permut.f:55-67), which exchanges rows `j` and `nj - 1 - j`. -/
def calclatlon (g : Grille) (i j : ℕ) : Option (ℚ × ℚ) :=
  let jj := if (g.typ = .G ∨ g.typ = .B ∨ g.typ = .A) ∧ g.ig2 = 1 then g.nj - 1 - j else j
  match g.typ with
  | .A | .B | .L => do
    let xg ← defxg g
    some (xg.swlat + jj * xg.dlat, fmod (xg.swlon + i * xg.dlon) 360)
  | .Z | .G => do
    let lat ← if g.typ = .G ∧ g.ig1 = 1 then get g.ay (jj + g.nj) else get g.ay jj
    let lon ← get g.ax i
    let y := lat + 1
    let x := lon + 1
    let lon := g.ref.swlon + g.ref.dlon * (x - 1)
    some (g.ref.swlat + g.ref.dlat * (y - 1), fmod (fmod lon 360 + 360) 360)

/-- `ez_calcxy` (ez_calcxy.c:65-98) for one point of the target grid: its position in the source grid
`g`, and what is left in the longitudes kept with the target grid.  For Z and G grids `nj` is passed,
not `j2`. -/
def calcxy (g : Grille) (lat lon : ℚ) : Option ((ℚ × ℚ) × ℚ) :=
  match g.typ with
  | .A | .B | .L => ll2rgd g lat lon
  | .Z | .G => do
    let ((px, py), lon) ← ll2igd g g.nj lat lon
    let py := if g.typ = .G ∧ g.ig1 = 1 then py - g.nj else py
    some ((px, py), lon)

/-- Positions of one target point in one source grid after another, as `c_ezsint` asks for them
(ezsint.c:115-116): the longitude left by one is the one given to the next. -/
def calcxys : List Grille → ℚ → ℚ → Option (List (ℚ × ℚ) × ℚ)
  | [], _, lon => some ([], lon)
  | g :: gs, lat, lon => do
    let (p, lon) ← calcxy g lat lon
    let (ps, lon) ← calcxys gs lat lon
    some (p :: ps, lon)

end Verif.EzLocate
