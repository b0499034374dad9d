import Mathlib.Analysis.SpecialFunctions.Complex.Arg
import Mathlib.Analysis.SpecialFunctions.Trigonometric.Arctan
import Mathlib.Tactic.FieldSimp
import Mathlib.Tactic.LinearCombination

/-! # Rotated and polar stereographic coordinates, wind components (`src/interp`)

The arithmetic is exact: `real` values are real numbers, `sin`, `cos`, `asin`, `atan`, `atan2` and
`sqrt` are the functions of real analysis, the constants of `pi.cdk` (`rdtodg`, `dgtord`) are `180/π`
and `π/180`.  Rounding, overflow and signed zeros are not modelled.  A division by zero, which in the
code gives infinities or NaN, gives `none`.  Every routine is modelled on one point, the loops over
points treat each point alone. -/

namespace Verif.EzProj

open Real

noncomputable section

/-- A point or vector of cartesian space: one column of the arrays `xyz(3,n)`. -/
@[ext] structure V3 where
  x : ℝ
  y : ℝ
  z : ℝ

/-- `dar = acos(-1.0) / 180.0` (ez_lac.inc:39), `dgtord` (pi.cdk). -/
def dar : ℝ := π / 180

/-- `rad = 180./acos(-1.00)` (ez_cal.inc:37), `rdtodg` (pi.cdk). -/
def rad : ℝ := 180 / π

/-- Fortran `amod(a, p)`: the remainder of the division truncated toward zero. -/
def amod (a p : ℝ) : ℝ := a - p * (if 0 ≤ a / p then (⌊a / p⌋ : ℝ) else (⌈a / p⌉ : ℝ))

/-- Fortran `sign(a, b)`: `|a|` with the sign of `b`. -/
def fsign (a b : ℝ) : ℝ := if 0 ≤ b then |a| else -|a|

/-- Fortran `atan2(y, x)`: the argument of `x + i y` in `(-π, π]`, zero at the origin. -/
def atan2 (y x : ℝ) : ℝ := Complex.arg ⟨x, y⟩

/-- `ez_lac` (ez_lac.inc:31-47). -/
def lac (lon lat : ℝ) : V3 :=
  let cosdar := cos (dar * lat)
  ⟨cosdar * cos (dar * lon), cosdar * sin (dar * lon), sin (dar * lat)⟩

/-- `ez_cal` (ez_cal.inc:22-47): longitude, latitude. -/
def cal (p : V3) : ℝ × ℝ :=
  let lat := arcsin (max (-1) (min 1 p.z)) * rad
  let lon := atan2 p.y p.x * rad
  let lon := amod lon 360
  (if lon < 0 then lon + 360 else lon, lat)

/-- A matrix `r(3,3)` by its rows. -/
@[ext] structure M33 where
  r1 : V3
  r2 : V3
  r3 : V3

/-- `mxm` (base/mxm.F90:23-40) for a matrix of 3 rows and 3 columns and one column of `b`. -/
def mxm (m : M33) (p : V3) : V3 :=
  ⟨0 + m.r1.x * p.x + m.r1.y * p.y + m.r1.z * p.z,
   0 + m.r2.x * p.x + m.r2.y * p.y + m.r2.z * p.z,
   0 + m.r3.x * p.x + m.r3.y * p.y + m.r3.z * p.z⟩

/-- `ri(i, j) = r(j, i)` (ez_crot.inc:90-94). -/
def transpose (m : M33) : M33 :=
  ⟨⟨m.r1.x, m.r2.x, m.r3.x⟩, ⟨m.r1.y, m.r2.y, m.r3.y⟩, ⟨m.r1.z, m.r2.z, m.r3.z⟩⟩

/-- `ez_crot` (ez_crot.inc:59-94) once the cartesian coordinates `xyz1`, `xyz2` are known: the matrices
`r` and `ri`; `none` where it divides by zero. -/
def crotV (p q : V3) : Option (M33 × M33) :=
  let a := p.x * q.x + p.y * q.y + p.z * q.z
  let b := sqrt ((p.y * q.z - q.y * p.z) ^ 2 + (q.x * p.z - p.x * q.z) ^ 2 + (p.x * q.y - q.x * p.y) ^ 2)
  let c := sqrt (p.x ^ 2 + p.y ^ 2 + p.z ^ 2)
  let d := sqrt (((a * p.x - q.x) / b) ^ 2 + ((a * p.y - q.y) / b) ^ 2 + ((a * p.z - q.z) / b) ^ 2)
  if b = 0 ∨ c = 0 ∨ d = 0 then none
  else
    let r : M33 := ⟨⟨-p.x / c, -p.y / c, -p.z / c⟩,
      ⟨(a * p.x - q.x) / b / d, (a * p.y - q.y) / b / d, (a * p.z - q.z) / b / d⟩,
      ⟨(p.y * q.z - q.y * p.z) / b, (q.x * p.z - p.x * q.z) / b, (p.x * q.y - q.x * p.y) / b⟩⟩
    some (r, transpose r)

/-- `ez_crot` (ez_crot.inc:44-97). -/
def crot (lon1 lat1 lon2 lat2 : ℝ) : Option (M33 × M33) := crotV (lac lon1 lat1) (lac lon2 lat2)

/-- The four numbers of a rotated grid (`xlat1`, `xlon1`, `xlat2`, `xlon2`). -/
structure Rot where
  lat1 : ℝ
  lon1 : ℝ
  lat2 : ℝ
  lon2 : ℝ

/-- `c_ezgfxyfll` (ez_gfxyfll.c:38-57, called through ez_gfxyfll.inc:24-67): true coordinates
`lonp`, `latp` to rotated coordinates. -/
def gfxyfll (g : Rot) (lonp latp : ℝ) : Option (ℝ × ℝ) :=
  (crot g.lon1 g.lat1 g.lon2 g.lat2).map fun m => cal (mxm m.1 (lac lonp latp))

/-- `c_ezgfllfxy` (ez_gfllfxy.c:40-58, called through ez_gfllfxy.inc:46-56): rotated coordinates
`lon`, `lat` to true coordinates. -/
def gfllfxy (g : Rot) (lon lat : ℝ) : Option (ℝ × ℝ) :=
  (crot g.lon1 g.lat1 g.lon2 g.lat2).map fun m => cal (mxm m.2 (lac lon lat))

/-! ## Polar stereographic grids -/

/-- `re=1.866025d0*6.371d+6/d60` (ez_vxyfll.inc:70, ez_vllfxy.inc:55). -/
def reOf (d60 : ℝ) : ℝ := 1.866025 * 6371000 / d60

/-- The parameters of a polar stereographic grid. -/
structure Ps where
  d60 : ℝ
  dgrw : ℝ
  pi : ℝ
  pj : ℝ
  nhem : Int

/-- `ez_vxyfll` (ez_vxyfll.inc:22-98): `x` and `y` of a latitude and longitude.  For `nhem` other than
1 and 2 nothing is written; at the opposite pole it divides by zero. -/
def vxyfll (g : Ps) (dlat dlon : ℝ) : Option (ℝ × ℝ) :=
  let re := reOf g.d60
  if g.nhem = 1 then
    let rlon := dar * (dlon + g.dgrw)
    let sinlat := sin (dar * dlat)
    if g.d60 = 0 ∨ 1 + sinlat = 0 then none
    else
      let r := re * sqrt ((1 - sinlat) / (1 + sinlat))
      some (r * cos rlon + g.pi, r * sin rlon + g.pj)
  else if g.nhem = 2 then
    let rlon := if dlon > 180 then dlon - 360 else dlon
    let rlon := dar * (-rlon + g.dgrw)
    let sinlat := sin (dar * (-dlat))
    if g.d60 = 0 ∨ 1 + sinlat = 0 then none
    else
      let r := re * sqrt ((1 - sinlat) / (1 + sinlat))
      some (r * cos rlon + g.pi, r * sin rlon + g.pj)
  else none

/-- `ez_vllfxy` (ez_vllfxy.inc:22-103): latitude and longitude of `x` and `y`.  The values set for the
pole (lines 63-66) are always replaced: `rlon` at line 70 and `rlat` at line 84. -/
def vllfxy (g : Ps) (x y : ℝ) : ℝ × ℝ :=
  let re2 := reOf g.d60 ^ 2
  let x1 := x - g.pi
  let y1 := y - g.pj
  let rlon := if x1 = 0 then fsign 90 y1 else arctan (y1 / x1) * rad
  let rlon := if x1 < 0 then rlon + fsign 180 y1 else rlon
  let rlon := rlon - g.dgrw
  let rlon := if rlon < 0 then rlon + 360 else rlon
  let r2 := x1 * x1 + y1 * y1
  let rlat := (re2 - r2) / (re2 + r2)
  let rlat := max (-1) (min rlat 1)
  let rlat := arcsin rlat * rad
  if g.nhem = 2 then
    let rlon := -rlon
    (-rlat, if rlon < 0 then rlon + 360 else rlon)
  else (rlat, rlon)

/-! ## Winds -/

/-- Grid type letters treated by the wind routines. -/
inductive Grtyp where
  | N | S | A | B | G | L | other
  deriving DecidableEq

/-- `ez_gdwfllw` (ez_gdwfllw.inc:23-137) for one point: speed and direction to components.  `xg4` is
what `cigaxg` gives for the grid.  The type `!` is not modelled; for every other type the values are
left as they are. -/
def gdwfllw (t : Grtyp) (xg4 xlon z1 z2 : ℝ) : ℝ × ℝ :=
  match t with
  | .N => let psi := xlon + xg4 - z2
          (cos (psi * dar) * z1, sin (psi * dar) * z1)
  | .S => let psi := 180 - xlon + xg4 - z2
          (cos (psi * dar) * z1, sin (psi * dar) * z1)
  | .other => (z1, z2)
  | _ => let psi := 270 - z2
         (cos (psi * dar) * z1, sin (psi * dar) * z1)

/-- `ez_llwfgdw` (ez_llwfgdw.inc:22-170) for one point: components to speed and direction. -/
def llwfgdw (t : Grtyp) (xg4 xlon uu vv : ℝ) : ℝ × ℝ :=
  let spd0 := sqrt (uu * uu + vv * vv)
  let fin := fun dir0 => (spd0, amod (amod dir0 360 + 360) 360)
  match t with
  | .N => fin (if spd0 = 0 then 0
      else if uu = 0 then (if vv ≥ 0 then xlon + xg4 - 90 else xlon + xg4 + 90)
      else xlon + xg4 - rad * atan2 vv uu)
  | .S => fin (if spd0 = 0 then 0
      else if uu = 0 then (if vv ≥ 0 then 90 - xlon + xg4 else 270 - xlon + xg4)
      else 180 - xlon + xg4 - rad * atan2 vv uu)
  | .other => (uu, vv)
  | _ => fin (if spd0 = 0 then 0
      else if uu = 0 then (if vv ≥ 0 then 180 else 0)
      else 270 - rad * atan2 vv uu)

/-- `ez_uvacart` (ez_uvacart.inc:24-62) for one point. -/
def uvacart (u v lon lat : ℝ) : V3 :=
  let a := sin (dar * lon)
  let b := cos (dar * lon)
  let c := sin (dar * lat)
  let d := cos (dar * lat)
  ⟨-(u * a) - v * b * c, u * b - v * a * c, v * d⟩

/-- `ez_cartauv` (ez_cartauv.inc:23-62) for one point. -/
def cartauv (p : V3) (lon lat : ℝ) : ℝ × ℝ :=
  let a := cos (dar * lon)
  let b := sin (dar * lon)
  let e := cos (dar * lat)
  let f := sin (dar * lat)
  let c := p.x * a + p.y * b
  let d := sqrt (c ^ 2 + p.z ^ 2)
  (p.y * a - p.x * b, fsign d (p.z * e - c * f))

/-- `c_ezgfwfllw` (ez_gfwfllw.c:39-76): speed and direction at the true position `latin`, `lonin` to
components on the rotated grid, where the point is at `latgf`, `longf`. -/
def gfwfllw (g : Rot) (spd dir latin lonin latgf longf : ℝ) : Option (ℝ × ℝ) :=
  (crot g.lon1 g.lat1 g.lon2 g.lat2).map fun m =>
    let w := gdwfllw .L 0 lonin spd dir
    cartauv (mxm m.1 (uvacart w.1 w.2 lonin latin)) longf latgf

/-- `c_ezllwfgfw` (ez_llwfgfw.c:38-73): components on the rotated grid to speed and direction. -/
def llwfgfw (g : Rot) (uu vv latin lonin latgf longf : ℝ) : Option (ℝ × ℝ) :=
  (crot g.lon1 g.lat1 g.lon2 g.lat2).map fun m =>
    let w := cartauv (mxm m.2 (uvacart uu vv longf latgf)) lonin latin
    llwfgdw .L 0 longf w.1 w.2

/-- What `c_gduvfwd_orig` (gduvfwd.c:29-96) leaves for one point: the components, and the caller's
`latin`, `lonin`. -/
structure UvOut where
  uv : ℝ × ℝ
  latin : ℝ
  lonin : ℝ

/-- The grid kinds that `c_gduvfwd_orig` and `c_gdwdfuv_orig` tell apart: type `E`; types `#`, `Y`, `Z`
on a reference of type `E`; all others, with the type and `xg4` given to the wind routine.  (For `#`,
`Y`, `Z` on another reference gduvfwd.c has no `break` after line 87 and calls `ez_gdwfllw` once more
with the letter `#`, `Y` or `Z`, which that routine leaves alone.) -/
inductive Kind where
  | e (g : Rot)
  | ze (g : Rot)
  | plain (t : Grtyp) (xg4 : ℝ)

/-- `c_gduvfwd_orig` (gduvfwd.c:29-96) for one point.  `junk` is what the two allocated, never
initialised arrays `lon_true`, `lat_true` hold: for a grid of type `E` the call at lines 47-49 passes
them as the coordinates to be transformed and the caller's arrays as the result. -/
def gduvfwd (k : Kind) (junk : ℝ × ℝ) (spd dir latin lonin : ℝ) : Option UvOut :=
  match k with
  | .e g =>
    match gfxyfll g junk.1 junk.2 with
    | none => none
    | some (lonin', latin') =>
      (gfwfllw g spd dir latin' lonin' junk.2 junk.1).map fun w => ⟨w, latin', lonin'⟩
  | .ze g =>
    match gfxyfll g lonin latin with
    | none => none
    | some (lonr, latr) => (gfwfllw g spd dir latin lonin latr lonr).map fun w => ⟨w, latin, lonin⟩
  | .plain t xg4 => some ⟨gdwfllw t xg4 lonin spd dir, latin, lonin⟩

/-- `c_gdwdfuv_orig` (gdwdfuv.c:29-100) for one point: speed and direction. -/
def gdwdfuv (k : Kind) (uu vv latin lonin : ℝ) : Option (ℝ × ℝ) :=
  match k with
  | .e g | .ze g =>
    match gfxyfll g lonin latin with
    | none => none
    | some (lonr, latr) => llwfgfw g uu vv latin lonin latr lonr
  | .plain t xg4 => some (llwfgdw t xg4 lonin uu vv)

end

end Verif.EzProj
