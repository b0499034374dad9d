import Mathlib.Data.Rat.Floor

/-! # Interpolation from scattered points (`Y` grids)

`ez_calcxy_y`, `ez_calcxy_y_m` (`src/interp/ez_calcxy_y.inc`, `src/interp/ez_calcxy_y_m.inc`) for one point of
the output, `ez_applywgts`, `pt_in_quad`, `pt_in_triangle` and `ez_uvfllc2d`.  Reals are
rational numbers without rounding; `none` is a division by zero or an access outside an array. -/

namespace Verif.EzCloud

/-- The distance of longitudes (ez_calcxy_y.inc:40-44). -/
def dlon (a b : ℚ) : ℚ := if 180 < |a - b| then |(|a - b| - 360)| else a - b

/-- An entry of `tmpwgts` and `idxs`: a squared distance and the number of a point, from 1. -/
abbrev Entry := ℚ × Nat

/-- `maxloc`, from 0: the first of the greatest. -/
def maxloc (l : List Entry) : Nat := l.findIdx fun e => l.all fun e' => decide (e'.1 ≤ e.1)

/-- The scan over the points of the input, from number `k` on (ez_calcxy_y.inc:38-57,
ez_calcxy_y_m.inc:45-68): points with their longitude, latitude and mask. -/
def scan (thr lon lat : ℚ) : Nat → List (ℚ × ℚ × Bool) → List Entry × Nat × Bool → List Entry × Nat × Bool
  | _, [], s => s
  | k, p :: ps, (es, loc, found) =>
    let rx := dlon lon p.1
    let ry := lat - p.2.1
    scan thr lon lat (k + 1) ps
      (if p.2.2 ∧ |ry| < thr ∧ |rx| < thr then
        match es[loc]? with
        | some e =>
          if rx * rx + ry * ry < e.1 then
            (es.set loc (rx * rx + ry * ry, k), maxloc (es.set loc (rx * rx + ry * ry, k)), true)
          else (es, loc, true)
        | none => (es, loc, true)
      else (es, loc, found))

/-- `1.0e30`. -/
def big : ℚ := 1000000000000000000000000000000

/-- The inverse of a squared distance (ez_calcxy_y.inc:78-79). -/
def inv (d : ℚ) : ℚ := 1 / max d (1 / 10000000000)

/-- `ez_calcxy_y` for one point of the output (ez_calcxy_y.inc:17-92) with `n` weights: the weights with the
numbers of their points, or `none` if the point is masked.  The points with a mask and a threshold are those of
`ez_calcxy_y_m`, before `inside_or_outside`. -/
def weights (n : Nat) (thr lon lat : ℚ) (ps : List (ℚ × ℚ × Bool)) : Option (List Entry) :=
  if ps.all (fun p => decide (lon < p.1)) ∨ ps.all (fun p => decide (p.1 < lon)) ∨
      ps.all (fun p => decide (lat < p.2.1)) ∨ ps.all (fun p => decide (p.2.1 < lat)) then none
  else
    let s := scan thr lon lat 1 ps (List.replicate n (big, 0), 0, false)
    if s.2.2 = false then none
    else
      match s.1 with
      | [] => none
      | e :: es =>
        if 6371000 < e.1 then none
        else some ((e :: es).map fun x => (inv x.1 / (((e :: es).map fun y => inv y.1).sum), x.2))

/-- The sum of ez_applywgts.inc:40-44: up to the first number below 1; `none` if a number is outside the
field. -/
def apply (f : List ℚ) : List Entry → Option ℚ
  | [] => some 0
  | e :: es =>
    if e.2 < 1 then some 0
    else
      match f[e.2 - 1]?, apply f es with
      | some v, some s => some (e.1 * v + s)
      | _, _ => none

/-- `ez_applywgts` (ez_applywgts.inc:1-48) without the values of masked points: the value of the `k`-th point,
from 1, of an output grid with `ni` columns and `nj` rows; `w i j` are the weights of column `i` and row `j`. -/
def applyAt (ni nj : Nat) (w : Nat → Nat → List Entry) (f : List ℚ) (k : Nat) : Option ℚ :=
  let i := (k - 1) % ni + 1
  let j := 1 + k / ni
  if j ≤ nj then apply f (w i j) else none

/-- The points of the output that `outfld = …` sets before (ez_applywgts.inc:25-33): there are as many as in the
input; `none` if this is more than the output has. -/
def initial (nsrc : Nat) (v : ℚ) (old : List ℚ) : Option (List ℚ) :=
  if nsrc ≤ old.length then some (List.replicate nsrc v ++ old.drop nsrc) else none

/-- `pt_in_triangle` (pt_in_quad.inc:18-47). -/
def inTriangle (x y x1 y1 x2 y2 x3 y3 : ℚ) : Option Bool :=
  let a := x1 - x3
  let b := x2 - x3
  let c := y1 - y3
  let d := y2 - y3
  if a * d - b * c = 0 then none
  else
    let det := 1 / (a * d - b * c)
    let l1 := (d * (x - x3) - b * (y - y3)) * det
    let l2 := (a * (y - y3) - c * (x - x3)) * det
    let l3 := 1 - l1 - l2
    some (if l1 < 0 ∨ 1 < l1 then false else if l2 < 0 ∨ 1 < l2 then false else if l3 < 0 ∨ 1 < l3 then false else true)

/-- `pt_in_quad` (pt_in_quad.inc:1-16). -/
def inQuad (x y x1 y1 x2 y2 x3 y3 x4 y4 : ℚ) : Option Bool :=
  match inTriangle x y x1 y1 x2 y2 x3 y3 with
  | none => none
  | some true => some true
  | some false => inTriangle x y x1 y1 x3 y3 x4 y4

/-- `ez_uvfllc2d` (ez_uvfllc2d.inc:68-118). -/
def uv (x y x0 y0 x1 y1 x2 y2 x3 y3 : ℚ) : Option (ℚ × ℚ) :=
  let somx := x0 - x1 + x2 - x3
  let somy := y0 - y1 + y2 - y3
  let dx1 := x1 - x2
  let dx2 := x3 - x2
  let dy1 := y1 - y2
  let dy2 := y3 - y2
  if dx1 * dy2 - dx2 * dy1 = 0 then none
  else
    let g := (dy2 * somx - somy * dx2) / (dx1 * dy2 - dx2 * dy1)
    let h := (dx1 * somy - somx * dy1) / (dx1 * dy2 - dx2 * dy1)
    let i : ℚ := 1
    let a := x1 - x0 + g * x1
    let b := x3 - x0 + h * x3
    let c := x0
    let d := y1 - y0 + g * y1
    let e := y3 - y0 + h * y3
    let f := y0
    let q := (d * h - e * g) * x + (b * g - a * h) * y + (a * e - b * d)
    if q ≠ 0 then
      let u := ((e * i - f * h) * x + (c * h - b * i) * y + (b * f - c * e)) / q
      let v := ((f * g - d * i) * x + (a * i - c * g) * y + (c * d - a * f)) / q
      let u := if |u| < 1 / 100 then |u| else u
      let v := if |v| < 1 / 100 then |u| else v
      some (u, v)
    else some (-1, -1)

end Verif.EzCloud
