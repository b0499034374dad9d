import Mathlib.Analysis.SpecialFunctions.Trigonometric.Inverse
import Mathlib.Analysis.SpecialFunctions.Trigonometric.Arctan

/-! # Distances and areas on the sphere

Model of src/interp/ez_calcdist.c over the real numbers: rounding is not modelled. -/

namespace Verif.CalcDist

open Real

/-- `earth_radius` (ez_calcdist.c:68, 84, 200, 254). -/
noncomputable def R : ℝ := 6370997

/-- `x * degre_a_radian` (ez_calcdist.c:70-75). -/
noncomputable def rad (x : ℝ) : ℝ := x * (π / 180)

/-- The arc of `c_ez_calcdist` (ez_calcdist.c:77) and of the sides in `c_ez_calcarea` (ez_calcdist.c:225-229). -/
noncomputable def arc (lat1 lon1 lat2 lon2 : ℝ) : ℝ :=
  arccos (cos (rad lat1) * cos (rad lat2) * cos (rad lon1 - rad lon2) + sin (rad lat1) * sin (rad lat2))

/-- `c_ez_calcdist` (ez_calcdist.c:64-78). -/
noncomputable def dist (lat1 lon1 lat2 lon2 : ℝ) : ℝ := R * arc lat1 lon1 lat2 lon2

/-- `c_ez_calcdist2` (ez_calcdist.c:80-104). -/
noncomputable def dist2 (lat1 lon1 lat2 lon2 : ℝ) : ℝ :=
  let dlon := rad lon2 - rad lon1
  let dlat := rad lat2 - rad lat1
  let sindlat := sin (dlat * 0.5)
  let sindlon := sin (dlon * 0.5)
  let a := sindlat * sindlat + cos (rad lat1) * cos (rad lat2) * sindlon * sindlon
  2 * arcsin (√a) * R

/-- The area of a triangle from its sides in `c_ez_calcarea` (ez_calcdist.c:232-235, 238-241): the side `c` is opposite to the angle found by
the arc cosine. -/
noncomputable def tri (a b c : ℝ) : ℝ :=
  let C := arccos ((cos c - cos b * cos a) / (sin b * sin a))
  let B := arcsin (sin b * sin C / sin c)
  let A := arcsin (sin a * sin C / sin c)
  ((A + B + C) - π) * R * R

/-- The area of a triangle in `c_ez_calcarea2` (ez_calcdist.c:271-275, 278-282). -/
noncomputable def tri2 (a b c : ℝ) : ℝ :=
  let s := 0.5 * (a + b + c)
  R * R * (4 * arctan (√(tan (0.5 * s) * tan (0.5 * (s - a)) * tan (0.5 * (s - b)) * tan (0.5 * (s - c)))))

/-- `c_ez_calcarea` (ez_calcdist.c:196-250). -/
noncomputable def area (p q r s : ℝ × ℝ) : ℝ :=
  let d (x y : ℝ × ℝ) := arc x.1 x.2 y.1 y.2
  tri (d p q) (d q r) (d p r) + tri (d r s) (d p s) (d p r)

/-- `c_ez_calcarea2` (ez_calcdist.c:252-290). -/
noncomputable def area2 (p q r s : ℝ × ℝ) : ℝ :=
  let d (x y : ℝ × ℝ) := dist2 x.1 x.2 y.1 y.2 / R
  tri2 (d p q) (d q r) (d p r) + tri2 (d p r) (d r s) (d s p)

end Verif.CalcDist
