import Verif.Interp1D
import Mathlib.Analysis.SpecialFunctions.Trigonometric.Basic

namespace Verif.SurfExtrap

/-! Extrapolation near the surface (src/interpv/Extrap1D_Surface_Body.inc, Extrap1D_SurfaceWind_Body.inc), for one element, after the
tests of the arguments. `f` is what the callback `flux` gives. -/

open Verif.Interp1D

/-- `indexLowestLevel` (Extrap1D_Surface_Body.inc:106-119). -/
def lowIndex (inc : Bool) (n : Nat) : Int := if inc then 2 else n - 1

/-- `indexSurface` (the same lines). -/
def surfIndex (inc : Bool) (n : Nat) : Int := if inc then 1 else n

/-- The two tests (Extrap1D_Surface_Body.inc:130-131). -/
def below (inc down : Bool) (lev : List ℚ) (p : Int) (d : ℚ) : Option Bool := do
  if down && decide (p = lowestPosn inc lev.length) then
    let low ← get lev (lowIndex inc lev.length)
    pure (decide (d < low))
  else pure false

/-- `Extrap1D_Surface` (Extrap1D_Surface_Body.inc:106-137) for an element whose previous value is `v`. -/
def surface (inc down : Bool) (lev st : List ℚ) (ft f : ℚ) (p : Int) (d v : ℚ) : Option ℚ := do
  if ← below inc down lev p d then
    let s ← get st (surfIndex inc lev.length)
    pure (s + ft * f)
  else pure v

/-- `Extrap1D_SurfaceWind` (Extrap1D_SurfaceWind_Body.inc:139-179) for an element whose previous components are `v`. -/
noncomputable def surfaceWind (inc down : Bool) (lev : List ℚ) (hBound nss f angleTop angleMax lat : ℝ) (p : Int) (d : ℚ)
    (v : ℝ × ℝ) : Option (ℝ × ℝ) := do
  if ← below inc down lev p d then
    let top ← get lev (lowIndex inc lev.length)
    let fraction : ℝ := ((top : ℝ) - d) / hBound
    let angle := angleTop + fraction * angleMax * Real.sin lat
    pure (nss * f * Real.cos angle, nss * f * Real.sin angle)
  else pure v

end Verif.SurfExtrap
