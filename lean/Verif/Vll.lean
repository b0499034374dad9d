import Verif.Sll
import Mathlib.Analysis.SpecialFunctions.Complex.Arg

namespace Verif.Vll

/-! Interpolation of a wind in a latitude-longitude grid (src/base/vll.F). The components are rational numbers, speed and direction real
numbers; `DGTORD` is π/180 and `RDTODG` 180/π. -/

open Verif.Sll

/-- `VLL` from the components on (vll.F:63-72): `S` and `PSI`. -/
noncomputable def direction (lambda ufin vfin : ℝ) : ℝ × ℝ :=
  let s := √(ufin ^ 2 + vfin ^ 2)
  let ss := 0 - Real.sin (lambda * (Real.pi / 180))
  let cc := Real.cos (lambda * (Real.pi / 180))
  let uf := ss * ufin - cc * vfin
  let vf := cc * ufin + ss * vfin
  let psi := if s ≠ 0 then 180 / Real.pi * Complex.arg ⟨uf, vf⟩ else 99999
  let psi := if psi < 0 then psi + 360 else psi
  (s, psi)

/-- `VLL` (vll.F:23-76). -/
noncomputable def vll (common : Int) (lambda phi : ℚ) (U V : Int → Int → ℚ) (li lj : Int) (xla0 xlo0 dlat dlon : ℚ) : Option (ℝ × ℝ) := do
  let u ← (sll common lambda phi li lj U xla0 xlo0 dlat dlon).1
  let v ← (sll common lambda phi li lj V xla0 xlo0 dlat dlon).1
  pure (direction lambda u v)

end Verif.Vll
