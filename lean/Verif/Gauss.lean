import Verif.OrdLeg

namespace Verif.Gauss

/-! Gaussian latitudes and weights (src/spectral/gauss8.F), over the real numbers, with the polynomials of `Verif.OrdLeg`. -/

open Verif.OrdLeg

/-- `ORDLEG8` as called here: the wave number is not 0. -/
noncomputable def leg (x : ℝ) (n : Nat) : ℝ := ordleg8 x n (0, 0)

/-- The first value of `RACP(I)` (gauss8.F:59, 70-74). -/
noncomputable def first (nracp i : Nat) : ℝ :=
  let pis2 := Real.pi / 2
  Real.sin (-pis2 * (((i : ℝ) - 1) + 0.5) / nracp + pis2)

/-- `GT` (gauss8.F:79-84, 95-97). -/
noncomputable def slope (nracp : Nat) (x : ℝ) : ℝ :=
  let ir := 2 * nracp
  let fi : ℝ := ir
  let fi1 : ℝ := fi + 1
  let dn := fi / √(4 * fi * fi - 1)
  let dn1 := fi1 / √(4 * fi1 * fi1 - 1)
  let a := dn1 * fi
  let b := dn * fi1
  (a * leg x (ir + 1) - b * leg x (ir - 1)) / (x * x - 1)

/-- The new `RACP(I)` (gauss8.F:98, 100). -/
noncomputable def step (nracp : Nat) (x : ℝ) : ℝ := x - leg x (2 * nracp) / slope nracp x

/-- The loop of gauss8.F:94-101 with at most `fuel` passes; `none` if it has not ended. -/
noncomputable def newton (nracp : Nat) : Nat → ℝ → Option ℝ
  | 0, _ => none
  | fuel + 1, x => if |x - step nracp x| > 1 / 10 ^ 13 then newton nracp fuel (step nracp x) else some (step nracp x)

/-- The weight `PG(I)` (gauss8.F:112-115). -/
noncomputable def weight (nracp : Nat) (x : ℝ) : ℝ :=
  let fi : ℝ := (2 * nracp : ℕ)
  let b := leg x (2 * nracp - 1)
  2 * (1 - x ^ 2) * (fi - 0.5) / (b * b * fi * fi)

/-- `RAD`, `SIA`, `SINM1`, `SINM2`, `PGSSIN2`, `SIN2` (gauss8.F:116-122). -/
noncomputable def others (x pg : ℝ) : ℝ × ℝ × ℝ × ℝ × ℝ × ℝ :=
  let rad := Real.arccos x
  let sia := Real.sin rad
  let c := sia ^ 2
  (rad, sia, 1 / sia, 1 / c, pg / c, c)

end Verif.Gauss
