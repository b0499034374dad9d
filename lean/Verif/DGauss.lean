import Verif.Gauss

namespace Verif.DGauss

/-! Roots of Legendre polynomials and latitudes of a Gaussian grid (src/base/dgauss.F, src/interp/ez_glat.inc), over the real numbers.
`ORDLEG` (src/base/ordleg.F:50-89) is `ORDLEG8` in single precision: `Gauss.leg`. -/

/-- The first value of the root `j` (dgauss.F:99, 102). -/
noncomputable def guess (n j : Nat) : ℝ :=
  let t := (4 * (j : ℝ) - 1) * Real.pi / (4 * (n : ℝ) + 2)
  Real.cos (t + 1 / (8 * (n : ℝ) ^ 2 * Real.tan t))

/-- `DELTA` (dgauss.F:90-91, 110-118). -/
noncomputable def delta (n : Nat) (x : ℝ) : ℝ :=
  let normn := √(2 / (2 * (n : ℝ) + 1))
  let normnm := √(2 / (2 * (n : ℝ) - 1))
  let pn := normn * Gauss.leg x n
  let pnm := normnm * Gauss.leg x (n - 1)
  let rdpdx := (x ^ 2 - 1) / (n * (x * pn - pnm))
  let d := -pn * rdpdx
  d

/-- The loop of dgauss.F:110-120 with at most `fuel` passes; `none` if it has not ended. -/
noncomputable def refine (n : Nat) : Nat → ℝ → Option ℝ
  | 0, _ => none
  | fuel + 1, x => if |delta n x| > 1 / 10 ^ 6 then refine n fuel (x + delta n x) else some (x + delta n x)

/-- `ROOTS` after the first loop (dgauss.F:92-103); `kase` is 2 for the south, `a` is what was there before. -/
noncomputable def start (n kase : Nat) (a : Nat → ℝ) : Nat → ℝ := fun p =>
  let l := n / 2
  if kase ≠ 2 then (if 1 ≤ p ∧ p ≤ l then guess n p else a p)
  else (if 1 ≤ p - n % 2 ∧ p - n % 2 ≤ l then guess n (p - n % 2 + l + n % 2) else a p)

/-- The second loop (dgauss.F:105-125), the first `i` passes. -/
noncomputable def loop (n fuel : Nat) : Nat → (Nat → ℝ) → Option (Nat → ℝ)
  | 0, a => some a
  | i + 1, a => (loop n fuel i a).bind fun a => (refine n fuel (a (i + 1))).map fun r =>
      Function.update (Function.update a (i + 1) r) (n + 1 - (i + 1)) (-r)

/-- `DGAUSS` (dgauss.F:90-132). -/
noncomputable def dgauss (n kase fuel : Nat) (a : Nat → ℝ) : Option (Nat → ℝ) :=
  (loop n fuel (n / 2) (start n kase a)).map fun a =>
    if n % 2 = 0 then a else Function.update a (if kase ≠ 2 then n / 2 + 1 else 1) 0

/-- `LATROOTS` of `ez_glat` (ez_glat.inc:40-64), where `g` is `GROOTS` after `DGAUSS`; `hem` is 0 for the globe, 1 for the north. -/
noncomputable def glat (nj hem : Nat) (g : Nat → ℝ) (j : Nat) : ℝ :=
  let npoly := if hem ≠ 0 then nj * 2 else nj
  let g' := fun p => if 1 ≤ p ∧ p ≤ npoly then g (npoly + 1 - p) else g p
  let rdtodg := 180 / Real.pi
  if hem ≠ 1 then 90 - rdtodg * Real.arccos (g' j) else 90 - rdtodg * Real.arccos (g' (j + nj))

end Verif.DGauss
