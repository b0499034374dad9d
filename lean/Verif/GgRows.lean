import Mathlib.Data.Rat.Floor

namespace Verif.GgRows

/-! The rows around a place in a Gaussian grid (src/base/sglogg.F:113-185), over the rational numbers, with the sines of the latitudes in
`ROOTS(LJ)` already set. `none`: an element outside `ROOTS` is read. -/

/-- Element of `ROOTS`. -/
def rd (lj : Nat) (roots : Nat → ℚ) (j : Nat) : Option ℚ := if 1 ≤ j ∧ j ≤ lj then some (roots j) else none

/-- The loop at the label 10 (sglogg.F:147-149). -/
def down (lj : Nat) (roots : Nat → ℚ) (mu : ℚ) : Nat → Option Nat
  | 0 => none
  | j + 1 => do
    let r ← rd lj roots (j + 1)
    if r ≥ mu then pure (j + 1) else down lj roots mu j

/-- The loop at the label 15 (sglogg.F:153-155); `fuel` is not less than the number of steps before an element beyond the last is read. -/
def up (lj : Nat) (roots : Nat → ℚ) (mu : ℚ) : Nat → Nat → Option Nat
  | 0, _ => none
  | fuel + 1, jj => do
    let r ← rd lj roots (jj + 1)
    if r < mu then pure jj else up lj roots mu fuel (jj + 1)

/-- `ICASE` (sglogg.F:113-117). -/
def icase (mu r1 r2 rm rn : ℚ) : Nat :=
  let icase : Nat := 0
  let icase := if mu > r1 then 1 else icase
  let icase := if mu ≤ r1 ∧ mu > r2 then 2 else icase
  let icase := if mu ≤ r2 ∧ mu > rm then 3 else icase
  let icase := if mu ≤ rm ∧ mu > rn then 4 else icase
  let icase := if mu ≤ rn then 5 else icase
  icase

/-- `JJ`, `A`, `B`, `C`, `D` (sglogg.F:113-185) for `NPOLY` latitudes; `south` is the term -2 of a global field or 0 of a field of the
northern hemisphere. -/
def locate (lj npoly : Nat) (south : ℚ) (roots : Nat → ℚ) (mu : ℚ) : Option (Nat × ℚ × ℚ × ℚ × ℚ) := do
  let r := rd lj roots
  let r1 ← r 1
  let r2 ← r 2
  let rm ← r (npoly - 1)
  let rn ← r npoly
  let icase := icase mu r1 r2 rm rn
  if icase = 1 then pure (0, 2 - r2, 2 - r1, r1, r2)
  else if icase = 2 then do
    let d ← r 3
    pure (1, 2 - r1, r1, r2, d)
  else if icase = 3 then do
    let jj := min (npoly - 1) (max 2 ⌊0.5 * (1 - mu) * npoly⌋.toNat)
    let jj ← down lj roots mu jj
    let jj ← up lj roots mu lj jj
    let a ← r (jj - 1)
    let b ← r jj
    let c ← r (jj + 1)
    let d ← r (jj + 2)
    pure (jj, a, b, c, d)
  else if icase = 4 then do
    let a ← r (npoly - 2)
    pure (npoly - 1, a, rm, rn, south - rn)
  else pure (npoly, rm, rn, south - rn, south - rm)

end Verif.GgRows
