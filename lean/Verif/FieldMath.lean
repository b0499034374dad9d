import Mathlib.Algebra.Field.Rat
import Mathlib.Data.Rat.Defs

/-! # Squares of fields, map scale, Coriolis parameter

Model of src/base/sqadsq.f, src/base/mscale.f and src/base/coriol.f over the rational numbers.  The arrays of `SQADSQ` are
places in one memory, for they may coincide. -/

namespace Verif.FieldMath

/-- The numbers from `lo` to `hi` of a loop. -/
def upto (lo hi : ℤ) : List ℤ := (List.range (hi + 1 - lo).toNat).map fun k : ℕ => lo + (k : ℤ)

/-- A loop body (sqadsq.f:92, 97) at offset `o`: the arrays begin at `r`, `a` and `b`. -/
def cell (cona conb : ℚ) (r a b : ℤ) (m : ℤ → ℚ) (o : ℤ) : ℤ → ℚ := fun x =>
  if x = r + o then
    if cona = 1 ∧ conb = 1 then m (a + o) * m (a + o) + m (b + o) * m (b + o)
    else cona * m (a + o) ^ 2 + conb * m (b + o) ^ 2
  else m x

/-- The offsets in the order of the loops (sqadsq.f:81-92). -/
def offsets (ni nj nb : ℤ) : List ℤ :=
  let il := 1 + nb.tdiv 1000
  let jb := 1 + (nb.tmod 1000).tdiv 100
  let ir := if nb = 0 then ni * nj else ni - (nb.tmod 100).tdiv 10
  let jt := if nb = 0 then 1 else nj - nb.tmod 10
  (upto jb jt).flatMap fun j => (upto il ir).map fun i => (i - 1) + (j - 1) * ni

/-- `SQADSQ` (sqadsq.f:24-103). -/
def sqadsq (cona conb : ℚ) (r a b : ℤ) (ni nj nb : ℤ) (m : ℤ → ℚ) : ℤ → ℚ :=
  (offsets ni nj nb).foldl (cell cona conb r a b) m

/-- `RE2` (mscale.f:68-69, coriol.f:65-66). -/
def re2 (d60 : ℚ) : ℚ := (1866025 / 1000000 * 6371000 / d60) * (1866025 / 1000000 * 6371000 / d60)

/-- `R2` (mscale.f:73-77, coriol.f:69-74). -/
def r2 (pi pj : ℚ) (i j : ℤ) : ℚ :=
  let y := (j : ℚ) - pj
  let x := (i : ℚ) - pi
  x * x + y * y

/-- `MSCALE` (mscale.f:22-84). -/
def mscale (d60 pi pj : ℚ) (i j : ℤ) : ℚ := 1866025 / 1000000 / (2 * re2 d60) * (r2 pi pj i j + re2 d60)

/-- `CORIOL` (coriol.f:61-81). -/
def coriol (d60 pi pj : ℚ) (i j : ℤ) : ℚ := 1458 / 10000000 * (re2 d60 - r2 pi pj i j) / (re2 d60 + r2 pi pj i j)

end Verif.FieldMath
