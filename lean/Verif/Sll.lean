import Mathlib.Data.Rat.Floor

namespace Verif.Sll

/-! Interpolation in a regular grid (src/base/sll.F, src/base/sps.F), over the rational numbers; the decimals of cubic.cdk for 1/6 and
1/3 are taken as these numbers. -/

/-- Element of `F(LI,LJ)`. -/
def get (li lj : Int) (F : Int → Int → ℚ) (i j : Int) : Option ℚ := if 1 ≤ i ∧ i ≤ li ∧ 1 ≤ j ∧ j ≤ lj then some (F i j) else none

/-- Assignment of a real to an integer. -/
def trunc (x : ℚ) : Int := if 0 ≤ x then ⌊x⌋ else ⌈x⌉

/-- `NINT`. -/
def nint (x : ℚ) : Int := if 0 ≤ x then ⌊x + 1 / 2⌋ else ⌈x - 1 / 2⌉

/-- `CUBIC` (cubic.cdk). -/
def cubic (z1 z2 z3 z4 dx : ℚ) : ℚ :=
  ((((z4 - z1) * (1 / 6) + 0.5 * (z2 - z3)) * dx + 0.5 * (z1 + z3) - z2) * dx + z3 - 1 / 6 * z4 - 0.5 * z2 - 1 / 3 * z1) * dx + z2

/-- `ZLIN` (cubic.cdk). -/
def zlin (a b dx : ℚ) : ℚ := a + (b - a) * dx

/-- `TRIPRD` (lagrange.cdk). -/
def triprd (y1 y2 y3 y4 : ℚ) : ℚ := (y1 - y2) * (y1 - y3) * (y1 - y4)

/-- `DELTA` (lagrange.cdk). -/
def delta (y ya yb yc yd : ℚ) : ℚ := triprd y yb yc yd / triprd ya yb yc yd

/-- `POLY` (lagrange.cdk). -/
def poly (v1 v2 v3 v4 z z1 z2 z3 z4 : ℚ) : ℚ :=
  v1 * delta z z1 z2 z3 z4 + v2 * delta z z2 z1 z3 z4 + v3 * delta z z3 z1 z2 z4 + v4 * delta z z4 z1 z2 z3

/-- Four values at the offsets -1 to 2 put into a function. -/
def four (f : Int → Option ℚ) (g : ℚ → ℚ → ℚ → ℚ → ℚ) : Option ℚ := do
  let a ← f (-1)
  let b ← f 0
  let c ← f 1
  let d ← f 2
  pure (g a b c d)

/-- `SLL` and `SPS` from the place `X`, `Y` in the grid on (sll.F:69-138, sps.F:75-144). -/
def kernel (ordint : Int) (li lj : Int) (F : Int → Int → ℚ) (x y : ℚ) : Option ℚ :=
  let at' := get li lj F
  if ordint = 0 then
    at' (max 1 (min (nint x) li)) (max 1 (min (nint y) lj))
  else if ordint = 1 then do
    let i := max 1 (min (trunc x) (li - 1))
    let j := max 1 (min (trunc y) (lj - 1))
    let a ← at' i j
    let b ← at' (i + 1) j
    let c ← at' i (j + 1)
    let d ← at' (i + 1) (j + 1)
    pure (zlin (zlin a b (x - i)) (zlin c d (x - i)) (y - j))
  else
    let i := min (max (trunc x) 2) (li - 2)
    let j := min (max (trunc y) 2) (lj - 2)
    let dx := x - i
    let dy := y - j
    let polyx := fun a b c d => poly a b c d x (i - 1) i (i + 1) (i + 2)
    let polyy := fun a b c d => poly a b c d y (j - 1) j (j + 1) (j + 2)
    let cubx := fun a b c d => cubic a b c d dx
    let cuby := fun a b c d => cubic a b c d dy
    if x < 2 ∨ x > li - 1 then
      if y < 2 ∨ y > lj - 1 then four (fun a => four (fun b => at' (i + a) (j + b)) polyy) polyx
      else four (fun a => four (fun b => at' (i + a) (j + b)) cuby) polyx
    else if y < 2 ∨ y > lj - 1 then four (fun b => four (fun a => at' (i + a) (j + b)) cubx) polyy
    else four (fun b => four (fun a => at' (i + a) (j + b)) cubx) cuby

/-- `SLL` (sll.F:66-138): the value and the new content of the common variable `ORDINT`. -/
def sll (_common : Int) (lambda phi : ℚ) (li lj : Int) (F : Int → Int → ℚ) (xla0 xlo0 dlat dlon : ℚ) : Option ℚ × Int :=
  let common := 3
  (kernel common li lj F (1 + (lambda - xlo0) / dlon) (1 + (90 - phi - xla0) / dlat), common)

/-- `SPS` (sps.F:71-144) at the place `x`, `y` which `XYFLL` gives. -/
def sps (_common : Int) (x y pi pj : ℚ) (li lj : Int) (F : Int → Int → ℚ) : Option ℚ × Int :=
  let common := 3
  (kernel common li lj F (x + pi) (y + pj), common)

/-- The entry `SLC` (sps.F:148-150, 73-144) at the place `x`, `y` which `XYFLCC` gives. -/
def slc (common : Int) (x y pi pj : ℚ) (li lj : Int) (F : Int → Int → ℚ) : Option ℚ × Int :=
  (kernel common li lj F (x + pi) (y + pj), common)

end Verif.Sll
