import Verif.Idxes
import Verif.Sll

namespace Verif.Sglo

/-! Interpolation in a global or hemispheric grid (src/base/sglo.F), over the rational numbers. `none`: the call is aborted or an element
outside the field is read. -/

open Verif.Idxes Verif.Sll

/-- The sum over a circle (sglo.F:141-145). -/
def sumRow (li lj : Int) (F : Int → Int → ℚ) (j : Int) : Nat → Option ℚ
  | 0 => some 0
  | n + 1 => do
    let s ← sumRow li lj F j n
    let v ← get li lj F (n + 1) j
    pure (s + v)

/-- The value at a pole (sglo.F:135-148). -/
def pole (k : Kase) (sign : ℚ) (phi : ℚ) (F : Int → Int → ℚ) (li lj : Int) : Option ℚ := do
  let south := decide (phi > 90) && decide (k = .global)
  let j1 := if south then lj else 1
  let j2 := if south then lj - 1 else 2
  let s1 ← sumRow li lj F j1 li.toNat
  let s2 ← sumRow li lj F j2 li.toNat
  let v := (s1 * 1.125 - s2 * 0.125) / li
  pure (if k = .north ∧ phi > 90 then sign * v else v)

/-- The interpolation proper (sglo.F:177-211) at the distances `dx`, `dy` from the point `i`, `j`. -/
def interp (k : Kase) (sign : ℚ) (ordint : Int) (F : Int → Int → ℚ) (li lj i j : Int) (dx dy : ℚ) : Option ℚ :=
  let p := fun ii jj => get li lj F (idx i j li lj k ii jj) (jdx i j li lj k jj).natAbs
  let s := fun jj (v : ℚ) => if jdx i j li lj k jj < 0 then sign * v else v
  if ordint = 0 then (p (nint (dx + 2)) (nint (dy + 2))).map (s (nint (dy + 2)))
  else if ordint = 1 then do
    let a ← p 2 2
    let b ← p 3 2
    let c ← p 2 3
    let d ← p 3 3
    pure (zlin (s 2 (zlin a b dx)) (s 3 (zlin c d dx)) dy)
  else
    four (fun ii => four (fun jj => (p (ii + 2) (jj + 2)).map (s (jj + 2))) (fun a b c d => cubic a b c d dy)) (fun a b c d => cubic a b c d dx)

/-- `SGLO` (kase global), `SSNH` (kase north, sign 1) and `SANH` (kase north, sign -1) (sglo.F:100-212). -/
def sglo (k : Kase) (sign : ℚ) (ordint : Int) (lambda phi : ℚ) (F : Int → Int → ℚ) (li lj : Int) : Option ℚ :=
  if ¬(0 ≤ phi ∧ phi ≤ 180 ∧ -180 ≤ lambda ∧ lambda < 360 ∧ 4 ≤ li ∧ 4 ≤ lj ∧ li * lj < 70000) then none
  else if ¬(phi > 1 / 10 ^ 8 ∧ phi < 180 - 1 / 10 ^ 8) then pole k sign phi F li lj
  else
    let offset : ℚ := 90 / lj
    let offset := if k ≠ .global then 0.5 * offset else offset
    let delphi := 2 * offset
    let dellam : ℚ := 360 / li
    let long := if lambda < 0 then 360 + lambda else lambda
    let xi := 1 + long / dellam
    let yj := 1 + (phi - offset) / delphi
    interp k sign ordint F li lj (trunc xi) (trunc yj) (xi - trunc xi) (yj - trunc yj)

end Verif.Sglo
