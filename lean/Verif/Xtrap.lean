import Mathlib.Data.Rat.Floor

namespace Verif.Xtrap

/-! Extrapolation by `ez_xtrap` (src/interp/ez_xtrap.inc); rational numbers for `real`. -/

/-- `ifix`: the part before the point (ez_xtrap.inc:58-59). -/
def ifix (x : Rat) : Int := if 0 ≤ x then ⌊x⌋ else ⌈x⌉

/-- `nint`: the nearest integer, halves away from zero (ez_xtrap.inc:61-62). -/
def nint (x : Rat) : Int := if 0 ≤ x then ⌊x + 1 / 2⌋ else ⌈x - 1 / 2⌉

/-- The grid `z(ni,nj)` in the order of the loops (ez_xtrap.inc:44-45). -/
def values (z : Nat → Nat → Rat) (ni nj : Nat) : List Rat :=
  (List.range nj).flatMap fun j => (List.range ni).map fun i => z (i + 1) (j + 1)

/-- Smallest and largest value (ez_xtrap.inc:41-49). -/
def extremes (z : Nat → Nat → Rat) (ni nj : Nat) : Rat × Rat :=
  (values z ni nj).foldl (fun a v => (if v < a.1 then v else a.1, if v > a.2 then v else a.2)) (z 1 1, z 1 1)

/-- The limits with a margin of a twentieth of the range (ez_xtrap.inc:51-54). -/
def limits (z : Nat → Nat → Rat) (ni nj : Nat) : Rat × Rat :=
  let r := extremes z ni nj
  (r.1 - 1 / 20 * (r.2 - r.1), r.2 + 1 / 20 * (r.2 - r.1))

/-- One point of the code `voisin` (ez_xtrap.inc:58-64). -/
def neighbour (z : Nat → Nat → Rat) (ni nj : Nat) (px py old : Rat) : Rat :=
  let i := ifix px
  let j := ifix py
  if i < 1 ∨ j < 1 ∨ i > ni ∨ j > nj then
    z (min (ni : Int) (max 1 (nint px))).toNat (min (nj : Int) (max 1 (nint py))).toNat
  else old

/-- `ez_xtrap` (ez_xtrap.inc:20-87): the points with their values before the call; codes of ez_qqqxtrp.cdk:1-11. -/
def ezXtrap (z : Nat → Nat → Rat) (ni nj : Nat) (cod : Int) (val : Rat) (pts : List (Rat × Rat × Rat)) : List Rat :=
  let r := limits z ni nj
  pts.map fun p =>
    if cod = 0 then neighbour z ni nj p.1 p.2.1 p.2.2
    else if cod = 5 then r.1
    else if cod = 4 then r.2
    else if cod = 6 then val
    else p.2.2

end Verif.Xtrap
