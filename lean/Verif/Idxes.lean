/-! # The sixteen points around a place on a sphere

Model of src/base/idxes.F. -/

namespace Verif.Idxes

inductive Kase where
  | global
  | north
  | south
deriving DecidableEq

/-- The intrinsic `ISIGN`. -/
def isign (a b : Int) : Int := if 0 ≤ b then a.natAbs else -a.natAbs

/-- The message of idxes.F:80-83. -/
def wrong (i j li lj : Int) (k : Kase) : Bool :=
  let ljj := if k = .north then 2 * lj else lj
  !(decide (0 < i ∧ i ≤ li ∧ 0 ≤ j ∧ j ≤ ljj))

/-- No pole and no Greenwich (idxes.F:86). -/
def range (i j li lj : Int) : Bool := decide (1 < i ∧ i < li - 1 ∧ 1 < j ∧ j < lj - 1)

/-- Whether row `jd` is beyond a pole (idxes.F:110-115). -/
def beyond (jd lj : Int) (k : Kase) : Bool :=
  if 0 < jd ∧ jd ≤ lj then false
  else if k = .north ∧ 0 < jd then false
  else if k = .south ∧ jd ≤ lj then false
  else true

/-- `IDX(II,JJ)` (idxes.F:93-98, 119-127). -/
def idx (i j li lj : Int) (k : Kase) (ii jj : Int) : Int :=
  let c := i - 2 + ii
  if range i j li lj then c
  else
    let c := if beyond (j - 2 + jj) lj k then c + li.tdiv 2 else c
    let c := if c < 1 then c + li else c
    if li < c then c - li else c

/-- `JDX(JJ)` (idxes.F:87-98, 129-132). -/
def jdx (i j li lj : Int) (k : Kase) (jj : Int) : Int :=
  let isgn : Int := if k = .south then -1 else 1
  let jsgn : Int := if k = .north then -1 else 1
  let d := j - 2 + jj
  if range i j li lj then d
  else
    let d := if d < 1 then isign (1 - d) isgn else d
    if lj < d then isign (2 * lj + 1 - d) jsgn else d

end Verif.Idxes
