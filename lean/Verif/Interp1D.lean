import Mathlib.Data.Rat.Floor

/-!
Model of the vertical interpolation package, src/interpv: the search for positions (Interp1D_FindPos_Body.inc), the
four interpolations (Interp1D_NearestNeighbour_Body.inc, Interp1D_Linear_Body.inc, Interp1D_CubicLagrange_Body.inc,
Interp1D_CubicWithDerivs_Body.inc) and three of the extrapolations (Extrap1D_Fixed_Body.inc,
Extrap1D_LapseRate_Body.inc, Extrap1D_Abort_Body.inc).  The surface extrapolations are not modelled.

Reals are rationals, without infinities; every operation of the code is followed by a rounding, `r` for the kind
`real48` of the arguments and `w` for the double precision used inside the cubic routines.  Indices begin at 1; `none`
is a read outside of the array, or, for the interpolations, a call with too few levels, which writes nothing.

The bodies handle all sets and all targets in two loops.  An element of the output depends on its own set and target
and on the order of the levels in the first set only, so that the model has a function for one element (`position`,
`linear`, ...), with the order (`inc`) as an argument.
-/
namespace Verif.Interp1D

/-- Element `k`, from 1, of an array. -/
def get (l : List ℚ) (k : Int) : Option ℚ := if 1 ≤ k then l[(k - 1).toNat]? else none

/-- Test of the order, `vLevelSource(1,2) > vLevelSource(1,1)`, Interp1D_FindPos_Body.inc line 88 (and the same in all
other bodies). -/
def increasing (lev : List (List ℚ)) : Option Bool := do
  let c ← lev.head?
  let a ← get c 1
  let b ← get c 2
  pure (decide (b > a))

/-- The constant 0.95 in single precision, Interp1D_FindPos_Body.inc lines 102 and 128. -/
def lim : ℚ := 15938355 / 2 ^ 24

/-- Body of the loops over the uncertainty, Interp1D_FindPos_Body.inc lines 113-119 and 130-136: new index from the
index and the uncertainty, already halved.  The index is positive, so that its conversion to an integer is `⌊x⌋`. -/
def move (r : ℚ → ℚ) (inc : Bool) (lev : List ℚ) (d u x : ℚ) : Option ℚ := do
  let k := ⌊x⌋
  let a ← get lev k
  let b ← get lev (k + 1)
  if inc then
    let x := if d ≥ a then r (x + u) else x
    pure (if d ≤ b then r (x - u) else x)
  else
    let x := if d ≥ a then r (x - u) else x
    pure (if d ≤ b then r (x + u) else x)

/-- Loops `do while(uncertainty > 0.95)`, Interp1D_FindPos_Body.inc lines 102-120 and 128-137. -/
def search (r : ℚ → ℚ) (inc : Bool) (lev : List ℚ) (d : ℚ) : Nat → ℚ → ℚ → Option ℚ
  | 0, _, _ => none
  | fuel + 1, u, x =>
    if u > lim then
      let u := r (1 / 2 * u)
      match move r inc lev d u x with
      | none => none
      | some x => search r inc lev d fuel u x
    else some x

/-- Position of one target in one set, Interp1D_FindPos_Body.inc lines 79-142; `r` is the rounding of `real`. -/
def position (r : ℚ → ℚ) (inc : Bool) (lev : List ℚ) (d : ℚ) : Option Int :=
  let n : ℚ := lev.length
  (search r inc lev d (lev.length + 1) (r (1 / 2 * r (n - 1))) (r (1 / 2 * r (n + 1)))).map fun x => ⌊x⌋

/-- `Interp1D_FindPos`: the columns of `lev` are the levels of each set, the columns of `dst` the targets of each
set. -/
def findPos (r : ℚ → ℚ) (lev dst : List (List ℚ)) : Option (List (List Int)) := do
  let inc ← increasing lev
  (lev.zip dst).mapM fun (c, ds) => ds.mapM (position r inc c)

/-- The extrapolation switches `extrapEnableDown` and `extrapEnableUp`. -/
structure Enable where
  down : Bool
  up : Bool

/-- `smallestLevel`, Interp1D_Linear_Body.inc lines 73-81. -/
def smallest (inc : Bool) (n : Nat) : Int := if inc then 1 else n

/-- `largestLevel`, the same lines. -/
def largest (inc : Bool) (n : Nat) : Int := if inc then n else 1

/-- Clamping of targets outside of the levels, Interp1D_Linear_Body.inc lines 103-110, Interp1D_CubicLagrange_Body.inc
lines 148-155, Interp1D_CubicWithDerivs_Body.inc lines 191-200. -/
def clamp (inc : Bool) (e : Enable) (lev st : List ℚ) (d v : ℚ) : Option ℚ := do
  let a ← get lev (smallest inc lev.length)
  let b ← get lev (largest inc lev.length)
  if !e.down && decide (d < a) then get st (smallest inc lev.length)
  else if !e.up && decide (d > b) then get st (largest inc lev.length)
  else pure v

/-- Straight line through two points, Interp1D_Linear_Body.inc lines 100-101. -/
def line (r : ℚ → ℚ) (lev1 lev2 s1 s2 d : ℚ) : ℚ :=
  let slope := r (r (s2 - s1) / r (lev2 - lev1))
  r (r (slope * r (d - lev1)) + s1)

/-- `Interp1D_Linear`, Interp1D_Linear_Body.inc lines 67-110, for one element. -/
def linear (r : ℚ → ℚ) (inc : Bool) (e : Enable) (lev st : List ℚ) (p : Int) (d : ℚ) : Option ℚ := do
  if lev.length < 2 then none
  else
    let lev1 ← get lev p
    let s1 ← get st p
    let lev2 ← get lev (p + 1)
    let s2 ← get st (p + 1)
    clamp inc e lev st d (line r lev1 lev2 s1 s2 d)

/-- `Interp1D_NearestNeighbour`, Interp1D_NearestNeighbour_Body.inc lines 76-89, for one element. -/
def nearest (r : ℚ → ℚ) (lev st : List ℚ) (p : Int) (d : ℚ) : Option ℚ := do
  let below ← get lev p
  let above ← get lev (p + 1)
  let sAbove ← get st (p + 1)
  let sBelow ← get st p
  if |r (d - below)| < |r (d - above)| then pure sBelow else pure sAbove

/-- Lagrange polynomial in the form of Newton, Interp1D_CubicLagrange_Body.inc lines 130-146. -/
def newton (w : ℚ → ℚ) (x1 x2 x3 x4 z1 z2 z3 z4 xt : ℚ) : ℚ :=
  let cx1 := w (1 / w (x2 - x1))
  let cx2 := w (1 / w (x3 - x1))
  let cx3 := w (1 / w (x3 - x2))
  let cx4 := w (1 / w (x4 - x1))
  let cx5 := w (1 / w (x4 - x2))
  let cx6 := w (1 / w (x4 - x3))
  let a1 := z1
  let a2 := w (cx1 * w (z2 - z1))
  let a3 := w (cx2 * w (w (cx3 * w (z3 - z2)) - w (cx1 * w (z2 - z1))))
  let a4 := w (cx4 * w (w (cx5 * w (w (cx6 * w (z4 - z3)) - w (cx3 * w (z3 - z2)))) -
    w (cx2 * w (w (cx3 * w (z3 - z2)) - w (cx1 * w (z2 - z1))))))
  w (a1 + w (w (xt - x1) * w (a2 + w (w (xt - x2) * w (a3 + w (a4 * w (xt - x3)))))))

/-- `firstLevel`, Interp1D_CubicLagrange_Body.inc line 115. -/
def firstLevel (n : Nat) (p : Int) : Int := max (min (p - 1) (n - 3)) 1

/-- Lines 118-146 of Interp1D_CubicLagrange_Body.inc when the eight uses of `firstLevel` read the values `f`. -/
def stencil (w : ℚ → ℚ) (lev st : List ℚ) (f : Fin 8 → Int) (d : ℚ) : Option ℚ := do
  let x1 ← get lev (f 0)
  let x2 ← get lev (f 1 + 1)
  let x3 ← get lev (f 2 + 2)
  let x4 ← get lev (f 3 + 3)
  let z1 ← get st (f 4)
  let z2 ← get st (f 5 + 1)
  let z3 ← get st (f 6 + 2)
  let z4 ← get st (f 7 + 3)
  pure (newton w x1 x2 x3 x4 z1 z2 z3 z4 d)

/-- `Interp1D_CubicLagrange`, Interp1D_CubicLagrange_Body.inc lines 87-155, for one element computed by a single
thread. -/
def lagrange (r w : ℚ → ℚ) (inc : Bool) (e : Enable) (lev st : List ℚ) (p : Int) (d : ℚ) : Option ℚ := do
  if lev.length < 4 then none
  else
    let v ← stencil w lev st (fun _ => firstLevel lev.length p) d
    clamp inc e lev st d (r v)

/-- State and derivative between two levels, Interp1D_CubicWithDerivs_Body.inc lines 154-189. -/
def hermite (w : ℚ → ℚ) (below above sb0 sa0 sb1 sa1 d : ℚ) : ℚ × ℚ :=
  let centre := w (1 / 2 * w (below + above))
  let deltaLIn2 := w (above - below)
  let over := w (1 / deltaLIn2)
  let deltaLTar := w (d - centre)
  let diff := w (w (w (1 / 8 * deltaLIn2) * deltaLIn2) - w (w (1 / 2 * deltaLTar) * deltaLTar))
  let sc0 := w (1 / 2 * w (sa0 + sb0))
  let sc1 := w (w (sa0 - sb0) * over)
  let sc2 := w (w (sa1 - sb1) * over)
  let sc3 := w (w (w (w (sa1 - sc1) - w (sc1 - sb1)) * over) * over)
  let st2 := w (sc2 + w (w (2 * deltaLTar) * sc3))
  let st1 := w (sc1 + w (deltaLTar * st2))
  let st0 := w (sc0 + w (deltaLTar * sc1))
  (w (st0 - w (diff * st2)), w (st1 - w (w (2 * diff) * sc3)))

/-- `Interp1D_CubicWithDerivs`, Interp1D_CubicWithDerivs_Body.inc lines 128-200, for one element: state and
derivative. -/
def cubicWithDerivs (r w : ℚ → ℚ) (inc : Bool) (e : Enable) (lev st dv : List ℚ) (p : Int) (d : ℚ) :
    Option (ℚ × ℚ) := do
  if lev.length < 2 then none
  else
    let below ← get lev p
    let above ← get lev (p + 1)
    let sb0 ← get st p
    let sa0 ← get st (p + 1)
    let sb1 ← get dv p
    let sa1 ← get dv (p + 1)
    let v := hermite w below above sb0 sa0 sb1 sa1 d
    let s ← clamp inc e lev st d (r v.1)
    let t ← clamp inc e lev dv d (r v.2)
    pure (s, t)

/-- `lowestPossiblePosn`, Extrap1D_LapseRate_Body.inc lines 75-87 (and the same in the other bodies). -/
def lowestPosn (inc : Bool) (n : Nat) : Int := if inc then 1 else n - 1

/-- `highestPossiblePosn`, the same lines. -/
def highestPosn (inc : Bool) (n : Nat) : Int := if inc then n - 1 else 1

/-- Where an extrapolation decides that a target lies. -/
inductive Side where
  | below
  | above
  | inside
deriving DecidableEq

/-- The tests of the extrapolations, Extrap1D_LapseRate_Body.inc lines 97-115, Extrap1D_Fixed_Body.inc lines 85-97,
Extrap1D_Abort_Body.inc lines 74-90. -/
def side (inc : Bool) (e : Enable) (lev : List ℚ) (p : Int) (d : ℚ) : Option Side := do
  if e.down && p == lowestPosn inc lev.length then
    let a ← get lev (smallest inc lev.length)
    pure (if d < a then .below else .inside)
  else if e.up && p == highestPosn inc lev.length then
    let b ← get lev (largest inc lev.length)
    pure (if d > b then .above else .inside)
  else pure .inside

/-- `Extrap1D_Fixed`, Extrap1D_Fixed_Body.inc lines 63-97, for one element whose previous value is `v`. -/
def fixed (inc : Bool) (e : Enable) (lev : List ℚ) (down up : ℚ) (p : Int) (d v : ℚ) : Option ℚ := do
  match ← side inc e lev p d with
  | .below => pure down
  | .above => pure up
  | .inside => pure v

/-- `Extrap1D_LapseRate`, Extrap1D_LapseRate_Body.inc lines 75-115, for one element whose previous value is `v`. -/
def lapseRate (r : ℚ → ℚ) (inc : Bool) (e : Enable) (lev st : List ℚ) (down up : ℚ) (p : Int) (d v : ℚ) :
    Option ℚ := do
  match ← side inc e lev p d with
  | .below => do
    let s ← get st (smallest inc lev.length)
    let a ← get lev (smallest inc lev.length)
    pure (r (s + r (down * r (d - a))))
  | .above => do
    let s ← get st (largest inc lev.length)
    let b ← get lev (largest inc lev.length)
    pure (r (s + r (up * r (d - b))))
  | .inside => pure v

/-- `Extrap1D_Abort`, Extrap1D_Abort_Body.inc lines 52-90, for one element: `true` is a call of `exit`. -/
def abort (inc : Bool) (e : Enable) (lev : List ℚ) (p : Int) (d : ℚ) : Option Bool := do
  let s ← side inc e lev p d
  pure (s != .inside)

/-!
Threads of `Interp1D_CubicLagrange`.  The loop over targets is a parallel loop of OpenMP, and the list of private
variables of its directive, Interp1D_CubicLagrange_Body.inc line 110, does not hold `firstLevel`.  The threads share
this variable: each element writes it once (line 115) and then reads it eight times (lines 118-127).
-/

/-- A thread at work on one element: the value it writes, whether it has written, and the values it has read. -/
structure Thread where
  own : Int
  wrote : Bool
  reads : List Int

/-- The shared variable and the threads. -/
structure Shared where
  first : Int
  threads : List Thread

/-- The next access of thread `t`. -/
def access (s : Shared) (t : Nat) : Shared :=
  match s.threads[t]? with
  | none => s
  | some h =>
    if h.wrote then
      if h.reads.length < 8 then { s with threads := s.threads.set t { h with reads := h.reads ++ [s.first] } } else s
    else { first := h.own, threads := s.threads.set t { h with wrote := true } }

/-- Run of threads in the order of a schedule. -/
def runThreads (s : Shared) (schedule : List Nat) : Shared := schedule.foldl access s

/-- Value that thread `t` computes for its element once it has done its eight reads (before clamping). -/
def threadValue (w : ℚ → ℚ) (lev st : List ℚ) (s : Shared) (t : Nat) (d : ℚ) : Option ℚ := do
  let h ← s.threads[t]?
  if h.reads.length = 8 then stencil w lev st (fun i => h.reads.getD i 0) d else none

end Verif.Interp1D
