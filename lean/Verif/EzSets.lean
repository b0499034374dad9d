/-
Pairs of input and output grids of the interpolation package: the table of input grids
(`gset`) of an output grid, `src/interp/ezdefset.c`, `ez_find_gdin.c`, `ez_find_gdin_in_gset.c`.
-/

namespace Verif.EzSets

/-- ez_statics.c:19 -/
def primes : List Nat := [0, 0, 3, 7, 13, 31, 61, 127, 251, 509, 1021, 2039, 4093]

/-- Ways to get no answer: access outside of a table, an endless loop. -/
inductive Fault
  | outside
  | hang
deriving DecidableEq, Repr

def prime (log : Nat) : Except Fault Nat :=
  match primes[log]? with
  | some p => .ok p
  | none => .error .outside

/-- The fields of an output grid (ez_def.h:201-231) that are used here. A place of `gset` is `none`
where `gdin` is -1; the coordinates in it move with `gdin` (line 197 and 205 copy it as a whole).
`last` is `idx_last_gdin`. -/
structure Out where
  gset : List (Option Nat)
  log : Nat
  n : Nat
  last : Int
deriving DecidableEq, Repr

/-- Reading `gset[i].gdin`; the null pointer is the empty table. -/
def read (t : List (Option Nat)) (i : Int) : Except Fault (Option Nat) :=
  if 0 ≤ i then
    match t[i.toNat]? with
    | some v => .ok v
    | none => .error .outside
  else .error .outside

/-- The loops of ezdefset.c:102-120, ez_find_gdin_in_gset.c:22-38 and ez_find_gdin.c:29-38: from
place `i` on to an empty place, to place `stop` or to the grid `g`; `wrap` is the number in the test for
the end of the table. The loop is endless after more steps than there are places. -/
def scan (t : List (Option Nat)) (g wrap : Nat) (stop : Int) : Nat → Nat → Except Fault (Nat × Bool)
  | 0, _ => .error .hang
  | fuel + 1, i =>
    if (i : Int) = stop then .ok (i, false)
    else do
      match ← read t i with
      | none => .ok (i, false)
      | some h =>
        if g = h then .ok (i, true)
        else scan t g wrap stop fuel (if (i + 1) % wrap = 0 then 0 else i + 1)

/-- ezdefset.c:202-214 -/
def rescan (t : List (Option Nat)) (size : Nat) : Nat → Nat → Except Fault Nat
  | 0, _ => .error .hang
  | fuel + 1, i => do
    match ← read t i with
    | none => .ok i
    | some _ => rescan t size fuel (if (i + 1) % size = 0 then 0 else i + 1)

/-- ezdefset.c:195-215 -/
def reinsert (size : Nat) (t : List (Option Nat)) (g : Nat) : Except Fault (List (Option Nat)) := do
  let i := g % size
  match ← read t i with
  | none => .ok (t.set i (some g))
  | some _ =>
    let j ← rescan t size (size + 1) (i + 1)
    .ok (t.set j (some g))

/-- ezdefset.c:193-217 -/
def refill (size : Nat) : List (Option Nat) → List (Option Nat) → Except Fault (List (Option Nat))
  | [], t => .ok t
  | none :: old, t => refill size old t
  | some g :: old, t => do
    let t ← reinsert size t g
    refill size old t

/-- ezdefset.c:174-221 `reallocate_gridset_table` -/
def reallocate (o : Out) : Except Fault Out := do
  let size ← prime (o.log + 1)
  let t ← refill size o.gset (List.replicate size none)
  .ok { o with gset := t, log := o.log + 1 }

/-- ezdefset.c:38-171 `c_ezdefset` for valid numbers of grids, without the list of output grids that
the input grid keeps (lines 142-162). Lines 75-87 are not reached: there would have to be 4093
input grids, but see `C75_limit`. -/
def defset (o : Out) (g : Nat) : Except Fault Out := do
  let o := if o.n = 0 then { o with gset := List.replicate 127 none, log := 7 } else o
  let p ← prime o.log
  let home := g % p
  if (← read o.gset home) = some g then .ok o
  else
    let (i, found) ← scan o.gset g p ((home : Int) - 1) (o.gset.length + 1) home
    if found then .ok { o with last := g }
    else
      let o := { o with gset := o.gset.set i (some g), n := o.n + 1 }
      if o.n ≥ p / 2 then reallocate o else .ok o

/-- ez_find_gdin_in_gset.c:4-40 -/
def findIn (o : Out) (g : Nat) : Except Fault Int := do
  let p ← prime o.log
  let home := g % p
  if (← read o.gset home) = some g then .ok home
  else
    let (i, found) ← scan o.gset g 127 ((home : Int) - 1) (o.gset.length + 1) home
    .ok (if found then (i : Int) else -1)

/-- ez_find_gdin.c:6-46 `c_find_gdin` -/
def find (o : Out) (g : Nat) : Except Fault (Out × Int) := do
  let (o, idx) ← if o.last = -1 then do
      let o ← defset o g
      let p ← prime o.log
      .ok (o, ((g % p : Nat) : Int))
    else .ok (o, o.last)
  if (← read o.gset idx) = some g then .ok (o, idx)
  else
    let home := g % 127
    if (← read o.gset home) = some g then .ok (o, (home : Int))
    else
      let p ← prime o.log
      let (i, found) ← scan o.gset g p home (o.gset.length + 1) (home + 1)
      if found then .ok ({ o with last := i }, (i : Int)) else .ok (o, -1)

end Verif.EzSets
