import Mathlib.Algebra.Order.Ring.Int
/-! # Random numbers (`src/base/nr_rand.f`)

Integers are not bounded; `C135_range` shows that with seeds up to 161803398 none is beyond 1000000000. -/

namespace Verif.NrRand

/-- The variables that are saved; `iff = 0` is `used = false` (nr_rand.f:24-36). -/
structure St where
  used : Bool
  iseed : Int
  inext : Nat
  inextp : Nat
  ma : Nat → Int

/-- At the start (nr_rand.f:35-36); `ma`, `inext` and `inextp` have no value yet. -/
def start (inext inextp : Nat) (ma : Nat → Int) : St := ⟨false, -1, inext, inextp, ma⟩

/-- `nr_rand_seed` (nr_rand.f:38-40). -/
def seed (s : St) (idum : Int) : St := { s with iseed := idum }

/-- An array changed at one place. -/
def upd (f : Nat → Int) (t : Nat) (v : Int) : Nat → Int := fun u => if u = t then v else f u

/-- `if (x .lt. MZ) x = x + MBIG` (nr_rand.f:54, 60, 72). -/
def wrap (x : Int) : Int := if x < 0 then x + 1000000000 else x

/-- One turn of the loop 11 (nr_rand.f:50-56): `ma`, `mj`, `mk`. -/
def fill (s : (Nat → Int) × Int × Int) (i : Nat) : (Nat → Int) × Int × Int :=
  let ii := 21 * i % 55
  let ma := upd s.1 ii s.2.2
  (ma, ma ii, wrap (s.2.1 - s.2.2))

/-- One turn of the loop 12 (nr_rand.f:58-61). -/
def warm (ma : Nat → Int) (i : Nat) : Nat → Int := upd ma i (wrap (ma i - ma (1 + (i + 30) % 55)))

/-- `mj` at the beginning (nr_rand.f:46-47). -/
def first (iseed : Int) : Int := (161803398 - |iseed|).tmod 1000000000

/-- The table before and after the loops 13 and 12 (nr_rand.f:46-62). -/
def table (ma : Nat → Int) (iseed : Int) : Nat → Int :=
  ((List.range' 1 54).foldl fill (upd ma 55 (first iseed), first iseed, 1)).1

def mixed (ma : Nat → Int) : Nat → Int := (List.range 4).foldl (fun m _ => (List.range' 1 55).foldl warm m) ma

/-- The beginning of `nr_rand_i` (nr_rand.f:44-66). -/
def prep (s : St) : St :=
  if s.iseed < 0 ∨ s.used = false then ⟨true, 1, 0, 31, mixed (table s.ma s.iseed)⟩ else s

/-- `nr_rand_i` (nr_rand.f:44-75). -/
def next (s : St) : Int × St :=
  let s := prep s
  let inext := if s.inext + 1 = 56 then 1 else s.inext + 1
  let inextp := if s.inextp + 1 = 56 then 1 else s.inextp + 1
  let mj := wrap (s.ma inext - s.ma inextp)
  (mj, { s with inext := inext, inextp := inextp, ma := upd s.ma inext mj })

/-- The calls of a program. -/
inductive Op where
  | seed (idum : Int)
  | next
deriving DecidableEq, Repr

/-- The numbers returned by `nr_rand_i`. -/
def numbers : St → List Op → List Int
  | _, [] => []
  | s, .seed v :: l => numbers (seed s v) l
  | s, .next :: l => (next s).1 :: numbers (next s).2 l

/-- The state after `n` calls of `nr_rand_i`, and the number of the call after them. -/
def after (s : St) : Nat → St
  | 0 => s
  | n + 1 => (next (after s n)).2

def nth (s : St) (n : Nat) : Int := (next (after s n)).1

end Verif.NrRand
