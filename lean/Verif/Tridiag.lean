import Mathlib.Data.Rat.Defs
import Mathlib.Tactic.Ring.RingNF

/-! # Tri-diagonal systems (`src/base/rossr3.f`)

Reals are rational numbers: rounding is left out.  The arrays are parts of one memory, so that two of the arguments
may be the same array, as the comments of the subroutine propose. -/

namespace Verif.Tridiag

/-- A memory of reals. -/
abbrev Mem := Nat → ℚ

/-- An assignment. -/
def set (m : Mem) (k : Nat) (v : ℚ) : Mem := fun j => if j = k then v else m j

/-- One turn of the first loop (rossr3.f:101-105); a division by zero has no result.  Indices begin at 0. -/
def step (p a e c d : Nat) (m : Mem) (i : Nat) : Option Mem :=
  let t := 1 + m (a + (i + 1)) * m (p + i)
  if t = 0 then none
  else
    let m := set m (p + (i + 1)) (-m (c + (i + 1)) * (1 / t))
    some (set m (e + (i + 1)) ((m (d + (i + 1)) - m (a + (i + 1)) * m (e + i)) * (1 / t)))

/-- The first `n` turns of the first loop. -/
def forward (p a e c d : Nat) (m : Mem) : Nat → Option Mem
  | 0 => some m
  | n + 1 => (forward p a e c d m n).bind fun m => step p a e c d m n

/-- The second loop (rossr3.f:110-112), from index `k - 1` down. -/
def back (p e : Nat) : Nat → Mem → Mem
  | 0, m => m
  | k + 1, m => back p e k (set m (p + k) (m (p + k) * m (p + k + 1) + m (e + k)))

/-- The assignments before the loops (rossr3.f:95-98). -/
def begin (p e c d n : Nat) (m : Mem) : Mem :=
  let m := set m (c + (n - 1)) 0
  let m := set m p (-m c)
  set m e (m d)

/-- `ROSSR3` (rossr3.f:22-117) with the arrays `P`, `A`, `DELTA`, `C` and `D` of `n` numbers at `p`, `a`, `e`, `c`
and `d`.  Without equations it writes outside. -/
def rossr3 (p a e c d n : Nat) (m : Mem) : Option Mem :=
  if n = 0 then none
  else
    (forward p a e c d (begin p e c d n m) (n - 1)).map fun m =>
      back p e (n - 1) (set m (p + (n - 1)) (m (e + (n - 1))))

end Verif.Tridiag
