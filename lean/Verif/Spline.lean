import Verif.Tridiag

/-! # Cubic splines (`src/base/spd.f`, `d1int1.f`, `int1d1.f`, `fd1.f`, `fdm.f`, `d1.f`, `d1int2.f`, `d1intr.f`)

Reals are rational numbers: rounding is left out.  Indices begin at 0.  A division by zero or an index outside an array
has no result. -/

namespace Verif.Spline

open Verif.Tridiag

/-- One turn of the loop of `SPD` (spd.f:85-91): a line of the system in `A`, `C` and `D` at `a`, `c` and `d`. -/
def line (S H : Nat → ℚ) (a c d : Nat) (m : Mem) (i : Nat) : Option Mem :=
  if H i + H (i - 1) = 0 ∨ H (i - 1) = 0 ∨ H i = 0 then none
  else
    let x1 := (1 / 2) / (H i + H (i - 1))
    let x2 := H i / H (i - 1)
    let m := set m (a + i) (H i * x1)
    let m := set m (c + i) (H (i - 1) * x1)
    some (set m (d + i) (3 * ((S i - S (i - 1)) * x2 + (S (i + 1) - S i) / x2) * x1))

/-- The lines from 1 to `k`. -/
def lines (S H : Nat → ℚ) (a c d : Nat) (m : Mem) : Nat → Option Mem
  | 0 => some m
  | k + 1 => (lines S H a c d m k).bind fun m => line S H a c d m (k + 1)

/-- The conditions at the ends (spd.f:93-96). -/
def ends (n a c d : Nat) (cmu1 c1 clmdam cm : ℚ) (m : Mem) : Mem :=
  let m := set m c cmu1
  let m := set m (a + (n - 1)) clmdam
  let m := set m d c1
  set m (d + (n - 1)) cm

/-- `SPD` (spd.f:22-101): the derivatives at the points.  `P`, `A`, `C` and `D` are arrays of `n` numbers one behind
the other; `junk` is what they contain before. -/
def spd (n : Nat) (S H : Nat → ℚ) (cmu1 c1 clmdam cm : ℚ) (junk : Mem) : Option (Nat → ℚ) :=
  (lines S H n (2 * n) (3 * n) junk (n - 2)).bind fun m =>
    rossr3 0 n (3 * n) (2 * n) (3 * n) n (ends n n (2 * n) (3 * n) cmu1 c1 clmdam cm m)

/-- The search (d1int1.f:78-80) from `j` on; `k` points are left. -/
def find (x : Nat → ℚ) (t : ℚ) : Nat → Nat → Option Nat
  | 0, _ => none
  | k + 1, j => if t ≤ x j then some j else find x t k (j + 1)

/-- The value between the points `j` and `j + 1` (d1int1.f:84-92). -/
def piece (x f fx h : Nat → ℚ) (j : Nat) (t : ℚ) : Option ℚ :=
  if h j = 0 then none
  else
    let v1 := x (j + 1) - t
    let w1 := t - x j
    let h2 := 1 / (h j * h j)
    let h3 := h2 / h j
    let z := (fx j * (v1 * v1) * w1 - fx (j + 1) * (w1 * w1) * v1) * h2
    some (z + (f j * (v1 * v1) * (2 * w1 + h j) + f (j + 1) * (w1 * w1) * (2 * v1 + h j)) * h3)

/-- `D1INT1` (d1int1.f:22-98) from the point `jj` on. -/
def d1int1 (n : Nat) (x f fx h : Nat → ℚ) : Nat → List ℚ → Option (List ℚ)
  | _, [] => some []
  | jj, t :: ts => do
    let j ← find x t (n - jj) jj
    let v ← piece x f fx h (j - 1) t
    let vs ← d1int1 n x f fx h j ts
    some (v :: vs)

/-- `INT1D1` (int1d1.f:22-128). -/
def int1d1 (n : Nat) (x f h : Nat → ℚ) (cmu1 c1 clmdam cm : ℚ) (junk : Mem) (ts : List ℚ) : Option (List ℚ) :=
  (spd n f h cmu1 c1 clmdam cm junk).bind fun fx => d1int1 n x f fx h 1 ts

/-- `FD1` (fd1.f:22-77); divisions by zero have no result. -/
def fd1 (f h : Nat → ℚ) : Option ℚ :=
  let h1 := h 0
  let h2 := h 1
  let h3 := h 2
  let x1 := h1 + h2
  let x2 := h2 + h3
  let x3 := x1 + h3
  if h1 = 0 ∨ h2 = 0 ∨ h3 = 0 ∨ x1 = 0 ∨ x2 = 0 ∨ x3 = 0 then none
  else
    let g := -(1 / h1 + 1 / x1 + 1 / x3) * f 0 + x1 * x3 * f 1 / (h1 * h2 * x2)
    some (g - h1 * x3 * f 2 / (x1 * h2 * h3) + h1 * x1 * f 3 / (x3 * x2 * h3))

/-- `FDM` (fdm.f:22-78). -/
def fdm (n : Nat) (f h : Nat → ℚ) : Option ℚ :=
  if n < 4 then none
  else
    let h1 := h (n - 2)
    let h2 := h (n - 3)
    let h3 := h (n - 4)
    let x1 := h1 + h2
    let x2 := h2 + h3
    let x3 := x1 + h3
    if h1 = 0 ∨ h2 = 0 ∨ h3 = 0 ∨ x1 = 0 ∨ x2 = 0 ∨ x3 = 0 then none
    else
      let g := -x1 * h1 * f (n - 4) / (h3 * x2 * x3) + x3 * h1 * f (n - 3) / (h3 * h2 * x1)
      some (g - x3 * x1 * f (n - 2) / (x2 * h2 * h1) + (1 / x3 + 1 / x1 + 1 / h1) * f (n - 1))

/-- `D1` (d1.f:22-102), `C1` to `C4` and `R20` of d1.f:73-77. -/
def d1 (y : Nat → ℚ) (h : ℚ) : ℚ := 1 * (-21 * y 0 + 13 * y 1 + 17 * y 2 + -9 * y 3) * (1 / 20) / h

/-- `DN` (d1.f:90-97), for 4 points or more. -/
def dn (n : Nat) (y : Nat → ℚ) (h : ℚ) : ℚ :=
  -1 * (-21 * y (n - 1) + 13 * y (n - 2) + 17 * y (n - 3) + -9 * y (n - 4)) * (1 / 20) / h

/-- The four weights of one direction (d1int2.f:105-112, 124-131; d1intr.f:111-127): of the derivatives and the
values at both ends. -/
def weights (h w : ℚ) : ℚ × ℚ × ℚ × ℚ :=
  let e := w / h
  let e1 := 1 - e
  let e2 := e1 * e1
  (e2 * w, e1 * w * e, e2 * (1 + 2 * e), e * e * (3 - 2 * e))

/-- The value in a square (d1int2.f:140-144, d1intr.f:128-133). -/
def square (f fx fy fxy : Nat → Nat → ℚ) (k l : Nat) (wx wy : ℚ × ℚ × ℚ × ℚ) : ℚ :=
  let (ze, zf, zg, zl) := wx
  let (za, zb, zc, zd) := wy
  let z := za * (ze * fxy k l - zf * fxy (k + 1) l + zg * fy k l + zl * fy (k + 1) l)
  let z := z - zb * (ze * fxy k (l + 1) - zf * fxy (k + 1) (l + 1) + zg * fy k (l + 1) + zl * fy (k + 1) (l + 1))
  let z := z + zc * (ze * fx k l - zf * fx (k + 1) l + zg * f k l + zl * f (k + 1) l)
  z + zd * (ze * fx k (l + 1) - zf * fx (k + 1) (l + 1) + zg * f k (l + 1) + zl * f (k + 1) (l + 1))

/-- The places of `D1INT2` in one direction: index and distance (d1int2.f:96-104, 115-123). -/
def places (n : Nat) (x : Nat → ℚ) : Nat → List ℚ → Option (List (Nat × ℚ))
  | _, [] => some []
  | jj, t :: ts => do
    let j ← find x t (n - jj) jj
    let ps ← places n x j ts
    some ((j - 1, t - x (j - 1)) :: ps)

/-- `D1INT2` (d1int2.f:22-152): the values for each pair of places, rows of the same `XI`. -/
def d1int2 (nx ny : Nat) (x y hx hy : Nat → ℚ) (f fx fy fxy : Nat → Nat → ℚ) (xs ys : List ℚ) :
    Option (List (List ℚ)) := do
  let qs ← places ny y 1 ys
  let ps ← places nx x 1 xs
  if (∃ q ∈ qs, hy q.1 = 0) ∨ (∃ p ∈ ps, hx p.1 = 0) then none
  else
    some (ps.map fun p => qs.map fun q =>
      square f fx fy fxy p.1 q.1 (weights (hx p.1) p.2) (weights (hy q.1) q.2))

/-- The search of `D1INTR` (d1intr.f:97-107): the last square beyond the end. -/
def locate (n : Nat) (x : Nat → ℚ) (t : ℚ) : Nat := ((find x t (n - 1) 1).getD (n - 1)) - 1

/-- `D1INTR` (d1intr.f:22-138) at one place. -/
def d1intr (nx ny : Nat) (x y hx hy : Nat → ℚ) (f fx fy fxy : Nat → Nat → ℚ) (s t : ℚ) : Option ℚ :=
  let k := locate nx x s
  let l := locate ny y t
  if nx < 2 ∨ ny < 2 ∨ hx k = 0 ∨ hy l = 0 then none
  else some (square f fx fy fxy k l (weights (hx k) (s - x k)) (weights (hy l) (t - y l)))

end Verif.Spline
