import Mathlib.Tactic.Ring

namespace Verif.EwFdr

/-! East-west derivative of Fourier coefficients (src/spectral/ewfdr2.F).  Complex numbers are pairs over a ring; the three arrays
lie in one memory of complex cells, at the addresses of their first cells, so that they may be the same array. -/

variable {K : Type} [CommRing K]

/-- Memory of complex cells. -/
abbrev Mem (K : Type) := Nat → K × K

/-- One store (no code). -/
def put (s : Mem K) (x : Nat) (v : K × K) : Mem K := fun y => if y = x then v else s y

/-- `CMPLX(-FMSQ*AIMAG(C),+FMSQ*REAL(C))` with `FMSQ=FLOAT(M-1)*Q` (ewfdr2.F:43-44, 52-53, 61-62); `m` is `M-1`. -/
def turn (q : K) (m : Nat) (c : K × K) : K × K := (-((m : K) * q * c.2), (m : K) * q * c.1)

/-- What is stored from `BF` and `CF` (ewfdr2.F:44, 53, 62). -/
def cell (ign : Int) (q : K) (m : Nat) (b c : K × K) : K × K :=
  let t := turn q m c
  if ign = 0 then t
  else if ign = 1 then (b.1 + t.1, b.2 + t.2)
  else (-b.1 + t.1, -b.2 + t.2)

/-- The places of the two loops in their order (ewfdr2.F:41-42): `M-1` and the offset of `(M,L)` in an array of `ILGH` rows. -/
def places (ilgh ilev lm : Nat) : List (Nat × Nat) :=
  (List.range ilev).flatMap fun l => (List.range lm).map fun m => (m, m + ilgh * l)

/-- `EWFDR2` (ewfdr2.F:20-66); another `IGN` gives a message and stores nothing. -/
def ewfdr2 (s : Mem K) (af bf cf ilgh ilev lm : Nat) (q : K) (ign : Int) : Mem K :=
  if ign = 0 ∨ ign = 1 ∨ ign = -1 then
    (places ilgh ilev lm).foldl (fun s p => put s (af + p.2) (cell ign q p.1 (s (bf + p.2)) (s (cf + p.2)))) s
  else s

end Verif.EwFdr
