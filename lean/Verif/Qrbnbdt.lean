import Mathlib.Algebra.Order.Ring.Int
/-! # The number of bits of a BURP block

Model of `QRBNBDT` (src/burp98_f/qrbnbdt.F90:24-167).  `none` is a read outside of `SUPVAL` (more than 32 bits asked for)
or an overflow (`ABS` of -2**31). -/

namespace Verif.Qrbnbdt

/-- `SUPVAL(I)` (qrbnbdt.F90:62-69), for `I` from 1 to 32. -/
def supval (i : Nat) : Int := if i = 32 then 2147483647 else 2 ^ (i - 1)

/-- `TBLMAX` and `TBLMIN` (qrbnbdt.F90:102-107). -/
def extent (vals : List Int) : Int × Int := vals.foldl (fun s v => (max s.1 v, min s.2 v)) (0, 0)

/-- The loop of qrbnbdt.F90:134-140, `n` turns from `i` on: the new `NBIT` if there is one. -/
def scan (mx : Int) : Nat → Nat → Option Nat
  | 0, _ => none
  | n + 1, i =>
    if mx < supval i then some (if mx < supval i - 1 then i - 1 else i)
    else scan mx n (i + 1)

/-- qrbnbdt.F90:133-144: `NBIT` and whether there is an error. -/
def bits (mx : Int) (nbit : Nat) : Nat × Bool :=
  if supval nbit ≤ mx then
    match scan mx (32 - nbit) (nbit + 1) with
    | some i => (i, false)
    | none => (nbit, true)
  else (nbit, false)

/-- qrbnbdt.F90:151-162: `NBIT`, `DATYP` and whether there is an error. -/
def final (datyp : Int) (b : Nat × Bool) : Nat × Int × Bool :=
  if datyp = 4 then
    if b.1 + 1 > 31 then (32, 2, true) else (b.1 + 1, 4, b.2)
  else (min b.1 32, datyp, b.2)

/-- `QRBNBDT`: `NBIT`, `DATYP` and whether the function returns `ERCMPR`. -/
def qrbnbdt (nbit datyp : Int) (vals : List Int) : Option (Int × Int × Bool) :=
  let nbit := if nbit ≤ 0 then 1 else nbit
  if (datyp = 2 ∧ nbit = 32) ∨ datyp = 0 then some (nbit, datyp, false)
  else if 6 ≤ datyp then some (32, datyp, false)
  else if datyp = 3 ∨ datyp = 5 then some (8, datyp, false)
  else if 32 < nbit then none
  else
    let e := extent vals
    let r := if e.2 < -1 then (max e.1 |e.2|, 4) else (e.1, datyp)
    if 2147483647 < r.1 then none
    else
      let f := final r.2 (bits r.1 nbit.toNat)
      some (f.1, f.2.1, f.2.2)

end Verif.Qrbnbdt
