/-! # IBM floating point numbers made IEEE (`src/primitives/ibm32_ieee.c`)

`c_ibm32_ieee` works in place on `unsigned long` words, of 64 bits, with the number in the low half (and
nothing in the high half on input). -/

namespace Verif.Ibm32

/-- The loop of ibm32_ieee.c:40-43: shifts until bit 23 is set.  23 shifts are enough for a mantissa that is
not zero. -/
def norm : Nat → Nat → Int → Nat × Int
  | 0, m, e => (m, e)
  | f + 1, m, e => if m / 8388608 % 2 = 0 then norm f (2 * m) (e - 1) else (m, e)

/-- The exponent before the shifts (ibm32_ieee.c:35 and 37). -/
def expo (w : Nat) : Int := ((w / 16777216 % 128 : Nat) - 64 : Int) * 4 + 128 - 2

/-- One word of `c_ibm32_ieee` (ibm32_ieee.c:34-58); `none` when the program stops.  The sign is shifted as
an `int`, so it also fills the high half.  Words whose exponent turns out wrong are dropped before they are
read. -/
def word (w : Nat) : Option Nat :=
  let s := w / 2147483648
  let m := w % 16777216
  if m = 0 then
    if expo w ≤ 0 then some 0 else if 255 ≤ expo w then none else some w
  else
    let r := norm 23 m (expo w)
    if r.2 ≤ 0 then some 0
    else if 255 ≤ r.2 then none
    else some (r.1 % 8388608 + r.2.toNat * 8388608 + s * 2147483648 + s * 18446744069414584320)

/-- `c_ibm32_ieee` (ibm32_ieee.c:27-60). -/
def convert (ws : List Nat) : Option (List Nat) := ws.mapM word

end Verif.Ibm32
