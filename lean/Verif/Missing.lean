import Mathlib.Order.Defs.LinearOrder
import Mathlib.Data.Rat.Defs
import Mathlib.Algebra.Order.Ring.Rat

/-!
Model of src/fstd98/fst_missing.c: analysis, encoding and decoding of fields with missing values.

Integer fields are lists of mathematical integers (no intermediate value leaves its C type: the only
sum, `max + 1`, is formed when a larger value of the type exists).  Floating point fields are lists of
rationals; the roundings are functions (see `plugReal`), without overflow, underflow, infinities and
NaN.  `char` is signed.  The package is switched on (`missing_value_used()` is 1), with any flag
values, and without plugins.
-/
namespace Verif.Missing

section
variable {α : Type} [LinearOrder α]

/-- One turn of the loops of `fld_*_anal`, lines 516-525 and the copies in lines 534-734. -/
def analStep (flag : α) (s : Nat × α × α) (y : α) : Nat × α × α :=
  let mx := if s.2.1 = flag then y else s.2.1
  let mn := if s.2.2 = flag then y else s.2.2
  if y = flag then (s.1 + 1, mx, mn)
  else (s.1, if y > mx then y else mx, if y < mn then y else mn)

/-- `fld_float_anal`, `fld_double_anal`, `fld_int_anal`, `fld_short_anal`, `fld_byte_anal`,
`fld_uint_anal`, `fld_ushort_anal`, `fld_ubyte_anal`, lines 501-734: number of missing values, maximum
and minimum.  The field starts with `x`. -/
def anal (flag x : α) (xs : List α) : Nat × α × α :=
  xs.foldl (analStep flag) (if x = flag then 1 else 0, x, x)

/-- `fst_*_decode_missing`, lines 737-879: the loop starts at the second element. -/
def decode (flag x : α) (xs : List α) : List α :=
  let mx := (anal flag x xs).2.1
  x :: xs.map fun y => if y = mx then flag else y

/-- Common part of `fst_*_encode_missing`, lines 899-900 and 915-922 and the copies in lines 927-1268: number of missing values and
field; `none` when there is nothing missing (return 0, output untouched). -/
def encodeWith (flag : α) (plug : α → α → α) (x : α) (xs : List α) : Option (Nat × List α) :=
  let a := anal flag x xs
  if a.1 = 0 then none
  else some (a.1, (x :: xs).map fun y => if y = flag then plug a.2.1 a.2.2 else y)

end

/-- `fst_uint_encode_missing`, `fst_ushort_encode_missing`, `fst_ubyte_encode_missing`, lines 1138-1148, 1192-1202, 1247-1257:
plug for a type of `w` bits.  (Width 0 shifts by `w`, undefined for `w` = 32.) -/
def plugU (w nbits : Nat) (mx : Int) : Int :=
  let plug : Int := if nbits < w then (2 ^ w - 1) / 2 ^ (w - nbits) else 2 ^ w - 1
  if plug > mx then mx + 1 else plug

/-- `fst_int_encode_missing`, lines 978-991: the largest number of `nbits` bits is computed in unsigned
arithmetic. -/
def plugInt (nbits : Nat) (mx : Int) : Int :=
  let plug2 : Int := if nbits < 32 then (2 ^ 32 - 1) / 2 ^ (32 - nbits) else 2 ^ 32 - 1
  let plug := plug2 / 2
  if plug > mx then mx + 1 else plug

/-- `fst_short_encode_missing`, lines 1039-1052, and `fst_byte_encode_missing`, lines 1100-1113, with
`w` = 16 and 8: the all-ones constant is stored in a signed variable, so it is -1, and shifts to the
right keep it (`/` of Lean is an arithmetic shift). -/
def plugS (w nbits : Nat) (mx : Int) : Int :=
  let plug2 : Int := if nbits < w then -1 / 2 ^ (w - nbits) else -1
  let plug := plug2 / 2
  if plug > mx then mx + 1 else plug

/-- The table of lines 896, 935. -/
def factor : List ℚ := [2, 11/10, 55/100, 28/100, 14/100, 7/100, 35/1000, 17/1000, 1/100]

/-- Roundings: `r` to the type of the field, `ri` to the type of the intermediate product and sum (which
is double for wide fields of singles, line 944, and that of the field otherwise), `rc` of the constants
of the table. -/
structure Rounding where
  r : ℚ → ℚ
  ri : ℚ → ℚ
  rc : ℚ → ℚ

/-- `fst_double_encode_missing`, `fst_float_encode_missing`, lines 902-914, 941-953. -/
def plugReal (R : Rounding) (nbits : Nat) (mx mn : ℚ) : ℚ :=
  let f := if nbits > 8 then R.rc (1/100) else R.rc (factor.getD nbits 0)
  let plug := R.r (R.ri (mx + R.ri (R.r (mx - mn) * f)))
  if plug = mx then (if mx = 0 then 1 else R.r (mx * 2)) else plug

/-- The eight types of elements. -/
inductive Kind
  | float | double | int | short | byte | uint | ushort | ubyte
deriving DecidableEq, Repr

/-- Choice made by `EncodeMissingValue`, lines 1496-1534; `none`: nothing is encoded. -/
def encKind (datatype nbits : Nat) (isByte isShort isDouble : Bool) : Option Kind :=
  let l := datatype % 16
  if l = 0 ∨ l = 3 ∨ l = 7 ∨ l = 8 then none
  else if l = 1 ∨ l = 5 ∨ l = 6 then
    if isDouble || (l == 5 && nbits == 64) then some .double
    else if nbits > 32 then none else some .float
  else if l = 4 then some (if isShort then .short else if isByte then .byte else .int)
  else if l = 2 then some (if isShort then .ushort else if isByte then .ubyte else .uint)
  else none

/-- Choice made by `DecodeMissingValue`, lines 1610-1639. -/
def decKind (datatype : Nat) (isByte isShort isDouble : Bool) : Option Kind :=
  let l := datatype % 16
  if l = 0 ∨ l = 3 ∨ l = 7 ∨ l = 8 then none
  else if l = 1 ∨ l = 5 ∨ l = 6 then (if isDouble then some .double else some .float)
  else if l = 4 then some (if isShort then .short else if isByte then .byte else .int)
  else if l = 2 then some (if isShort then .ushort else if isByte then .ubyte else .uint)
  else none

/-- Plug of an integer type. -/
def plugOf : Kind → Nat → Int → Int → Int
  | .int, nbits, mx, _ => plugInt nbits mx
  | .short, nbits, mx, _ => plugS 16 nbits mx
  | .byte, nbits, mx, _ => plugS 8 nbits mx
  | .uint, nbits, mx, _ => plugU 32 nbits mx
  | .ushort, nbits, mx, _ => plugU 16 nbits mx
  | .ubyte, nbits, mx, _ => plugU 8 nbits mx
  | _, _, mx, _ => mx

end Verif.Missing
