import Verif.Grid

/-!
Model of `CONVIP_plus`, src/fstd98/convip_plus.f90: conversion between a level or time (value and kind) and the
integer code stored in ip1, ip2 or ip3.  The character string (`flagv`) and messages are left out.

Reals are rationals with a rounding after each operation, as in `Verif.Grid`.  Kinds are not negative.
-/
namespace Verif.Convip

open Verif.Grid (Rounding nint)

/-- `validkind`, lines 96-99. -/
def validKind (kind : Nat) : Bool :=
  kind ≤ 7 || kind == 10 || kind == 15 || kind == 17 || kind == 21 || kind == 31

/-- `low_val`, lines 101-104. -/
def lowVal : Nat → ℚ
  | 0 | 4 => -20000
  | 1 | 2 | 5 | 7 | 10 | 21 => 0
  | 6 | 17 => 1
  | _ => -480000000

/-- `hi_val`, lines 105-108. -/
def hiVal : Nat → ℚ
  | 0 | 4 => 100000
  | 1 | 5 => 1
  | 2 => 1100
  | 6 => 200000
  | 7 => 20000
  | 21 => 1000000
  | _ => 10000000000

/-- `zero_val`, lines 109-111. -/
def zeroVal (R : Rounding) : Nat → ℚ
  | 6 | 17 => 1
  | 21 => R.r4 (1001 / 10 ^ 7)
  | _ => 0

/-- `zero_val2`, lines 112-114. -/
def zeroVal2 : Nat → ℚ
  | 6 | 17 => 1
  | _ => 0

/-- `fact_val`, lines 115-117. -/
def factVal : Nat → ℚ
  | 17 => -1
  | 21 => 10000
  | _ => 1

/-- `exptab`, lines 123-125.  The last constant is written in single precision, in which it has no exact value; the
others from 1 on have. -/
def exptab (R : Rounding) (k : Nat) : ℚ :=
  if k < 4 then R.r8 (10 ^ k / 10 ^ 4) else if k = 15 then R.r4 (10 ^ 11) else 10 ^ (k - 4)

/-- `is_invalid_kind`, convert_ip123.f90 lines 220-227. -/
def invalidKind (kind : Nat) : Bool := kind > 31 && kind % 16 != 15

/-- Sub kinds of kind 15, `t15`, lines 357-366: lowest, highest, base. -/
def t15 : Nat → Option (Int × Int × Int)
  | 0 => some (0, 2000000, 0)
  | 1 => some (16000000, 15000001, -1000)
  | _ => none

/-- `conv_kind_15` to code, lines 387-394. -/
def encode15 (kind : Nat) (p : ℚ) : Int :=
  match t15 (kind / 16) with
  | none => -1
  | some (lo, hi, base) =>
    let ipv := nint p - base + lo
    if ipv < lo ∨ ipv > hi then -1 else ((ipv.toNat ||| (15 <<< 24) : Nat) : Int)

/-- The loop of lines 180-190; `none` when it takes more than `fuel` rounds. -/
def scale (R : Rounding) (limit1 limit2 : ℚ) : Nat → ℚ → Nat → Option (ℚ × Nat)
  | 0, _, _ => none
  | fuel + 1, temp, iexp =>
    if 0 < iexp ∧ iexp < 15 then
      if temp ≥ limit1 then scale R limit1 limit2 fuel (R.r8 (temp / 10)) (iexp - 1)
      else if temp < limit2 then scale R limit1 limit2 fuel (R.r8 (temp * 10)) (iexp + 1)
      else some (temp, iexp)
    else some (temp, iexp)

/-- Lines 169-197: sign, pseudo mantissa and pseudo exponent. -/
def pack (R : Rounding) (fuel : Nat) (kind : Nat) (temp : ℚ) : Option Int :=
  let limit1 : ℚ := if temp ≥ 0 then 1000000 else 48000
  let limit2 : ℚ := if temp ≥ 0 then 100000 else 4800
  let offset : Int := if temp ≥ 0 then 0 else 1000000
  let temp := if temp ≥ 0 then temp else -temp
  match scale R limit1 limit2 fuel temp 4 with
  | none => none
  | some (temp, iexp) =>
    if temp > limit1 then some (-1)
    else some (((offset + nint temp).toNat ||| (iexp <<< 20) ||| ((kind % 16) <<< 24) : Nat) : Int)

/-- Encoding in the new style, lines 142-197. -/
def encodeNew (R : Rounding) (fuel : Nat) (kind : Nat) (p : ℚ) : Option Int :=
  if invalidKind kind then some (-999999)
  else if kind = 2 ∧ p = 0 then some 0
  else if kind % 16 = 15 then some (encode15 kind p)
  else if p < lowVal kind ∨ p > hiVal kind then some (-999999)
  else
    let temp := if |p| < zeroVal R kind then zeroVal R kind else p
    pack R fuel kind (R.r8 (temp * factVal kind))

/-- Encoding in the old style, lines 142-152 and 199-248. -/
def encodeOld (R : Rounding) (kind : Nat) (p : ℚ) : Int :=
  let r := R.r4
  if invalidKind kind then -999999
  else if kind = 2 ∧ p = 0 then 0
  else if kind = 0 then max 12001 (min 32000 (nint (r (r (p / 5) + 12001))))
  else if kind = 1 then
    if ¬ (0 ≤ p ∧ p ≤ 1) then -999999 else nint (r (p * 10000)) + 2000
  else if kind = 2 then
    if ¬ (0 ≤ p ∧ p < 1100) then -999999
    else if r (999999 / 100000) ≤ p then nint p
    else if p ≥ r (999999 / 1000000) then 1800 + nint (r (20 * p))
    else if p ≥ r (999999 / 10000000) then 1600 + nint (r (200 * p))
    else if p ≥ r (999999 / 100000000) then 1400 + nint (r (2000 * p))
    else if p ≥ r (999999 / 1000000000) then 1200 + nint (r (20000 * p))
    else 0
  else if kind = 3 then
    let ip := nint p
    if 0 ≤ ip ∧ ip ≤ 100 then 1200 - ip else -999999
  else -999999

/-- The result for codes that are not valid, label 777. -/
def invalid : Int × ℚ := (-1, -999999)

/-- `conv_kind_15` from code, lines 371-385, 382: the value is an integer below 2^24 and exact, for codes with 15 above bit 24. -/
def decode15 (ip : Nat) : Int × ℚ :=
  let ipv : Nat := ip % 2 ^ 24
  if ip / 2 ^ 24 ≠ 15 then invalid
  else if 0 ≤ ipv ∧ ipv ≤ 2000000 then (15, (ipv : ℚ))
  else if 16000000 ≤ ipv ∧ ipv ≤ 15000001 then (31, (ipv : ℚ) - 16000000 - 1000)
  else invalid

/-- Value for a kind, lines 272-273. -/
def value (R : Rounding) (kind : Nat) (itemp : Int) (iexp : Nat) : ℚ :=
  R.r4 (R.r4 (R.r8 (itemp / exptab R iexp)) / factVal kind)

/-- Lines 287-289: clipping and replacement of the smallest values. -/
def clip (R : Rounding) (kind : Nat) (p : ℚ) : ℚ :=
  let p := max p (lowVal kind)
  let p := min p (hiVal kind)
  if |p| < R.r4 (R.r4 (1001 / 1000) * zeroVal R kind) then zeroVal2 kind else p

/-- Decoding of the new style, lines 258-289. -/
def decodeNew (R : Rounding) (ip : Nat) : Int × ℚ :=
  let kind := ip / 2 ^ 24 % 16
  if kind = 15 then decode15 ip
  else if !validKind kind then invalid
  else
    let iexp := ip / 2 ^ 20 % 16
    let m : Int := ((ip % 2 ^ 20 : Nat) : Int)
    let itemp := if m > 1000000 then -(m - 1000000) else m
    let p := value R kind itemp iexp
    if p < lowVal kind ∨ p > hiVal kind then
      if !validKind (kind + 16) then invalid
      else
        let p := value R (kind + 16) itemp iexp
        if p < lowVal (kind + 16) ∨ p > hiVal (kind + 16) then invalid
        else ((kind + 16 : Nat), clip R (kind + 16) p)
    else ((kind : Nat), clip R kind p)

/-- Decoding, lines 251-330. -/
def decode (R : Rounding) (ip : Int) : Int × ℚ :=
  if ip > 32767 then decodeNew R ip.toNat
  else if 12000 < ip ∧ ip ≤ 32000 then (0, R.r4 ((5 * (ip - 12001) : Int) : ℚ))
  else if 2000 ≤ ip ∧ ip ≤ 12000 then (1, R.r4 (R.r4 ((ip - 2000 : Int) : ℚ) / 10000))
  else if 0 ≤ ip ∧ ip < 1100 then (2, R.r4 ip)
  else if 1200 < ip ∧ ip < 1400 then (2, R.r4 (R.r8 (R.r4 ((ip - 1200 : Int) : ℚ) / 20000)))
  else if 1200 < ip ∧ ip < 1600 then (2, R.r4 (R.r8 (R.r4 ((ip - 1400 : Int) : ℚ) / 2000)))
  else if 1200 < ip ∧ ip < 1800 then (2, R.r4 (R.r8 (R.r4 ((ip - 1600 : Int) : ℚ) / 200)))
  else if 1200 < ip ∧ ip < 2000 then (2, R.r4 (R.r8 (R.r4 ((ip - 1800 : Int) : ℚ) / 20)))
  else if 1100 ≤ ip ∧ ip ≤ 1200 then (3, R.r4 (1200 - R.r4 ip))
  else (3, R.r4 ip)

end Verif.Convip
