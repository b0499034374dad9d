import Verif.Convip

/-!
Model of src/fstd98/convert_ip123.f90: `EncodeIp`/`DecodeIp` (`encode_ip_0`, `decode_ip_0`) and
`ConvertPKtoIP`/`ConvertIPtoPK` (`encode_ip_2`, `decode_ip_2`), which code up to three levels, times or other values in
ip1, ip2 and ip3.  The vector versions (`encode_ip_1`, `encode_ip_3`, ...) only pass their elements on.

Reals are rationals, as in `Verif.Convip`.  The results of functions that go to label 777 are `none`, for they are not
defined.  The kinds and values that `decode_ip_0` leaves unset are a parameter.
-/
namespace Verif.ConvertIp

open Verif.Grid (Rounding)
open Verif.Convip (encodeNew decode)

/-- `FLOAT_IP`, lines 99-103. -/
structure FloatIp where
  lo : ℚ
  hi : ℚ
  kind : Int

/-- `is_level`, lines 196-202, with table `islevel`, lines 187-189. -/
def isLevel (kind : Int) : Bool := (0 ≤ kind && kind ≤ 7) || kind == 21

/-- `ascending`, lines 204-210, with table `order`, lines 183-185. -/
def ascending (kind : Int) : Bool := kind == 0 || kind == 4 || kind == 21

/-- `descending`, lines 212-218, with table `order`, lines 183-185. -/
def descending (kind : Int) : Bool := kind == 1 || kind == 2 || kind == 7

/-- `is_invalid_kind`, lines 220-227. -/
def isInvalid (kind : Int) : Bool := kind < 0 || Verif.Convip.invalidKind kind.toNat

/-- `convip_plus` with mode 2, three times: lines 318-320 and 523-525. -/
def codes (R : Rounding) (fuel : Nat) (a b c : ℚ × Int) : Option (Int × Int × Int) :=
  match encodeNew R fuel a.2.toNat a.1, encodeNew R fuel b.2.toNat b.1, encodeNew R fuel c.2.toNat c.1 with
  | some i, some j, some k => some (i, j, k)
  | _, _, _ => none

/-- The first level and the second one, lines 291-296. -/
def levels (r : FloatIp) : ℚ × ℚ :=
  if (r.hi < r.lo ∧ ascending r.kind = true) ∨ (r.hi > r.lo ∧ descending r.kind = true) then (r.hi, r.lo) else (r.lo, r.hi)

/-- The first time and the second one, lines 302-306. -/
def times (r : FloatIp) : ℚ × ℚ := if r.hi > r.lo then (r.hi, r.lo) else (r.lo, r.hi)

/-- The value for ip3, lines 292-316; `none` for a return in error. -/
def third (rp1 rp2 rp3 : FloatIp) : Option (ℚ × Int) :=
  if rp1.hi ≠ rp1.lo then
    if rp2.hi ≠ rp2.lo then none else some ((levels rp1).2, rp1.kind)
  else if rp2.hi ≠ rp2.lo then some ((times rp2).2, rp2.kind)
  else if isInvalid rp3.kind then none else some (rp3.lo, rp3.kind)

/-- `encode_ip_0`, lines 283-321: status and codes; `none` when an encoding takes more than `fuel` rounds. -/
def encodeIp (R : Rounding) (fuel : Nat) (rp1 rp2 rp3 : FloatIp) : Option (Nat × Int × Int × Int) :=
  if isInvalid rp1.kind || isInvalid rp2.kind || !isLevel rp1.kind || rp2.kind != 10 then some (64, -1, -1, -1)
  else match third rp1 rp2 rp3 with
    | none => some (64, -1, -1, -1)
    | some c => (codes R fuel ((levels rp1).1, rp1.kind) ((times rp2).1, rp2.kind) c).map (fun x => (0, x))

/-- What `kind(2)`, `kind(3)` and `P(3)` hold in `decode_ip_0` when they have not been set. -/
structure Junk where
  kind2 : Int
  kind3 : Int
  p3 : ℚ

/-- Lines 381-389: flags, `kind(2)` and the time; `none` for a jump to 777. -/
def second (R : Rounding) (junk : Junk) (ip : Int) : Option (Nat × Int × ℚ) :=
  if ip < 32768 then some (2, junk.kind2, (ip : ℚ))
  else if (decode R ip).1 ≠ 10 then none else some (0, 10, (decode R ip).2)

/-- Lines 391-399: flags, `kind(3)`, `P(3)` and `RP3`. -/
def thirdOf (R : Rounding) (junk : Junk) (ip : Int) : Option (Nat × Int × ℚ × FloatIp) :=
  if ip < 32768 then some (8, junk.kind3, junk.p3, ⟨ip, ip, 3⟩)
  else if (decode R ip).1 = -1 then none
  else some (0, (decode R ip).1, (decode R ip).2, ⟨(decode R ip).2, (decode R ip).2, (decode R ip).1⟩)

/-- `RP3` when there is a range, lines 403 and 407. -/
def noThird : FloatIp := ⟨0, 0, -1⟩

/-- Lines 401-410. -/
def ranges (kind1 : Int) (p1 : ℚ) (kind2 : Int) (p2 : ℚ) (kind3 : Int) (p3 : ℚ) (rp3 : FloatIp) : FloatIp × FloatIp × FloatIp :=
  if kind3 = 10 ∧ kind2 = kind3 then
    (⟨p1, p1, kind1⟩, if p3 < p2 then ⟨p3, p2, 10⟩ else ⟨p2, p3, 10⟩, noThird)
  else if kind3 ≤ 6 ∧ kind1 = kind3 then
    (if (p3 < p1 ∧ ascending kind3 = true) ∨ (p3 > p1 ∧ descending kind3 = true) then ⟨p3, p1, kind1⟩ else ⟨p1, p3, kind1⟩,
      ⟨p2, p2, 10⟩, noThird)
  else (⟨p1, p1, kind1⟩, ⟨p2, p2, 10⟩, rp3)

/-- `decode_ip_0`, lines 372-419. -/
def decodeIp (R : Rounding) (junk : Junk) (ip1 ip2 ip3 : Int) : Nat × Option (FloatIp × FloatIp × FloatIp) :=
  if ip1 < 0 ∨ ip2 < 0 ∨ ip3 < 0 then (64, none)
  else if !isLevel (decode R ip1).1 then (64, none)
  else
    let s1 := if ip1 < 32768 then 2 else 0
    match second R junk ip2 with
    | none => (s1 ||| 64, none)
    | some (s2, kind2, p2) =>
      match thirdOf R junk ip3 with
      | none => (s1 ||| s2 ||| 64, none)
      | some (s3, kind3, p3, rp3) =>
        let s4 := if (decode R ip1).1 > 6 ∨ kind2 ≠ 10 then 64 else 0
        (s1 ||| s2 ||| s3 ||| s4, some (ranges (decode R ip1).1 (decode R ip1).2 kind2 p2 kind3 p3 rp3))

/-- Lines 527-534: the order of the codes. -/
def arrange (p1 p2 p3 : ℚ) (kind1 kind2 kind3 : Int) (ip1 ip2 ip3 : Int) : Int × Int × Int :=
  if kind1 = kind2 ∧ isLevel kind1 = true ∧ kind3 = 10 then
    if (p1 > p2 ∧ ascending kind1 = true) ∨ (p1 < p2 ∧ descending kind1 = true) then (ip2, ip3, ip1) else (ip1, ip3, ip2)
  else if kind2 = 10 ∧ kind3 = 10 ∧ p2 < p3 then (ip1, ip3, ip2)
  else (ip1, ip2, ip3)

/-- `encode_ip_2`, lines 508-538. -/
def encodePk (R : Rounding) (fuel : Nat) (p1 : ℚ) (kind1 : Int) (p2 : ℚ) (kind2 : Int) (p3 : ℚ) (kind3 : Int) :
    Option (Nat × Int × Int × Int) :=
  if isInvalid kind1 || isInvalid kind2 || isInvalid kind3 || !isLevel kind1 then some (64, -1, -1, -1)
  else if !isLevel kind2 && kind2 != 10 then some (64, -1, -1, -1)
  else (codes R fuel (p1, kind1) (p2, kind2) (p3, kind3)).map
    (fun x => (if isLevel kind2 then 32 else 0, arrange p1 p2 p3 kind1 kind2 kind3 x.1 x.2.1 x.2.2))

/-- Three pairs of value and kind. -/
structure Pairs where
  p1 : ℚ
  kind1 : Int
  p2 : ℚ
  kind2 : Int
  p3 : ℚ
  kind3 : Int

/-- Lines 618-621: level, level and time. -/
def toThird (x : Pairs) : Pairs :=
  if x.kind1 = x.kind2 ∧ x.kind3 = 10 then ⟨x.p1, x.kind1, x.p3, x.kind3, x.p2, x.kind2⟩ else x

/-- Lines 622-625: levels in order. -/
def orderLevels (x : Pairs) : Pairs :=
  if x.kind1 = x.kind3 ∧ ((ascending x.kind1 = true ∧ x.p1 > x.p3) ∨ (descending x.kind1 = true ∧ x.p1 < x.p3)) then
    ⟨x.p3, x.kind1, x.p2, x.kind2, x.p1, x.kind3⟩ else x

/-- Lines 626-628: times in order. -/
def orderTimes (x : Pairs) : Pairs :=
  if x.kind2 = x.kind3 ∧ x.kind2 = 10 ∧ x.p2 < x.p3 then ⟨x.p1, x.kind1, x.p3, x.kind2, x.p2, x.kind3⟩ else x

/-- Lines 595-609: flags, kind and value; `none` for a jump to 777. -/
def secondPk (R : Rounding) (ip : Int) : Option (Nat × Int × ℚ) :=
  if ip < 32768 then some (2, 10, (ip : ℚ))
  else if isInvalid (decode R ip).1 then none
  else if (decode R ip).1 = 10 then some (0, 10, (decode R ip).2)
  else if isLevel (decode R ip).1 then some (32, decode R ip) else none

/-- Lines 610-617. -/
def thirdPk (R : Rounding) (ip : Int) : Option (Nat × Int × ℚ) :=
  if ip < 32768 then some (8, 3, (ip : ℚ))
  else if isInvalid (decode R ip).1 then none else some (0, decode R ip)

/-- `decode_ip_2`, lines 581-633: ip1 and ip2 are exchanged when ip1 is a time. -/
def decodePk (R : Rounding) (ip1 ip2 ip3 : Int) : Nat × Option Pairs :=
  if ip1 < 0 ∨ ip2 < 0 ∨ ip3 < 0 then (64, none)
  else
    let change := (decode R ip1).1 = 10
    let i := if change then ip2 else ip1
    let j := if change then ip1 else ip2
    let s0 := if change then 32 else 0
    if isInvalid (decode R i).1 then (s0 ||| 64, none)
    else
      let s1 := s0 ||| (if i < 32768 then 2 else 0)
      if !isLevel (decode R i).1 then (s1 ||| 64, none)
      else match secondPk R j with
        | none => (s1 ||| 64, none)
        | some (s2, kind2, p2) =>
          match thirdPk R ip3 with
          | none => (s1 ||| s2 ||| 64, none)
          | some (s3, kind3, p3) =>
            (s1 ||| s2 ||| s3,
              some (orderTimes (orderLevels (toThird ⟨(decode R i).2, (decode R i).1, p2, kind2, p3, kind3⟩))))

end Verif.ConvertIp
