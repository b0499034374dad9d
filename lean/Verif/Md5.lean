import Verif.Bits

/-!
Model of src/primitives/md5.c: MD5 and HMAC-MD5 in steps.

`unsigned long` has 64 bits; the computation leaves rubbish in the upper halves, which the model keeps.  Memory of a context
that has not been set is arbitrary.
-/
namespace Verif.Md5

abbrev Byte := BitVec 8
abbrev L := BitVec 64

/-- The bytes of an array from `i` on, as far as used. -/
def byteAt (b : List Byte) (i : Nat) : Byte := (b[i]?).getD 0

/-- `GET_ULONG_LE`, lines 47-55. -/
def getLong (b : List Byte) (i : Nat) : L :=
  (byteAt b i).setWidth 64 ||| ((byteAt b (i + 1)).setWidth 64 <<< 8) ||| ((byteAt b (i + 2)).setWidth 64 <<< 16) |||
    ((byteAt b (i + 3)).setWidth 64 <<< 24)

/-- `PUT_ULONG_LE`, lines 57-65: the four bytes. -/
def putLong (n : L) : List Byte := [n.setWidth 8, (n >>> 8).setWidth 8, (n >>> 16).setWidth 8, (n >>> 24).setWidth 8]

/-- `md5_context`, md5.h. -/
structure Ctx where
  total0 : Nat
  total1 : Nat
  s0 : L
  s1 : L
  s2 : L
  s3 : L
  buffer : List Byte
  ipad : List Byte
  opad : List Byte

/-- `md5_starts`, lines 68-77. -/
def starts (c : Ctx) : Ctx :=
  { c with total0 := 0, total1 := 0, s0 := 0x67452301, s1 := 0xEFCDAB89, s2 := 0x98BADCFE, s3 := 0x10325476 }

/-- `S`, line 100. -/
def rot (x : L) (n : Nat) : L := (x <<< n) ||| ((x &&& 0xFFFFFFFF) >>> (32 - n))

/-- `P`, lines 102-105. -/
def P (F : L → L → L → L) (X : Nat → L) (a b c d : L) (k s : Nat) (t : L) : L := rot (a + (F b c d + X k + t)) s + b

/-- Lines 112, 133, 154 and 175. -/
def F1 (x y z : L) : L := z ^^^ (x &&& (y ^^^ z))
def F2 (x y z : L) : L := y ^^^ (z &&& (x ^^^ y))
def F3 (x y z : L) : L := x ^^^ y ^^^ z
def F4 (x y z : L) : L := y ^^^ (x ||| ~~~z)

/-- Index, rotation and constant of a step. -/
abbrev Arg := Nat × Nat × L

/-- Four steps, the arguments in the order A, B, C, D then D, A, B, C then C, D, A, B then B, C, D, A. -/
def four (F : L → L → L → L) (X : Nat → L) (v : L × L × L × L) (q : Arg × Arg × Arg × Arg) : L × L × L × L :=
  let (A, B, C, D) := v
  let A := P F X A B C D q.1.1 q.1.2.1 q.1.2.2
  let D := P F X D A B C q.2.1.1 q.2.1.2.1 q.2.1.2.2
  let C := P F X C D A B q.2.2.1.1 q.2.2.1.2.1 q.2.2.1.2.2
  let B := P F X B C D A q.2.2.2.1 q.2.2.2.2.1 q.2.2.2.2.2
  (A, B, C, D)

/-- Lines 114-129. -/
def round1 : List (Arg × Arg × Arg × Arg) := [
  ((0, 7, 0xD76AA478), (1, 12, 0xE8C7B756), (2, 17, 0x242070DB), (3, 22, 0xC1BDCEEE)),
  ((4, 7, 0xF57C0FAF), (5, 12, 0x4787C62A), (6, 17, 0xA8304613), (7, 22, 0xFD469501)),
  ((8, 7, 0x698098D8), (9, 12, 0x8B44F7AF), (10, 17, 0xFFFF5BB1), (11, 22, 0x895CD7BE)),
  ((12, 7, 0x6B901122), (13, 12, 0xFD987193), (14, 17, 0xA679438E), (15, 22, 0x49B40821))]

/-- Lines 135-150. -/
def round2 : List (Arg × Arg × Arg × Arg) := [
  ((1, 5, 0xF61E2562), (6, 9, 0xC040B340), (11, 14, 0x265E5A51), (0, 20, 0xE9B6C7AA)),
  ((5, 5, 0xD62F105D), (10, 9, 0x02441453), (15, 14, 0xD8A1E681), (4, 20, 0xE7D3FBC8)),
  ((9, 5, 0x21E1CDE6), (14, 9, 0xC33707D6), (3, 14, 0xF4D50D87), (8, 20, 0x455A14ED)),
  ((13, 5, 0xA9E3E905), (2, 9, 0xFCEFA3F8), (7, 14, 0x676F02D9), (12, 20, 0x8D2A4C8A))]

/-- Lines 156-171. -/
def round3 : List (Arg × Arg × Arg × Arg) := [
  ((5, 4, 0xFFFA3942), (8, 11, 0x8771F681), (11, 16, 0x6D9D6122), (14, 23, 0xFDE5380C)),
  ((1, 4, 0xA4BEEA44), (4, 11, 0x4BDECFA9), (7, 16, 0xF6BB4B60), (10, 23, 0xBEBFBC70)),
  ((13, 4, 0x289B7EC6), (0, 11, 0xEAA127FA), (3, 16, 0xD4EF3085), (6, 23, 0x04881D05)),
  ((9, 4, 0xD9D4D039), (12, 11, 0xE6DB99E5), (15, 16, 0x1FA27CF8), (2, 23, 0xC4AC5665))]

/-- Lines 177-192. -/
def round4 : List (Arg × Arg × Arg × Arg) := [
  ((0, 6, 0xF4292244), (7, 10, 0x432AFF97), (14, 15, 0xAB9423A7), (5, 21, 0xFC93A039)),
  ((12, 6, 0x655B59C3), (3, 10, 0x8F0CCC92), (10, 15, 0xFFEFF47D), (1, 21, 0x85845DD1)),
  ((8, 6, 0x6FA87E4F), (15, 10, 0xFE2CE6E0), (6, 15, 0xA3014314), (13, 21, 0x4E0811A1)),
  ((4, 6, 0xF7537E82), (11, 10, 0xBD3AF235), (2, 15, 0x2AD7D2BB), (9, 21, 0xEB86D391))]

/-- The 64 steps of `md5_process`, lines 107-194. -/
def steps (X : Nat → L) (v : L × L × L × L) : L × L × L × L :=
  round4.foldl (four F4 X) (round3.foldl (four F3 X) (round2.foldl (four F2 X) (round1.foldl (four F1 X) v)))

/-- Lines 196-199. -/
def bump (c : Ctx) (r : L × L × L × L) : Ctx :=
  { c with s0 := c.s0 + r.1, s1 := c.s1 + r.2.1, s2 := c.s2 + r.2.2.1, s3 := c.s3 + r.2.2.2 }

/-- `md5_process`, lines 79-200. -/
def process (c : Ctx) (data : List Byte) : Ctx :=
  bump c (steps (fun k => getLong data (4 * k)) (c.s0, c.s1, c.s2, c.s3))

/-- `memcpy (buffer + left, input, n)`. -/
def copy (buffer : List Byte) (left : Nat) (input : List Byte) : List Byte :=
  buffer.take left ++ input ++ buffer.drop (left + input.length)

/-- The loop of lines 229-234 and lines 236-240, for `left`. -/
def whole (left : Nat) : Nat → Ctx → List Byte → Ctx
  | 0, c, _ => c
  | fuel + 1, c, input =>
    if input.length ≥ 64 then whole left fuel (process c (input.take 64)) (input.drop 64)
    else if input.length > 0 then { c with buffer := copy c.buffer left input } else c

/-- `md5_update`, lines 203-241; the length of `input` is an `int`. -/
def update (c : Ctx) (input : List Byte) : Ctx :=
  if input.length = 0 then c
  else
    let left := c.total0 % 64
    let fill := 64 - left
    let total0 := (c.total0 + input.length) % 2 ^ 32
    let c := { c with total0 := total0, total1 := if total0 < input.length then (c.total1 + 1) % 2 ^ 64 else c.total1 }
    if left ≠ 0 ∧ input.length ≥ fill then
      let c := { c with buffer := copy c.buffer left (input.take fill) }
      whole 0 (input.length + 1) (process c c.buffer) (input.drop fill)
    else whole left (input.length + 1) c input

/-- `md5_padding`, lines 244-250. -/
def padding : List Byte := 0x80 :: List.replicate 63 0

/-- `md5_finish`, lines 253-276: context and digest. -/
def finish (c : Ctx) : Ctx × List Byte :=
  let high : L := BitVec.ofNat 64 c.total0 >>> 29 ||| BitVec.ofNat 64 c.total1 <<< 3
  let low : L := BitVec.ofNat 64 c.total0 <<< 3
  let last := c.total0 % 64
  let padn := if last < 56 then 56 - last else 120 - last
  let c := update (update c (padding.take padn)) (putLong low ++ putLong high)
  (c, putLong c.s0 ++ putLong c.s1 ++ putLong c.s2 ++ putLong c.s3)

/-- `md5`, lines 279-288, with what the stack holds. -/
def md5 (stack : Ctx) (input : List Byte) : List Byte := (finish (update (starts stack) input)).2

/-- `md5_file`, lines 291-318, for the parts that `fread` returns; errors of the file are left out. -/
def md5File (stack : Ctx) (parts : List (List Byte)) : List Byte := (finish (parts.foldl update (starts stack))).2

/-- The pads of `md5_hmac_starts`, lines 343-350. -/
def pad (b : Byte) (key : List Byte) : List Byte := (key.map (b ^^^ ·)) ++ List.replicate (64 - key.length) b

/-- `md5_hmac_starts`, lines 331-356. -/
def hmacStarts (c stack : Ctx) (key : List Byte) : Ctx :=
  let key := if key.length > 64 then md5 stack key else key
  let c := { c with ipad := pad 0x36 key, opad := pad 0x5C key }
  let c := starts c
  update c c.ipad

/-- `md5_hmac_finish`, lines 365-376. -/
def hmacFinish (c : Ctx) : List Byte :=
  let f := finish c
  let c := starts f.1
  (finish (update (update c c.opad) f.2)).2

/-- `md5_hmac`, lines 379-389. -/
def hmac (stack stack2 : Ctx) (key input : List Byte) : List Byte :=
  hmacFinish (update (hmacStarts stack stack2 key) input)

end Verif.Md5
