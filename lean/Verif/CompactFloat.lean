import Verif.CompactInteger
import Verif.FloatPacker
import Verif.Grid
import Mathlib.Data.Int.Log

/-!
Model of `compact_float`, src/packers/compact.tmplc: quantised packing of single precision fields (data types 1 and 129).

Floats are bit patterns as in `Verif.FloatPacker`; computed doubles are rationals with a rounding after each operation, as
in `Verif.Grid`.  Simplifications.
* Products and quotients with powers of two (lines 210, 221, 289, 310, 321, 419) are exact: differences of floats are multiples
  of 2^-149 below 2^129, far from the limits of double precision.
* The array has stride 1.  The packed words and the header are one memory; `hp` is the word at which the header begins,
  `pos` the bit at which the first token begins, `style1` the test of lines 159-160.
* The loops over tokens are those of `compact_integer.c` (`Verif.pack`, `Verif.unpack`), from which they were copied:
  same registers at the start, same macros, same end.
* Token widths over 32 are outside the model (`none`).  The condition of the direct copy (303) tests the width of a token, the
  model the width in the stream.
-/
namespace Verif.CompactFloat

open Verif.FloatPacker (F32 val mk)
open Verif.Grid (Rounding)

/-- Value of a finite float. -/
def fval (x : F32) : ℚ := (val x : ℚ) / 2 ^ 149

/-- Lines 121-129: width of a token and width in the stream. -/
def widths (nbits : Nat) : Nat × Nat := if nbits > 64 then (nbits % 64, nbits / 64) else (nbits, nbits)

/-- Lines 179-183, 198-202. -/
def minMax : F32 → F32 → List F32 → F32 × F32
  | mn, mx, [] => (mn, mx)
  | mn, mx, x :: xs =>
    if val x < val mn then minMax x mx xs else if val x > val mx then minMax mn x xs else minMax mn mx xs

/-- Test for a missing value (196, 307, 318); there is no tag without `hasMissing`. -/
def missing (tag : Option F32) (x : F32) : Bool :=
  match tag with
  | none => false
  | some t => val x == val t

/-- Lines 173-204; the search for a first value that is not missing leaves the array when there is none. -/
def extremes (tag : Option F32) (xs : List F32) : Option (F32 × F32) :=
  match xs.filter (fun x => !missing tag x) with
  | [] => none
  | x :: rest => some (minMax x x rest)

/-- Lines 153-157, 359-363. -/
def missTok (b : Nat) : W := BitVec.ofNat 32 (2 ^ b - 1)

/-- Lines 210, 215-217, 230: exponent of the double of the range without its mantissa. -/
def rangeExp (d : ℚ) : Int := if d = 0 then 0 else Int.log 2 d + 1

/-- Lines 218-222. -/
def rawTok (d : ℚ) (b : Nat) (e : Int) : W := BitVec.ofInt 32 ⌊d * 2 ^ b / 2 ^ e⌋

/-- Lines 224-230. -/
def packExp (tag : Option F32) (d : ℚ) (b : Nat) : Int :=
  if tag.isSome ∧ rawTok d b (rangeExp d) = missTok b then rangeExp d + 1 else rangeExp d

/-- Leading bit of a value in units of 2^-149, and the 23 bits behind it. -/
def lead (x : F32) : Nat := Nat.log2 (val x).natAbs
def mant (x : F32) : Nat := (val x).natAbs * 2 ^ 23 / 2 ^ lead x % 2 ^ 23

/-- Lines 169, 257-271: marker and count. -/
def word0 (style1 miss : Bool) (n : Nat) : W :=
  ((if style1 then (if miss then 0x7ef#32 else 0x7ff#32) else (if miss then 0xfef#32 else 0xfff#32)) <<< 20) |||
    ((BitVec.ofNat 32 n <<< 12) >>> 12)

/-- Lines 233-242, 272: exponents of the step and of the minimum, sign of the minimum. -/
def word1 (mn : F32) (b : Nat) (e : Int) : W :=
  ((BitVec.ofInt 32 (e - b) + 4096#32) <<< 16) |||
    (((if val mn = 0 then 0x111#32 else BitVec.ofNat 32 (lead mn + 827)) <<< 4) ||| (if val mn < 0 then 1#32 else 0#32))

/-- Lines 274-280: mantissa of the minimum. -/
def word2 (mn : F32) : W := if val mn = 0 then 0#32 else 0x80000000#32 ||| (BitVec.ofNat 32 (mant mn) <<< 8)

/-- Lines 170, 282. -/
def word3 (b n : Nat) : W := (BitVec.ofNat 32 b <<< 8) ||| ((BitVec.ofNat 32 n <<< 4) >>> 24)

def putHeader (mem : List W) (hp : Nat) (w0 w1 w2 w3 : W) : Option (List W) :=
  if hp + 3 < mem.length then some ((((mem.set hp w0).set (hp + 1) w1).set (hp + 2) w2).set (hp + 3) w3) else none

/-- Lines 307-311, 318-322. -/
def token (R : Rounding) (tag : Option F32) (mn : F32) (b : Nat) (e : Int) (x : F32) : W :=
  if missing tag x then missTok b else BitVec.ofInt 32 ⌊R.r8 (fval x - fval mn) * (2 ^ b / 2 ^ e)⌋

/-- Packing, lines 111-334. -/
def compactPack (R : Rounding) (tag : Option F32) (xs : List F32) (nbits : Nat) (style1 : Bool) (mem : List W)
    (hp pos : Nat) : Option (List W) :=
  let b := (widths nbits).1
  if b = 0 ∨ 32 < b ∨ 32 < (widths nbits).2 ∨ (nbits = 1 ∧ tag.isSome) then none
  else if style1 = false ∧ 2 ^ 28 - 1 < xs.length then none
  else
    match extremes tag xs with
    | none => none
    | some (mn, mx) =>
      if fval mx > R.r8 (10 ^ 38) ∨ fval mn < -R.r8 (10 ^ 38) then none
      else
        let e := packExp tag (R.r8 (fval mx - fval mn)) b
        match putHeader mem hp (word0 style1 tag.isSome xs.length) (word1 mn b e) (word2 mn) (word3 b xs.length) with
        | none => none
        | some m => pack (xs.map (token R tag mn b e)) xs.length 1 (widths nbits).2 pos (.raw 0) (BitVec.allOnes 32) m

/-- Fields of the header, lines 61-69. -/
def field (w : W) (lo len : Nat) : Nat := w.toNat / 2 ^ lo % 2 ^ len

/-- Lines 374-380: minimum from the header. -/
def headMin (w1 w2 : W) : ℚ :=
  if w2 = 0 ∨ field w1 4 12 < 849 then 0
  else fval (mk (field w1 0 1 == 1) ((field w1 4 12 + 127 - 976) % 256) (field w2 8 23))

/-- Lines 414-420: an element from its token. -/
def element (R : Rounding) (tag : Option F32) (size : Nat) (mf mn : ℚ) (t : W) : ℚ :=
  match tag with
  | some g =>
    if t = missTok size then fval g
    else if t = 0 then mn else R.r4 (R.r8 (R.r8 ((t.toNat : ℚ) * mf * R.r8 (10000000000001 / 10 ^ 13)) + mn))
  | none => if t = 0 then mn else R.r4 (R.r8 (R.r8 ((t.toNat : ℚ) * mf * R.r8 (10000000000001 / 10 ^ 13)) + mn))

/-- Lines 343-355: number of elements; `n` is the argument. -/
def headCount (w0 w3 : W) (n : Nat) : Nat :=
  if field w0 20 12 = 0x7ff ∨ field w0 20 12 = 0x7ef then n else field w3 0 8 * 2 ^ 20 + field w0 0 20

/-- Unpacking, lines 336-425; the width of a token in the stream is that of the header (358). -/
def compactUnpack (R : Rounding) (u : W) (tag : Option F32) (mem : List W) (hp pos n : Nat) : Option (List ℚ) :=
  match mem[hp]?, mem[hp + 1]?, mem[hp + 2]?, mem[hp + 3]? with
  | some w0, some w1, some w2, some w3 =>
    if field w3 8 8 = 0 ∨ 32 < field w3 8 8 then none
    else
      (unpack u mem (headCount w0 w3 n) 1 (field w3 8 8) pos (.raw 0) (List.replicate (headCount w0 w3 n) 0#32)).map
        fun ts => ts.map (element R tag (field w3 8 8) (2 ^ ((field w1 16 16 : Int) - 4096)) (headMin w1 w2))
  | _, _, _, _ => none

end Verif.CompactFloat
