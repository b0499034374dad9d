import Verif.ArmnCompress

/-! # Model of the integer branch (data types 2 and 130) of `c_fstecr` and `c_fstluk`

Code: `/repo/src/fstd98/fstd98.c`.  Only 32-bit integer fields without missing values, not in image mode,
stride 1 (`xdf_short`, `xdf_byte` off).  `data` is the part of the record buffer that follows the keys. -/

namespace Verif

/-- 32-bit mask `~(-1 << nbits)` for `nbits ≤ 16` (lines 131, 138). -/
def lowMask32 (nbits : Nat) : W := ~~~((-1#32) <<< nbits)

/-- lines 137-142, `memcpy_32_16`: the shorts written, zero behind the last one (the buffer is cleared, line 999). -/
def to16 (field : List W) (nbits k : Nat) : BitVec 16 :=
  match field[k]? with
  | some x => (x &&& lowMask32 nbits).setWidth 16
  | none => 0

/-- lines 130-135, `memcpy_16_32`: the mask is an `int16_t`, both operands are promoted to `int`. -/
def from16 (nbits : Nat) (x : BitVec 16) : W := x.signExtend 32 &&& ((lowMask32 nbits).setWidth 16).signExtend 32

/-- `nw` of lines 982-985 (in 32-bit words, line 1000) plus the 128 words of slack of line 1003. -/
def int130Words (n nbits : Nat) : Nat := 2 * ((n * max nbits 16 + 32 + 63) / 64) + 128

/-- lines 1193-1226: the data type kept in the directory entry, the number of words to store and the data. -/
def writeInt130 (u : W) (level : Nat) (field : List W) (ni nj nk nbits : Nat) (z : List W) : Option (Nat × Nat × List W) :=
  let n := ni * nj * nk
  let words := int130Words n nbits
  let body := wordsOf (to16 field nbits) ((n + 1) / 2) ++ List.replicate (words - 1 - (n + 1) / 2) 0
  match armnCompress false level body ni nj nk nbits z with
  | none => none
  | some out =>
    if out.ret < 0 then
      (compactIntegerPack u false false field out.fld n nbits 0 1).map fun r => (2, words - 128, 0 :: r.2.2)
    else
      let nbytes := 4 + out.ret.toNat
      let nw := 2 * ((nbytes * 8 + 63) / 64)
      some (130, nw, BitVec.ofNat 32 nw :: out.fld)

/-- lines 2297-2335: `buf` is the work buffer holding the record data. -/
def readInt130 (u : W) (datyp : Nat) (buf : List W) (ni nj nk nbits : Nat) (g : Nat → BitVec 16) (d0 : Nat → Int)
    (out : List W) : Option (List W) :=
  let nelm := ni * nj * nk
  if datyp > 128 then
    match armnUncompress false u (buf.drop 1) ni nj nbits g d0 with
    | none => none
    | some back => some ((List.range nelm).map fun k => from16 nbits (shorts back k))
  else (compactIntegerUnpack u false out none buf nelm nbits 0 1).map (·.2)

end Verif
