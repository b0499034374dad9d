import Verif.CompactInteger
import Verif.CompactFloat
import Verif.Ieeepak

/-! # Model of the data part of `c_fstecr` and `c_fstluk` (`src/fstd98/fstd98.c`)

How a request (data type, packing density, element length) becomes a packer call, an entry of the
directory and the words of a record, and how these are read back.

The packers are the models of `Verif.CompactInteger`, `Verif.CompactFloat`, `Verif.FloatPacker`,
`Verif.Ieeepak`; `xdf_stride` is 1.  `use_old_signed_pack_unpack_code` is defined (line 22).  The
compressed types (129, 130, 133, 134) are modelled up to the choice of the entry; their data are the
subject of other modules.  `compact_double` is outside the model (`none`).  The field of the caller
is a list of elements of the size that the code uses; another use of its bytes is outside the model.
The products of dimensions do not overflow.  Keys of the record, rewriting and the directory:
`Verif.FstEcr`, `Verif.Xdf`. -/

namespace Verif.FstData

/-- Length of the elements, set by `c_fst_data_length` (696-738) in `xdf_byte`, `xdf_short`,
`xdf_double`. -/
inductive Len where
  | word
  | byte
  | short
  | double
deriving DecidableEq, Repr

/-- Memory of the caller.  Doubles are two words each; `reals` is what the unpacker of type 1 gives. -/
inductive Field where
  | words (l : List W)
  | shorts (l : List (BitVec 16))
  | bytes (l : List (BitVec 8))
  | reals (l : List ℚ)
deriving DecidableEq

/-! ## The request -/

/-- Lines 860-865: number of bits of an element. -/
def nbitsOf (npak : Int) : Int :=
  if npak = 0 then 32 else if npak < 0 then -npak else max 1 (32 / max 1 npak)

/-- `in_datyp`, `datyp`, `nbits` and `is_missing` before the data are packed. -/
structure Plan where
  inDatyp : Nat
  datyp : Nat
  nbits : Nat
  missing : Bool
deriving DecidableEq, Repr

/-- Lines 924-931: the remapping of data types. -/
def remapped (remap : List (Nat × Nat)) (datyp : Nat) : Nat :=
  remap.foldl (fun d r => if d = r.1 then r.2 else d) datyp

/-- Lines 876-881: 32-bit floating point becomes IEEE. -/
def plan1 (image : Bool) (inDatyp datyp nbits : Nat) : Nat × Nat :=
  if inDatyp = 1 ∧ (nbits = 31 ∨ nbits = 32) ∧ image = false then (5, 32) else (datyp, nbits)

/-- Lines 933-951: what depends on the number of bits. -/
def plan2 (datyp nbits : Nat) : Nat × Nat :=
  let datyp := if nbits > 16 ∧ datyp ≠ 133 then datyp &&& 0x7F else datyp
  if datyp = 6 ∧ nbits > 24 then (5, 32) else if datyp = 6 ∧ nbits > 16 then (1, nbits) else (datyp, nbits)

/-- Lines 806-819: data type without the flag of missing values, and the flag. -/
def baseType (ori : Nat) : Nat × Bool :=
  let inDatyp := ori &&& 0xFFBF
  if inDatyp &&& 0xF = 8 then (8, false) else (inDatyp, ori &&& 64 ≠ 0)

/-- `c_fstecr`, lines 806-822 and 860-951, for `ni`, `nj`, `nk` at least 1; `none` is an error return. -/
def plan (image : Bool) (remap : List (Nat × Nat)) (ori : Nat) (npak : Int) (ni nj nk : Nat) : Option Plan :=
  let b := baseType ori
  let datyp := if b.1 = 801 then 1 else b.1
  let nbits := nbitsOf npak
  let in64 := ori = 133 ∧ nbits > 32
  let inDatyp := if in64 then 5 else b.1
  let datyp := if in64 then 5 else datyp
  let r := plan1 image inDatyp datyp nbits.toNat
  if ni < 1 ∨ 0xFFFFFF < ni ∨ nj < 1 ∨ 0xFFFFFF < nj ∨ nk < 1 ∨ 0xFFFFF < nk ∨ r.2 < 1 ∨ 64 < r.2 ∨
      33554400 < ni * nj * nk * r.2 / 32 then none
  else
    let datyp := if npak = 0 ∨ npak = 1 then 0 else r.1
    let datyp := if image then datyp else remapped remap datyp
    let r := plan2 datyp r.2
    some ⟨inDatyp, r.1, r.2, b.2⟩

/-- Lines 953-996: words of the record after the keys. -/
def nwords (datyp n nbits : Nat) : Nat :=
  2 * (if datyp = 6 then ((12 + 4 * ((n + 1) / 2)) * 8 + 63) / 64
    else if datyp = 8 then 2 * ((n * nbits + 63) / 64)
    else if datyp = 129 then (n * max nbits 16 + 128 + 32 + 63) / 64
    else if datyp = 130 then (n * max nbits 16 + 32 + 63) / 64
    else if datyp = 134 then ((12 + 4 * ((n + 1) / 2)) * 8 + 32 + 63) / 64
    else (n * nbits + 120 + 63) / 64)

/-- The buffer of `c_fstecr` after the keys (998-1005): `nw + 128` words and one more, since the header
of a `buffer_interface` has nine words. -/
def writeArea (nw : Nat) : Nat := nw + 129

/-- The part of the buffer after the keys, cleared at line 1001. -/
def cleared (nw : Nat) : List W := List.replicate (writeArea nw) 0

/-! ## Writing -/

/-- What is stored: type, width and flag of the entry, words after the keys. -/
structure Stored where
  datyp : Nat
  nbits : Nat
  missing : Bool
  words : List W
deriving DecidableEq, Repr

/-- The copy loops of lines 1107-1109, 1123-1125 and 1158-1161, into a cleared buffer of `area` words. -/
def copyWords (l : List W) (k area : Nat) : Option (List W) :=
  if k ≤ l.length ∧ k ≤ area then some (l.take k ++ List.replicate (area - k) 0) else none

/-- `move6432` (movr8r4.c:46-65) on a little-endian machine. -/
def swapPairs : List W → List W
  | a :: b :: t => b :: a :: swapPairs t
  | l => l

/-- `ieeepak` for packing (ieeepak.F90:85-120) with the case of 64 bits. -/
def ieeePut (l mem : List W) (cnt nbits : Nat) : Option (List W) :=
  if nbits = 64 then
    if 2 * cnt ≤ l.length ∧ 2 * cnt ≤ mem.length then
      some (swapPairs (l.take (2 * cnt)) ++ mem.drop (2 * cnt))
    else none
  else if cnt ≤ l.length then Ieeepak.pack (l.take cnt) mem (-(nbits : Int)) else none

/-- `ieeepak` for unpacking (ieeepak.F90:122-165) with the case of 64 bits. -/
def ieeeGet (out mem : List W) (cnt nbits : Nat) : Option (List W) :=
  if nbits = 64 then
    if 2 * cnt ≤ out.length ∧ 2 * cnt ≤ mem.length then
      some (swapPairs (mem.take (2 * cnt)) ++ out.drop (2 * cnt))
    else none
  else Ieeepak.unpack out mem cnt (-(nbits : Int))

/-- Words written by `c_float_packer`: header and stream. -/
def packedWords (p : FloatPacker.Packed) : List W :=
  p.h0 :: BitVec.ofInt 32 p.h1 :: BitVec.ofNat 32 p.h2 :: p.stream

/-- The packed record that `c_float_unpacker` sees in memory. -/
def packedOf : List W → Option FloatPacker.Packed
  | a :: b :: c :: t => some ⟨a, b.toInt, c.toNat, t⟩
  | _ => none

/-- `c_fstecr`, lines 1149-1368, for the types that are not compressed: the entry and the words.
`u` is what a shift of 32 or more gives, `R` the rounding of reals. -/
def writeData (u : W) (R : Grid.Rounding) (p : Plan) (len : Len) (ni nj nk : Nat) (f : Field) : Option Stored :=
  let n := ni * nj * nk
  let nw := nwords p.datyp n p.nbits
  let mem := cleared nw
  if p.datyp = 0 ∨ p.datyp = 128 then
    match f with
    | .words l =>
      (copyWords l ((n * p.nbits + 31) / 32) (writeArea nw)).map fun d =>
        ⟨0, p.nbits, p.datyp = 0 && p.missing, d.take nw⟩
    | _ => none
  else if p.datyp = 1 then
    match f with
    | .words l =>
      if len = .double ∨ p.inDatyp = 801 ∨ l.length < n then none
      else (CompactFloat.compactPack R none (l.take n) p.nbits true mem 0 120).map fun d =>
        ⟨1, p.nbits, p.missing, d.take nw⟩
    | _ => none
  else if p.datyp = 2 then
    match f, len with
    | .shorts l, .short =>
      (compactNarrowPack u l mem n (min 16 p.nbits) 0 1).map fun r => ⟨2, min 16 p.nbits, p.missing, r.2.take nw⟩
    | .bytes l, .byte =>
      (compactNarrowPack u l mem n (min 8 p.nbits) 0 1).map fun r => ⟨2, min 8 p.nbits, p.missing, r.2.take nw⟩
    | .words l, .word =>
      (compactIntegerPack u false false l mem n p.nbits 0 1).map fun r => ⟨2, p.nbits, p.missing, r.2.2.take nw⟩
    | _, _ => none
  else if p.datyp = 3 ∨ p.datyp = 131 then
    match f with
    | .words l =>
      (compactIntegerPack u false false l mem ((ni * nj + 3) / 4) 32 0 1).map fun r =>
        ⟨3, 8, p.datyp = 3 && p.missing, r.2.2.take nw⟩
    | _ => none
  else if p.datyp = 4 ∨ p.datyp = 132 then
    let ints : Option (List W) :=
      match f, len with
      | .shorts l, .short => some (l.map (·.signExtend 32))
      | .bytes l, .byte => some (l.map (·.signExtend 32))
      | .words l, .word => some l
      | _, _ => none
    ints.bind fun l =>
      (compactIntegerPack u true false l mem n p.nbits 0 1).map fun r => ⟨4, p.nbits, p.missing, r.2.2.take nw⟩
  else if p.datyp = 5 ∨ p.datyp = 8 ∨ p.datyp = 136 then
    match f with
    | .words l =>
      let cnt := if p.datyp = 5 then n else 2 * n
      (ieeePut l mem cnt p.nbits).map fun d =>
        ⟨if p.datyp = 5 then 5 else 8, p.nbits, p.datyp ≠ 136 && p.missing, d.take nw⟩
    | _ => none
  else if p.datyp = 6 then
    match f with
    | .words l =>
      match l.take n with
      | [] => none
      | z :: rest =>
        if rest.length + 1 < n then none
        else some ⟨6, p.nbits, p.missing,
          (packedWords (FloatPacker.pack z rest p.nbits) ++ cleared nw).take nw⟩
    | _ => none
  else if p.datyp = 7 ∨ p.datyp = 135 then
    match f with
    | .bytes l =>
      (compactNarrowPack u l mem n 8 0 1).map fun r => ⟨7, p.nbits, p.datyp = 7 && p.missing, r.2.take nw⟩
    | _ => none
  else none

/-! ## Reading -/

/-- Words of the keys of a record: `W64TOWD(primary_len + info_len)`. -/
def keysLen : Nat := 20

/-- Lines 2181-2213 and 2225-2229: words after `buf->data` in the work field, for a record of `nw` words
after the keys.  `buf` is moved by one byte (line 2228), so that 37 of the `8 + 4 * (lng2 + 10)` bytes
come before the data. -/
def readArea (datyp n nw : Nat) (double : Bool) : Nat :=
  let lng := nw + keysLen
  let lng := if (datyp = 1 ∨ datyp = 5) ∧ double then 2 * lng else lng
  let lng2 := if datyp = 6 ∨ datyp = 134 then 1 + (n * 16 + 32 + 31) / 32 + 3 + 20
    else if datyp = 133 then 1 + lng
    else if datyp > 128 then 4 + (n * 16 + 32 + 31) / 32 + 20
    else lng
  lng2 + 2

/-- The work field: the words of the record, the rest is zero (`bzero`, and the clearing of
`c_xdfget2`, xdf98.c:1166).  `none`: the words do not fit. -/
def workField (s : Stored) (n : Nat) (len : Len) : Option (List W) :=
  let area := readArea s.datyp n s.words.length (len = .double)
  if s.words.length + keysLen ≤ area then
    some (s.words ++ List.replicate (area - s.words.length) 0)
  else none

/-- `c_fstluk`, lines 2243-2246 and 2270-2450 (`downgrade_32` off), for the types that are not compressed, without the decoding
of missing values.  `out` is the array of the caller. -/
def readData (u : W) (R : Grid.Rounding) (sub : FloatPacker.F32 → FloatPacker.F32 → FloatPacker.F32)
    (s : Stored) (len : Len) (ni nj nk : Nat) (out : Field) : Option Field :=
  let n := ni * nj * nk
  (workField s n len).bind fun mem =>
  if s.datyp = 0 then
    match out with
    | .words o =>
      let lngw := (n * s.nbits + 31) / 32
      if lngw ≤ o.length ∧ lngw ≤ mem.length then some (.words (mem.take lngw ++ o.drop lngw)) else none
    | _ => none
  else if s.datyp = 1 then
    match len with
    | .double => none
    | _ => (CompactFloat.compactUnpack R u none mem 0 120 n).map .reals
  else if s.datyp = 2 then
    match out, len with
    | .shorts o, .short => (compactNarrowUnpack u o mem n s.nbits 0 1).map fun r => .shorts r.2
    | .bytes o, .byte => (compactNarrowUnpack u o mem n 8 0 1).map fun r => .bytes r.2
    | .words o, .word => (compactIntegerUnpack u false o none mem n s.nbits 0 1).map fun r => .words r.2
    | _, _ => none
  else if s.datyp = 3 then
    match out with
    | .words o => (compactIntegerUnpack u false o none mem ((n + 3) / 4) 32 0 1).map fun r => .words r.2
    | _ => none
  else if s.datyp = 4 then
    match out, len with
    | .shorts o, .short =>
      (compactIntegerUnpack u true (List.replicate n 0) none mem n s.nbits 0 1).bind fun r =>
        if n ≤ o.length then some (.shorts (r.2.map (·.setWidth 16) ++ o.drop n)) else none
    | .bytes o, .byte =>
      (compactIntegerUnpack u true (List.replicate n 0) none mem n s.nbits 0 1).bind fun r =>
        if n ≤ o.length then some (.bytes (r.2.map (·.setWidth 8) ++ o.drop n)) else none
    | .words o, .word => (compactIntegerUnpack u true o none mem n s.nbits 0 1).map fun r => .words r.2
    | _, _ => none
  else if s.datyp = 5 ∨ s.datyp = 8 then
    match out with
    | .words o => (ieeeGet o mem (if s.datyp = 8 then 2 * n else n) s.nbits).map .words
    | _ => none
  else if s.datyp = 6 then
    match out with
    | .words o =>
      (packedOf mem).bind fun p => (FloatPacker.unpack sub p n).bind fun r =>
        if n ≤ o.length then some (.words (r.1 ++ o.drop n)) else none
    | _ => none
  else if s.datyp = 7 then
    match out with
    | .bytes o => (compactNarrowUnpack u o mem n 8 0 1).map fun r => .bytes r.2
    | _ => none
  else none

/-! ## Missing values -/

/-- The function that codes or decodes missing values. -/
inductive Kind where
  | none
  | float
  | double
  | int
  | short
  | byte
  | uint
  | ushort
  | ubyte
deriving DecidableEq, Repr

/-- Choice by type and length common to `EncodeMissingValue` (fst_missing.c:1496-1534) and
`DecodeMissingValue` (fst_missing.c:1610-1639). -/
def kindOf (datyp : Nat) (isDouble : Bool) (len : Len) : Kind :=
  let d := datyp &&& 0xF
  if d = 1 ∨ d = 5 ∨ d = 6 then if isDouble then .double else .float
  else if d = 4 then
    match len with
    | .short => .short
    | .byte => .byte
    | _ => .int
  else if d = 2 then
    match len with
    | .short => .ushort
    | .byte => .ubyte
    | _ => .uint
  else .none

/-- `EncodeMissingValue` as called at line 1140. -/
def encodeKind (p : Plan) (len : Len) : Kind :=
  let dbl := len = .double ∨ (p.inDatyp &&& 0xF = 5 ∧ p.nbits = 64)
  let k := kindOf p.inDatyp dbl len
  if k = .float ∧ p.nbits > 32 then .none else k

/-- `DecodeMissingValue` as called at lines 2459-2465. -/
def decodeKind (datyp nbits : Nat) (len : Len) : Kind :=
  kindOf (datyp &&& 0x3F) (len = .double ∨ (datyp &&& 0xF = 5 ∧ nbits = 64)) len

/-- Entry of the directory for a field in which missing values were found (or for which none were looked for):
lines 1037 and 1149-1363.  `refused` tells that the compressor returned an error. -/
def entryType (p : Plan) (refused : Bool) : Nat × Bool :=
  if p.datyp = 128 then (0, false)
  else if p.datyp = 131 then (3, false)
  else if p.datyp = 132 then (4, p.missing)
  else if p.datyp = 135 then (7, false)
  else if p.datyp = 136 then (8, false)
  else if p.datyp = 129 ∧ refused then (1, false)
  else if p.datyp = 130 ∧ refused then (2, false)
  else if p.datyp = 133 ∧ refused then (5, false)
  else if p.datyp = 134 ∧ refused then (6, false)
  else (p.datyp, p.missing)

/-! ## Copying of images -/

/-- Words taken by an image (lines 1111-1122 and 2257-2264) of a type that is not compressed. -/
def imageWords (datyp nbits nij nelm : Nat) : Nat :=
  let lngw := if datyp = 6 then (12 + 4 * ((nelm + 1) / 2)) * 8 else nelm * nbits
  let lngw := if datyp = 1 then lngw + 120 else lngw
  let lngw := if datyp = 3 then nij * 8 else lngw
  (lngw + 31) / 32

/-- `c_fstluk` with `image_mode_copy` (lines 2248-2268): the words given to the caller.  For compressed types
the first word is the number of words. -/
def imageRead (s : Stored) (len : Len) (ni nj nk : Nat) : Option (List W) :=
  let n := ni * nj * nk
  (workField s n len).bind fun mem =>
    let k :=
      if s.datyp > 128 then (mem[0]?.getD 0).toNat + 1
      else imageWords s.datyp s.nbits (ni * nj) (if s.datyp = 8 then 2 * n else n)
    if k ≤ mem.length then some (mem.take k) else none

/-- `c_fstecr` with `image_mode_copy` (lines 1100-1126). -/
def imageWrite (p : Plan) (ni nj nk : Nat) (field : List W) : Option Stored :=
  let n := ni * nj * nk
  let nw := nwords p.datyp n p.nbits
  if p.datyp > 128 then
    let lngw := (field[0]?.getD 0).toNat
    (copyWords field (lngw + 1) (writeArea nw)).map fun d =>
      ⟨p.datyp, p.nbits, p.missing, d.take lngw⟩
  else
    (copyWords field (imageWords p.datyp p.nbits (ni * nj) n) (writeArea nw)).map fun d =>
      ⟨p.datyp, p.nbits, p.missing, d.take nw⟩

end Verif.FstData
