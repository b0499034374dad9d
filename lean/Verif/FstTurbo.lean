import Verif.FstData
import Verif.ArmnCompress

/-! # Model of the compressed reals of `c_fstecr` and `c_fstluk` (`src/fstd98/fstd98.c`), data types 129 and 134

The tokens of a field are packed on 16 bits each and given to `armn_compress` (`Verif.ArmnCompress`), with the
exchange of halves (`swapStream` is 1 outside type 130).  `level` is the compression level, `z` the fresh buffer of the
compressor, `g` and `d0` the work arrays of the decompressor.  Missing values are not decoded. -/

namespace Verif.FstData

/-- Number of words of a compressed record (lines 1178-1181 and 1340-1343) of `nbytes` bytes. -/
def wordsFor (nbytes : Nat) : Nat := 2 * ((nbytes * 8 + 63) / 64)

/-- `c_fstecr` for type 134 with at most 16 bits (lines 1332-1348).  After a refusal the packed field is put one
word before, over what is there. -/
def write134 (level : Nat) (p : Plan) (ni nj nk : Nat) (l z : List W) : Option Stored :=
  let n := ni * nj * nk
  let nw := nwords 134 n p.nbits
  match l.take n with
  | [] => none
  | a :: rest =>
    if rest.length + 1 < n then none
    else
      let packed := packedWords (FloatPacker.pack a rest p.nbits)
      let body := packed.drop 3 ++ List.replicate (writeArea nw - 1 - packed.length) 0
      (armnCompress true level body ni nj nk p.nbits z).map fun out =>
        if out.ret < 0 then
          ⟨6, p.nbits, false, (packed ++ (0 :: (packed.take 3 ++ out.fld)).drop packed.length).take nw⟩
        else
          let k := wordsFor (16 + 12 + out.ret.toNat)
          ⟨134, p.nbits, p.missing, (BitVec.ofNat 32 k :: (packed.take 3 ++ out.fld)).take k⟩

/-- `c_fstecr` for type 129 with at most 16 bits (lines 1167-1185); no doubles. -/
def write129 (R : Grid.Rounding) (level : Nat) (p : Plan) (ni nj nk : Nat) (l z : List W) : Option Stored :=
  let n := ni * nj * nk
  let nw := nwords 129 n p.nbits
  if l.length < n then none
  else
    (CompactFloat.compactPack R none (l.take n) (p.nbits + 64 * max 16 p.nbits) false (cleared nw) 1 160).bind fun d =>
    (armnCompress true level (d.drop 5) ni nj nk p.nbits z).bind fun out =>
      if out.ret < 0 then
        (CompactFloat.compactPack R none (l.take n) p.nbits true (d.take 5 ++ out.fld) 0 120).map fun d' =>
          ⟨1, p.nbits, false, d'.take nw⟩
      else
        let k := wordsFor (16 + out.ret.toNat)
        some ⟨129, p.nbits, p.missing, ((d.set 0 (BitVec.ofNat 32 k)).take 5 ++ out.fld).take k⟩

/-- `c_fstluk` for types 129 (lines 2286-2291) and 134 (lines 2421-2427), and for the types that a refusal leaves. -/
def readTurbo (u : W) (R : Grid.Rounding) (sub : FloatPacker.F32 → FloatPacker.F32 → FloatPacker.F32) (s : Stored) (len : Len)
    (ni nj nk : Nat) (g : Nat → BitVec 16) (d0 : Nat → Int) (out : Field) : Option Field :=
  let n := ni * nj * nk
  if s.datyp = 134 then
    match out with
    | .words o =>
      (workField s n len).bind fun mem =>
      (armnUncompress true u (mem.drop 4) ni nj s.nbits g d0).bind fun back =>
      (packedOf ((mem.drop 1).take 3 ++ back)).bind fun p =>
      (FloatPacker.unpack sub p n).bind fun r =>
        if n ≤ o.length then some (.words (r.1 ++ o.drop n)) else none
    | _ => none
  else if s.datyp = 129 then
    match len with
    | .double => none
    | _ =>
      (workField s n len).bind fun mem =>
      (armnUncompress true u (mem.drop 5) ni nj s.nbits g d0).bind fun back =>
      (CompactFloat.compactUnpack R u none (mem.take 5 ++ back) 1 160 n).map .reals
  else readData u R sub s len ni nj nk out

end Verif.FstData
