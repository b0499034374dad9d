/-!
Model of the search in CMCARC archives: `filepos`, src/primitives/c_baseio.c lines 1729-1846, and
src/primitives/wafile.h lines 1-38.

The file is its list of bytes.  Memory that the code reads before writing (`sign` on the stack, the static `cmcarc`) is given.
Additions of 64-bit numbers are taken without overflow.  A `read` of a negative number of bytes fails.
-/
namespace Verif.CmcArc

abbrev Byte := UInt8

/-- What can go wrong. -/
inductive Fault
  | outside  -- access outside of `cmcarc_name`
  | loop     -- more records than bytes: the search goes backwards
deriving DecidableEq, Repr

/-- Bytes in order of decreasing weight, lines 1761-1769, 1796-1804 and 1816-1823. -/
def be (bs : List Byte) : Nat := bs.foldl (fun a b => a * 256 + b.toNat) 0

/-- A number of 64 bits taken with its sign (`int64_t`). -/
def s64 (n : Nat) : Int := if n < 2 ^ 63 then n else (n : Int) - 2 ^ 64

/-- The same with 32 bits (`int`). -/
def s32 (n : Nat) : Int := if n < 2 ^ 31 then n else (n : Int) - 2 ^ 32

/-- CMCARC_SIGN, wafile.h line 11. -/
def sign4 : List Byte := [67, 77, 67, 65, 82, 67, 72, 83]
/-- CMCARC_SIGN_V5, wafile.h line 13. -/
def sign5 : List Byte := [67, 77, 67, 65, 82, 67, 72, 53]

/-- `read`: the bytes that there are. -/
def readAt (f : List Byte) (pos n : Nat) : List Byte := (f.drop pos).take n

/-- Memory after a `read` to its beginning. -/
def fill (mem got : List Byte) : List Byte := got ++ mem.drop got.length

/-- Lines 1744-1783: position of the first record, or the value returned. -/
def lead (f junk : List Byte) : Except Int Nat :=
  let got := readAt f 0 8
  let sign := fill junk got
  if sign.take 8 = sign4 then .ok got.length
  else
    let got2 := readAt f got.length 17
    let sign := sign.take 8 ++ fill (sign.drop 8) got2
    let pos := got.length + got2.length
    let nt := be (sign.take 4)
    let nd := be ((sign.drop 4).take 4)
    let skip (nt : Nat) : Except Int Nat :=
      let p : Int := pos + s32 ((nt * 8 + (2 ^ 32 - 25)) % 2 ^ 32)
      if p < 0 then .error (-1) else .ok p.toNat
    if (sign.drop 9).take 8 = sign4 then
      if nd ≠ 0 then .error (-1) else skip nt
    else if (sign.drop 17).take 8 = sign5 then skip nd
    else .error (-1)

/-- The position in the file and the static `cmcarc`, wafile.h lines 32-38. -/
structure Cm where
  pos : Nat
  hdr : List Byte
  name : List Byte
deriving DecidableEq, Repr

/-- `strcmp(sub, mem) == 0` for memory of known length. -/
def strEq : List Byte → List Byte → Option Bool
  | _, [] => none
  | [], b :: _ => some (b == 0)
  | a :: s, b :: m => if a = b then strEq s m else some false

/-- The outcome of one record. -/
inductive Out
  | ret (v : Int)
  | here (nd : Nat)
  | next
deriving DecidableEq, Repr

/-- The sizes of a record, lines 1806-1829: position after them, size of the name, units of data and of tail. -/
def sizes (f : List Byte) (c : Cm) : Except Int (Cm × Int × Int × Int) :=
  let nt := be (c.hdr.take 4)
  let nd := be ((c.hdr.drop 4).take 4)
  if nt ≥ (nd + 4) % 2 ^ 32 then .ok (c, ((nt : Int) - nd - 2) * 8, nd, 1)
  else
    let got := readAt f c.pos 8
    let c := { c with pos := c.pos + got.length, hdr := fill c.hdr got }
    let nt64 := s64 (nt * 2 ^ 32 + nd)
    let nd64 := s64 (be (c.hdr.take 8))
    if nt64 < nd64 + 6 then .error (-1) else .ok (c, (nt64 - nd64 - 4) * 8, nd64, 2)

/-- One turn of the loop, lines 1791-1841. -/
def record (f sub : List Byte) (c : Cm) : Except Fault (Cm × Out) :=
  let got := readAt f c.pos 8
  let c := { c with pos := c.pos + got.length, hdr := fill c.hdr got }
  if got.length ≠ 8 then .ok (c, .ret (-2))
  else
    let nd := be ((c.hdr.drop 4).take 4)
    match sizes f c with
    | .error v => .ok (c, .ret v)
    | .ok (c, lng, nd64, tail) =>
      if lng < 0 then .ok (c, .ret (-3))
      else
        let got := readAt f c.pos lng.toNat
        if got.length > 256 then .error .outside
        else
          let c := { c with pos := c.pos + got.length, name := fill c.name got }
          if got.length ≠ lng.toNat then .ok (c, .ret (-3))
          else
            match strEq sub (c.name.drop 1) with
            | none => .error .outside
            | some true => .ok (c, .here nd)
            | some false =>
              let p : Int := c.pos + (nd64 + tail) * 8
              if p < 0 then .ok (c, .ret (-1)) else .ok ({ c with pos := p.toNat }, .next)

/-- The loop, lines 1791-1841. -/
def search (f sub : List Byte) : Nat → Cm → Except Fault (Cm × Out)
  | 0, _ => .error .loop
  | n + 1, c =>
    match record f sub c with
    | .error e => .error e
    | .ok (c, .next) => search f sub n c
    | .ok (c, o) => .ok (c, o)

/-- `filepos`: the value returned and `subfile_length` (lines 1843-1845). -/
def filepos (f sub junk hdr name : List Byte) : Except Fault (Int × Nat) :=
  match lead f junk with
  | .error v => .ok (v, 0)
  | .ok p =>
    match search f sub (f.length + 1) ⟨p, hdr, name⟩ with
    | .error e => .error e
    | .ok (_, .here nd) => .ok (((f.length / 4 : Nat) : Int), nd * 8 % 2 ^ 32 / 4)
    | .ok (_, .ret v) => .ok (v, 0)
    | .ok (_, .next) => .ok (0, 0)

end Verif.CmcArc
