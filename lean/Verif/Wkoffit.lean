import Verif.Xdf
/-! File type detection: `c_wkoffit` (src/primitives/wkoffit.c:294-457) and the check of random files
`c_xdfcheck` (src/fstd98/xdf98.c:72-115).

A file is its list of bytes.  Buffers are not initialised by the code, so what they hold past the
end of a short file is an argument (`Junk`).  The image formats tried last (`test_fichier`,
wkoffit.c:457-486) are one argument, a function of the file. -/

namespace Verif.Wkoffit

abbrev Byte := BitVec 8
abbrev W := BitVec 32

/-- What the uninitialised variables hold: the character and the integer buffer of `c_wkoffit`, the
variable `mot` of `isftnbin` at each of its three calls, the header of `c_xdfcheck`. -/
structure Junk where
  cbuf : Nat → Byte
  buffer : Nat → Byte
  mot1 : Nat → Byte
  mot2 : Nat → Byte
  mot3 : Nat → Byte
  header : Nat → Byte

/-- Byte `i` of a buffer after `fread` of the file from position `p`. -/
def byteAt (f : List Byte) (junk : Nat → Byte) (p i : Nat) : Byte := (f[p + i]?).getD (junk i)

/-- Word `k` of a buffer after `fread32` (src/primitives/fread32.c:70-110): bytes are exchanged, so
the first byte of the file is the most significant. -/
def wordAt (f : List Byte) (junk : Nat → Byte) (p k : Nat) : W :=
  byteAt f junk p (4 * k) ++ byteAt f junk p (4 * k + 1) ++ byteAt f junk p (4 * k + 2) ++
    byteAt f junk p (4 * k + 3)

/-- Codes of c_wkoffit.h:4-48 used here. -/
inductive Kind
  | corrompu | vide | cmcarc5 | cmcarc4 | random89 | ccrn | ccrnRpn | sequentiel89
  | sequentielFortran89 | random98 | stdRsf | rsf | sequentiel98 | burp | grib | bufr | netcdf | hdf5
  | blok | sqlite3 | fortran
  /-- whatever `test_fichier` returns -/
  | other (code : Int)
deriving DecidableEq, Repr

/-- `isftnbin` (wkoffit.c:231-246), the stream being at position `pos`: `none` when `lng + 4`
overflows, else the answer and the new position.  A negative offset makes `fseek` fail and the word
is read at the current position. -/
def isftnbin (f : List Byte) (junk : Nat → Byte) (pos : Nat) (lng : W) : Option (Bool × Nat) :=
  if lng.toInt + 4 ≥ 2 ^ 31 then none
  else
    let p := if lng.toInt + 4 < 0 then pos else (lng.toInt + 4).toNat
    some (decide (wordAt f junk p 0 = lng ∧ lng ≠ 0#32), max p (min f.length (p + 4)))

/-- Result of `c_xdfcheck`. -/
inductive Check | valid | damaged
deriving DecidableEq, Repr

/-- `c_xdfcheck` (xdf98.c:72-115) on a file that can be opened; `c_fstcheck` (fstd98.c:2784) and
`c_burpcheck` (burp98.c:274) only call it.  `fsiz` is word 4 of the header and `idtyp` the top byte of
word 0. -/
def xdfcheck (f : List Byte) (junk : Nat → Byte) : Check :=
  if (wordAt f junk 0 4).toNat * 8 ≠ f.length then .damaged
  else if (wordAt f junk 0 0).extractLsb' 24 8 ≠ 0#8 then .damaged
  else .valid

/-- `strncmp(cbuf + at, sign, 8) == 0` for a signature without zero byte. -/
def signAt (f : List Byte) (junk : Nat → Byte) (at_ : Nat) (sign : List Byte) : Bool :=
  (List.range sign.length).all fun i => byteAt f junk 0 (at_ + i) == sign.getD i 0#8

/-- "CMCARCH5" and "CMCARCHS" (wkoffit.c:24-25). -/
def CMCARCH5 : List Byte := [0x43, 0x4d, 0x43, 0x41, 0x52, 0x43, 0x48, 0x35]
def CMCARCHS : List Byte := [0x43, 0x4d, 0x43, 0x41, 0x52, 0x43, 0x48, 0x53]
/-- 012525252525 and 025252525252 (wkoffit.c:27-28). -/
def SIGN_RND : W := 0x55555555#32
def SIGN_SEQ : W := 0xAAAAAAAA#32
def STDR : W := 0x53544452#32
def STDS : W := 0x53544453#32
def BRP0 : W := 0x42525030#32
def bRp0 : W := 0x62527030#32
def RSF0 : W := 0x52534630#32

/-- The tests from "STANDARD 98 RANDOM" to "SQLite 3" (wkoffit.c:373-448) on the words `w` of the
buffer; `none`: none of them. -/
def tests98 (w : Nat → W) (check : Check) : Option Kind :=
  if w 3 = STDR then some (if check = .damaged then .corrompu else .random98)
  else if w 4 = RSF0 then some (if w 5 = STDR then .stdRsf else .rsf)
  else if w 3 = STDS then some .sequentiel98
  else if w 3 = BRP0 ∨ w 3 = bRp0 then some (if check = .damaged then .corrompu else .burp)
  else if w 0 = 0x47524942#32 then some .grib
  else if w 0 = 0x42554652#32 then some .bufr
  else if w 0 = 0x43444601#32 then some .netcdf
  else if w 0 = 0x43444602#32 then some .netcdf
  else if w 0 = 0x89484446#32 ∧ w 1 = 0x0d0a1a0a#32 then some .hdf5
  else if w 0 = 0x424c4f4b#32 then some .blok
  else if w 0 = 0x53514c69#32 ∧ w 1 = 0x74652066#32 ∧ w 2 = 0x6f726d61#32 ∧ w 3 = 0x74203300#32 then
    some .sqlite3
  else none

/-- `c_wkoffit` (wkoffit.c:319-453) on a file that can be opened.  `none`: signed overflow.  The
length is kept in an `int32_t`, so that it is zero when the size is a multiple of 4 GiB. -/
def wkoffit (f : List Byte) (j : Junk) (testFichier : List Byte → Int) : Option Kind :=
  if f.length % 2 ^ 32 = 0 then some .vide
  else
    let w := wordAt f j.buffer 0
    let pos := min f.length 4096
    if signAt f j.cbuf 17 CMCARCH5 then some .cmcarc5
    else if signAt f j.cbuf 9 CMCARCHS then some .cmcarc4
    else if w 0 = SIGN_RND ∧ w 1 = SIGN_RND then some .random89
    else if w 0 = 64#32 ∧ w 17 = 64#32 ∧ w 2 = 0x20202020#32 then some .ccrn
    else
      -- CCRN-RPN
      match (if w 2 = 0x504b3834#32 then isftnbin f j.mot1 pos (w 0) else some (false, pos)) with
      | none => none
      | some (true, _) => some .ccrnRpn
      | some (false, pos) =>
        if w 28 = SIGN_SEQ ∧ w 29 = SIGN_SEQ then some .sequentiel89
        else
          match (if w 29 = SIGN_SEQ ∧ w 30 = SIGN_SEQ then isftnbin f j.mot2 pos (w 0)
              else some (false, pos)) with
          | none => none
          | some (true, _) => some .sequentielFortran89
          | some (false, pos) =>
            match tests98 w (xdfcheck f j.header) with
            | some k => some k
            | none =>
              match isftnbin f j.mot3 pos (w 0) with
              | none => none
              | some (true, _) => some .fortran
              | some (false, _) => some (.other (testFichier f))

/-- The bytes of a file written as 32-bit words, most significant byte first. -/
def bytesOf (d : List W) : List Byte :=
  d.flatMap fun w => [w.extractLsb' 24 8, w.extractLsb' 16 8, w.extractLsb' 8 8, w.extractLsb' 0 8]

end Verif.Wkoffit
