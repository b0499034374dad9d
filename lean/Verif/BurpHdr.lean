import Verif.FstKeys
import Mathlib.Data.Fin.VecNotation

/-! # Headers of BURP reports

Model of the header of a report: src/burp98_f/mrbini.F90, mrbupd.F90, mrfloc.F90, mrfprm.F90 and the key functions of
src/fstd98/burp98.c, with the layout of `burp_dir_keys` and `burp_dir_info` (qstdir.h 624-657, little endian).

`NSUP = NXAUX = 0` (the only values that are accepted).  Messages are left out; so are the values `ERRDAT` and `ERCLEF`
given to the function results, because every one of these functions then overwrites its result by that of the last call.
Integer arguments are those of 32 bits; `junk` is what the local arrays of keys hold before they are set. -/

namespace Verif.BurpHdr

open Verif.FstKeys (W)

abbrev C := BitVec 8

/-- The keys of a stored report (`burp_dir_keys`, qstdir.h 624-646) after the type, length and address. -/
structure Prim where
  sti : Fin 9 → C
  flgs : BitVec 24
  lati : BitVec 16
  lon : BitVec 16
  date : BitVec 20
  dx : BitVec 12
  idtp : BitVec 8
  dy : BitVec 12
  heur : BitVec 6
  min : BitVec 6

/-- `burp_dir_info` (qstdir.h 647-657). -/
structure Info where
  nblks : BitVec 16
  oars : BitVec 16
  elev : BitVec 13
  drcv : BitVec 11
  runn : BitVec 8
deriving DecidableEq, Repr

/-- The six words of the keys, fields in the order of the bit fields from the high end. -/
def Prim.words (k : Prim) : List W :=
  [(k.sti 0 ++ k.sti 1 ++ k.sti 2 ++ k.sti 3 : BitVec 32),
   (k.sti 4 ++ k.sti 5 ++ k.sti 6 ++ k.sti 7 : BitVec 32),
   (k.sti 8 ++ k.flgs : BitVec 32),
   (k.lati ++ k.lon : BitVec 32),
   (k.date ++ k.dx : BitVec 32),
   (k.idtp ++ k.dy ++ k.heur ++ k.min : BitVec 32)]

/-- The keys read as bit fields of six words. -/
def ofWords (w : List W) : Prim :=
  { sti := ![(w.getD 0 0).extractLsb' 24 8, (w.getD 0 0).extractLsb' 16 8, (w.getD 0 0).extractLsb' 8 8,
      (w.getD 0 0).extractLsb' 0 8, (w.getD 1 0).extractLsb' 24 8, (w.getD 1 0).extractLsb' 16 8,
      (w.getD 1 0).extractLsb' 8 8, (w.getD 1 0).extractLsb' 0 8, (w.getD 2 0).extractLsb' 24 8]
    flgs := (w.getD 2 0).extractLsb' 0 24
    lati := (w.getD 3 0).extractLsb' 16 16
    lon := (w.getD 3 0).extractLsb' 0 16
    date := (w.getD 4 0).extractLsb' 12 20
    dx := (w.getD 4 0).extractLsb' 0 12
    idtp := (w.getD 5 0).extractLsb' 24 8
    dy := (w.getD 5 0).extractLsb' 12 12
    heur := (w.getD 5 0).extractLsb' 6 6
    min := (w.getD 5 0).extractLsb' 0 6 }

/-- The primary keys as the Fortran functions hand them over: `KLPRIM(1:9)`, `KLPRIM(10:18)`. -/
structure PKeys where
  sti : Fin 9 → W
  flgs : Int
  lati : Int
  lon : Int
  date : Int
  dx : Int
  idtp : Int
  dy : Int
  heur : Int
  min : Int

/-- `upper_case` (qstdir.h 58). -/
def upperCase (c : W) : W := c &&& ~~~((c &&& 64#32) >>> 1)

/-- `if (keys[i] != -1) field = upper_case(keys[i])` (burp98.c 155-199). -/
def setC (k : W) (old : C) : C := if k = BitVec.ofInt 32 (-1) then old else (upperCase k).setWidth 8

/-- `if (keys[i] != -1) field = keys[i]` (burp98.c 67-71, 200-244). -/
def setF {n : Nat} (k : Int) (old : BitVec n) : BitVec n := if k = -1 then old else BitVec.ofInt n k

/-- The field of the mask: zero when the key is -1. -/
def maskC (k : W) : C := if k = BitVec.ofInt 32 (-1) then 0 else BitVec.allOnes 8
def maskF (n : Nat) (k : Int) : BitVec n := if k = -1 then 0 else BitVec.allOnes n

/-- `write_burp_prim_keys` (burp98.c 135-245), the record part. -/
def writePrim (k : PKeys) (b : Prim) : Prim :=
  { sti := fun i => setC (k.sti i) (b.sti i)
    flgs := setF k.flgs b.flgs
    lati := setF k.lati b.lati
    lon := setF k.lon b.lon
    date := setF k.date b.date
    dx := setF k.dx b.dx
    idtp := setF k.idtp b.idtp
    dy := setF k.dy b.dy
    heur := setF k.heur b.heur
    min := setF k.min b.min }

/-- `write_burp_prim_keys` (burp98.c 135-245), the mask part. -/
def maskPrim (k : PKeys) : Prim :=
  { sti := fun i => maskC (k.sti i)
    flgs := maskF 24 k.flgs
    lati := maskF 16 k.lati
    lon := maskF 16 k.lon
    date := maskF 20 k.date
    dx := maskF 12 k.dx
    idtp := maskF 8 k.idtp
    dy := maskF 12 k.dy
    heur := maskF 6 k.heur
    min := maskF 6 k.min }

/-- `write_burp_info_keys` (burp98.c 68-85). -/
def writeInfo (nblks oars elev drcv runn : Int) (b : Info) : Info :=
  ⟨setF nblks b.nblks, setF oars b.oars, setF elev b.elev, setF drcv b.drcv, setF runn b.runn⟩

/-! ## Arguments -/

/-- Fortran `len_trim`. -/
def lenTrim : List C → Nat
  | [] => 0
  | c :: s => if lenTrim s = 0 ∧ c = 32#8 then 0 else lenTrim s + 1

/-- `istnid = stnid(1:min(len_trim(stnid), 9))`, a `character*9` (mrbini.F90:101). -/
def istnid (s : List C) (i : Nat) : C := if i < Nat.min (lenTrim s) 9 then s.getD i 32#8 else 32#8

/-- `char2rah` for one character (rah2char.c 44-56): `char` is signed, and the integer is not cleared first. -/
def char2rah (old : W) (c : C) : W := (old <<< 8) ||| c.signExtend 32

/-- `rah2char` for one character (rah2char.c 27-41). -/
def rah2char (x : W) : C := (((x <<< 24) >>> 24) &&& 255#32).setWidth 8

/-- The arguments of `mrbini` and `mrbupd`, and what `mrbhdr` gives back. -/
structure Args where
  temps : Int
  flgs : Int
  stnid : List C
  idtyp : Int
  lati : Int
  long : Int
  dx : Int
  dy : Int
  elev : Int
  drcv : Int
  date : Int
  oars : Int
  run : Int
deriving DecidableEq, Repr

/-- The coding of dates (mrbini.F90 117-123, mrbupd.F90 122-128, mrfloc.F90 111-117). -/
def codeDate (date : Int) : Int :=
  if date > 999999 then
    let annee := date.tdiv 10000
    let aa := (date.tdiv 10000).tmod 100
    let mm := (annee - 1900).tdiv 100 * 12 + (date.tdiv 100).tmod 100
    let jj := date.tmod 100
    aa * 10000 + mm * 100 + jj
  else date

/-- The decoding of dates (`c_mrbhdr`, burp98.c 721-731; mrfprm.F90 98-108). -/
def decodeDate (enforc8 : Bool) (date : Int) : Int :=
  if (date.tdiv 100).tmod 100 > 12 ∨ enforc8 = true then
    let aa := (date.tdiv 10000).tmod 100
    let mm := (date.tdiv 100).tmod 100
    let jj := date.tmod 100
    let annee := 1900 + aa + (mm - 1).tdiv 12 * 100
    let mois := 1 + (mm - 1).tmod 12
    annee * 10000 + mois * 100 + jj
  else date

/-! ## The functions -/

/-- A report in memory: the header of its record, and `buf8`, the number of blocks. -/
structure Rec where
  prim : Prim
  info : Info
  nblk : Nat

/-- The record as `c_xdfini` clears it (xdf98.c 1331-1385). -/
def Prim.zero : Prim := ⟨fun _ => 0, 0, 0, 0, 0, 0, 0, 0, 0, 0⟩

/-- The keys from the arguments; `star` is whether a `*` becomes the key -1 (mrbini.F90 100-134: no, mrbupd.F90 99-139:
yes). -/
def keysOf (star : Bool) (junk : Fin 9 → W) (a : Args) : PKeys :=
  { sti := fun i => if star = true ∧ istnid a.stnid i = 42#8 then BitVec.ofInt 32 (-1)
      else char2rah (junk i) (istnid a.stnid i)
    flgs := a.flgs
    lati := a.lati
    lon := a.long
    date := codeDate a.date
    dx := a.dx
    idtp := a.idtyp
    dy := a.dy
    heur := if a.temps = -1 then -1 else a.temps.tdiv 100
    min := if a.temps = -1 then -1 else a.temps.tmod 100 }

/-- `mrbini` (mrbini.F90 80-162), with `xdfini` and `c_buf89a0` (burp98.c 35-41). -/
def mrbini (junk : Fin 9 → W) (a : Args) : Rec :=
  ⟨writePrim (keysOf false junk a) Prim.zero, writeInfo 0 a.oars a.elev a.drcv a.run ⟨0, 0, 0, 0, 0⟩, 0⟩

/-- `mrbupd` (mrbupd.F90 79-165), with `xdfupd` (xdf98.c 2615-). -/
def mrbupd (junk : Fin 9 → W) (a : Args) (r : Rec) : Rec :=
  ⟨writePrim (keysOf true junk a) r.prim, writeInfo r.nblk a.oars a.elev a.drcv a.run r.info, r.nblk⟩

/-- `c_mrbhdr` (burp98.c 661-735): the header and the number of blocks. -/
def mrbhdr (enforc8 : Bool) (r : Rec) : Args × Nat :=
  ({ temps := r.prim.heur.toNat * 100 + r.prim.min.toNat
     flgs := r.prim.flgs.toNat
     stnid := List.ofFn r.prim.sti
     idtyp := r.prim.idtp.toNat
     lati := r.prim.lati.toNat
     long := r.prim.lon.toNat
     dx := r.prim.dx.toNat
     dy := r.prim.dy.toNat
     elev := r.info.elev.toNat
     drcv := r.info.drcv.toNat
     date := decodeDate enforc8 r.prim.date.toNat
     oars := r.info.oars.toNat
     run := r.info.runn.toNat }, r.nblk)

/-- What `mrfput` hands to the file (burp98.c 1133-1168): the words of the keys, and the words of the information. -/
def mrfput (r : Rec) : List W × Info := (r.prim.words, { r.info with nblks := BitVec.ofNat 16 r.nblk })

/-- The report as `mrfget` takes it from the file (burp98.c 1104-1129). -/
def mrfget (s : List W × Info) : Rec := ⟨ofWords s.1, s.2, s.2.nblks.toNat⟩

/-- What `mrfprm` gives (mrfprm.F90 66-121), after `read_burp_prim_keys` (burp98.c 107-131); the length is not modelled. -/
structure Prm where
  stnid : List C
  idtyp : Int
  lat : Int
  lon : Int
  dx : Int
  dy : Int
  date : Int
  temps : Int
  flgs : Int
deriving DecidableEq, Repr

def mrfprm (enforc8 : Bool) (w : List W) : Prm :=
  let k := ofWords w
  { stnid := List.ofFn fun i => rah2char ((k.sti i).setWidth 32)
    idtyp := k.idtp.toNat
    lat := k.lati.toNat
    lon := k.lon.toNat
    dx := k.dx.toNat
    dy := k.dy.toNat
    date := decodeDate enforc8 k.date.toNat
    temps := k.heur.toNat * 100 + k.min.toNat
    flgs := k.flgs.toNat }

/-- The criteria of `mrfloc`. -/
structure Query where
  stnid : List C
  idtyp : Int
  lat : Int
  lon : Int
  date : Int
  temps : Int
deriving DecidableEq, Repr

/-- The keys that `mrfloc` searches for (mrfloc.F90 88-127). -/
def locKeys (junk : Fin 9 → W) (q : Query) : PKeys :=
  { sti := fun i => if istnid q.stnid i = 42#8 then BitVec.ofInt 32 (-1) else char2rah (junk i) (istnid q.stnid i)
    flgs := -1
    lati := q.lat
    lon := q.lon
    date := codeDate q.date
    dx := -1
    idtp := q.idtyp
    dy := -1
    heur := if q.temps = -1 then -1 else q.temps.tdiv 100
    min := -1 }

/-- The words searched for and their mask (`c_xdfloc`, xdf98.c 1550-1570, with `build_burp_prim_keys`); `old` is the
target that an earlier search left in the file table. -/
def locTarget (junk : Fin 9 → W) (old : Prim) (q : Query) : List W × List W :=
  ((writePrim (locKeys junk q) old).words, (maskPrim (locKeys junk q)).words)

end Verif.BurpHdr
