/-! # Model of the standard file directory entry (`src/fstd98/qstdir.h` 430-482,
`src/fstd98/fstd98.c`)

The C structure is a union of bit fields and 18 words; the little-endian branch puts the first
field of the big-endian branch in the most significant bits of each word, so both branches denote
the same words and one model covers both. -/

namespace Verif.FstKeys

abbrev W := BitVec 32

/-- `stdf_dir_keys` (qstdir.h:454-482): the bit fields. -/
structure Keys where
  deleted : BitVec 1
  select : BitVec 7
  lng : BitVec 24
  addr : BitVec 32
  deet : BitVec 24
  nbits : BitVec 8
  ni : BitVec 24
  gtyp : BitVec 8
  nj : BitVec 24
  datyp : BitVec 8
  nk : BitVec 20
  ubc : BitVec 12
  npas : BitVec 26
  pad7 : BitVec 6
  ig4 : BitVec 24
  ig2a : BitVec 8
  ig1 : BitVec 24
  ig2b : BitVec 8
  ig3 : BitVec 24
  ig2c : BitVec 8
  etik15 : BitVec 30
  pad1 : BitVec 2
  etik6a : BitVec 30
  pad2 : BitVec 2
  etikbc : BitVec 12
  typvar : BitVec 12
  pad3 : BitVec 8
  nomvar : BitVec 24
  pad4 : BitVec 8
  ip1 : BitVec 28
  levtyp : BitVec 4
  ip2 : BitVec 28
  pad5 : BitVec 4
  ip3 : BitVec 28
  pad6 : BitVec 4
  dateStamp : BitVec 32
deriving DecidableEq, Repr

/-- The `words` member of the union (qstdir.h:454-482). -/
def Keys.words (k : Keys) : List W :=
  [ k.deleted ++ k.select ++ k.lng,
    k.addr,
    k.deet ++ k.nbits,
    k.ni ++ k.gtyp,
    k.nj ++ k.datyp,
    k.nk ++ k.ubc,
    k.npas ++ k.pad7,
    k.ig4 ++ k.ig2a,
    k.ig1 ++ k.ig2b,
    k.ig3 ++ k.ig2c,
    k.etik15 ++ k.pad1,
    k.etik6a ++ k.pad2,
    k.etikbc ++ k.typvar ++ k.pad3,
    k.nomvar ++ k.pad4,
    k.ip1 ++ k.levtyp,
    k.ip2 ++ k.pad5,
    k.ip3 ++ k.pad6,
    k.dateStamp ]

/-- Reading the fields of the union after its words were stored (qstdir.h:454-482). -/
def ofWords (w : List W) : Keys :=
  let g := fun i => w.getD i 0#32
  { deleted := (g 0).extractLsb' 31 1, select := (g 0).extractLsb' 24 7,
    lng := (g 0).extractLsb' 0 24,
    addr := g 1,
    deet := (g 2).extractLsb' 8 24, nbits := (g 2).extractLsb' 0 8,
    ni := (g 3).extractLsb' 8 24, gtyp := (g 3).extractLsb' 0 8,
    nj := (g 4).extractLsb' 8 24, datyp := (g 4).extractLsb' 0 8,
    nk := (g 5).extractLsb' 12 20, ubc := (g 5).extractLsb' 0 12,
    npas := (g 6).extractLsb' 6 26, pad7 := (g 6).extractLsb' 0 6,
    ig4 := (g 7).extractLsb' 8 24, ig2a := (g 7).extractLsb' 0 8,
    ig1 := (g 8).extractLsb' 8 24, ig2b := (g 8).extractLsb' 0 8,
    ig3 := (g 9).extractLsb' 8 24, ig2c := (g 9).extractLsb' 0 8,
    etik15 := (g 10).extractLsb' 2 30, pad1 := (g 10).extractLsb' 0 2,
    etik6a := (g 11).extractLsb' 2 30, pad2 := (g 11).extractLsb' 0 2,
    etikbc := (g 12).extractLsb' 20 12, typvar := (g 12).extractLsb' 8 12,
    pad3 := (g 12).extractLsb' 0 8,
    nomvar := (g 13).extractLsb' 8 24, pad4 := (g 13).extractLsb' 0 8,
    ip1 := (g 14).extractLsb' 4 28, levtyp := (g 14).extractLsb' 0 4,
    ip2 := (g 15).extractLsb' 4 28, pad5 := (g 15).extractLsb' 0 4,
    ip3 := (g 16).extractLsb' 4 28, pad6 := (g 16).extractLsb' 0 4,
    dateStamp := g 17 }

abbrev C := BitVec 8

/-- `upper_case` (qstdir.h:58).  C promotes `car` to `int`; only its low byte is used below. -/
def upperCase (c : C) : C := c &&& ~~~((c &&& 64#8) >>> 1)

/-- `ascii6` (qstdir.h:61): six bits. -/
def ascii6 (c : C) : BitVec 6 := (upperCase c - 32#8).setWidth 6

/-- The copy of a caller's string into a blank-filled buffer of `n` characters
(fstd98.c:1016-1023, 1695-1701).  A C string is the list of its characters before the
terminating null. -/
def padTo (n : Nat) (s : List C) : List C :=
  s.take n ++ List.replicate (n - s.length) 32#8

/-- Character `i` of a padded name. -/
def ch (s : List C) (i : Nat) : C := s.getD i 32#8

/-- Five characters in thirty bits (fstd98.c:1049-1054) -/
def enc5 (s : List C) (i : Nat) : BitVec 30 :=
  ((ascii6 (ch s i)).setWidth 30 <<< 24) ||| ((ascii6 (ch s (i + 1))).setWidth 30 <<< 18)
  ||| ((ascii6 (ch s (i + 2))).setWidth 30 <<< 12) ||| ((ascii6 (ch s (i + 3))).setWidth 30 <<< 6)
  ||| (ascii6 (ch s (i + 4))).setWidth 30

/-- Four characters in 24 bits (fstd98.c:1070-1074) -/
def enc4 (s : List C) (i : Nat) : BitVec 24 :=
  ((ascii6 (ch s i)).setWidth 24 <<< 18) ||| ((ascii6 (ch s (i + 1))).setWidth 24 <<< 12)
  ||| ((ascii6 (ch s (i + 2))).setWidth 24 <<< 6) ||| (ascii6 (ch s (i + 3))).setWidth 24

/-- Two characters in 12 bits (fstd98.c:1063-1068) -/
def enc2 (s : List C) (i : Nat) : BitVec 12 :=
  ((ascii6 (ch s i)).setWidth 12 <<< 6) ||| (ascii6 (ch s (i + 1))).setWidth 12

/-- The octal-like recoding of a date (fstd98.c:1084, 1739), in `unsigned int`. -/
def octDate (u : W) : W := 8#32 * (u / 10#32) + u % 10#32

/-- Arguments of `c_fstecr` that go to the directory.  `datyp` and `date` are the values after the
adjustments made before the entry is built (missing flag or-ed in; `incdatr` applied). -/
structure Args where
  date : W
  deet : Int
  npas : Int
  ni : Int
  nj : Int
  nk : Int
  nbits : Int
  datyp : Int
  ip1 : Int
  ip2 : Int
  ip3 : Int
  ig1 : Int
  ig2 : Int
  ig3 : Int
  ig4 : Int
  typvar : List C
  nomvar : List C
  etiket : List C
  grtyp : List C

/-- The `VALID` checks (fstd98.c:60-64, 891-904; limits qstdir.h:437-449). -/
def inRange (a : Args) : Bool :=
  decide (1 ≤ a.ni ∧ a.ni ≤ 0xFFFFFF) && decide (1 ≤ a.nj ∧ a.nj ≤ 0xFFFFFF)
  && decide (1 ≤ a.nk ∧ a.nk ≤ 0xFFFFF) && decide (0 ≤ a.deet ∧ a.deet ≤ 0xFFFFFF)
  && decide (0 ≤ a.npas ∧ a.npas ≤ 0xFFFFFF) && decide (1 ≤ a.nbits ∧ a.nbits ≤ 64)
  && decide (0 ≤ a.ig1 ∧ a.ig1 ≤ 0xFFFFFF) && decide (0 ≤ a.ig2 ∧ a.ig2 ≤ 0xFFFFFF)
  && decide (0 ≤ a.ig3 ∧ a.ig3 ≤ 0xFFFFFF) && decide (0 ≤ a.ig4 ∧ a.ig4 ≤ 0xFFFFFF)
  && decide (0 ≤ a.ip1 ∧ a.ip1 ≤ 0xFFFFFFF) && decide (0 ≤ a.ip2 ∧ a.ip2 ≤ 0xFFFFFFF)
  && decide (0 ≤ a.ip3 ∧ a.ip3 ≤ 0xFFFFFFF)

/-- The entry built by `c_fstecr` (fstd98.c:1025-1084); `none` is `ERR_OUT_RANGE`. -/
def fstecrKeys (a : Args) : Option Keys :=
  if inRange a then
    let typvar := padTo 2 a.typvar
    let nomvar := padTo 4 a.nomvar
    let etiket := padTo 12 a.etiket
    let grtyp := padTo 1 a.grtyp
    some
      { deleted := 0, select := 1, lng := BitVec.ofInt 24 (-1), addr := BitVec.ofInt 32 (-1),
        deet := BitVec.ofInt 24 a.deet, nbits := BitVec.ofInt 8 a.nbits,
        ni := BitVec.ofInt 24 a.ni, gtyp := ch grtyp 0, nj := BitVec.ofInt 24 a.nj,
        datyp := BitVec.ofInt 8 a.datyp, nk := BitVec.ofInt 20 a.nk, ubc := 0,
        npas := BitVec.ofInt 26 a.npas, pad7 := 0, ig4 := BitVec.ofInt 24 a.ig4,
        ig2a := BitVec.ofInt 8 (a.ig2 >>> 16), ig1 := BitVec.ofInt 24 a.ig1,
        ig2b := BitVec.ofInt 8 (a.ig2 >>> 8), ig3 := BitVec.ofInt 24 a.ig3,
        ig2c := BitVec.ofInt 8 a.ig2, etik15 := enc5 etiket 0, pad1 := 0,
        etik6a := enc5 etiket 5, pad2 := 0, etikbc := enc2 etiket 10, typvar := enc2 typvar 0,
        pad3 := 0, nomvar := enc4 nomvar 0, pad4 := 0, ip1 := BitVec.ofInt 28 a.ip1, levtyp := 0,
        ip2 := BitVec.ofInt 28 a.ip2, pad5 := 0, ip3 := BitVec.ofInt 28 a.ip3, pad6 := 0,
        dateStamp := octDate a.date }
  else none

/-- A character decoded from the six bits of `x` at `sh` (fstd98.c:236-257). -/
def dec1 {n : Nat} (x : BitVec n) (sh : Nat) : C := ((x >>> sh).setWidth 6).setWidth 8 + 32#8

/-- Descriptors returned by `c_fstprm` (fstd98.c:2857-2960). -/
structure Parms where
  dateValid : W
  deet : Nat
  npas : Nat
  ni : Nat
  nj : Nat
  nk : Nat
  nbits : Nat
  datyp : Nat
  ip1 : Nat
  ip2 : Nat
  ip3 : Nat
  ig1 : Nat
  ig2 : Nat
  ig3 : Nat
  ig4 : Nat
  typvar : List C
  nomvar : List C
  etiket : List C
  grtyp : List C
deriving DecidableEq, Repr

/-- The inverse of the octal-like recoding (fstd98.c:263-264). -/
def deoctDate (d : W) : W := (d >>> 3) * 10#32 + (d &&& 7#32)

/-- `crack_std_parms` and `c_fstprm` (fstd98.c:228-277, 2918-2957), the caller's buffers being
long enough.  The origin date, obtained from `dateValid` by the calendar routines, is left out. -/
def fstprm (k : Keys) : Parms :=
  { dateValid := deoctDate k.dateStamp
    deet := k.deet.toNat, npas := k.npas.toNat, ni := k.ni.toNat, nj := k.nj.toNat,
    nk := k.nk.toNat, nbits := k.nbits.toNat, datyp := k.datyp.toNat, ip1 := k.ip1.toNat,
    ip2 := k.ip2.toNat, ip3 := k.ip3.toNat, ig1 := k.ig1.toNat,
    ig2 := ((k.ig2a.setWidth 32 <<< 16) ||| (k.ig2b.setWidth 32 <<< 8)
              ||| k.ig2c.setWidth 32 : W).toNat,
    ig3 := k.ig3.toNat, ig4 := k.ig4.toNat,
    typvar := [dec1 k.typvar 6, dec1 k.typvar 0],
    nomvar := [dec1 k.nomvar 18, dec1 k.nomvar 12, dec1 k.nomvar 6, dec1 k.nomvar 0],
    etiket := [dec1 k.etik15 24, dec1 k.etik15 18, dec1 k.etik15 12, dec1 k.etik15 6,
               dec1 k.etik15 0, dec1 k.etik6a 24, dec1 k.etik6a 18, dec1 k.etik6a 12,
               dec1 k.etik6a 6, dec1 k.etik6a 0, dec1 k.etikbc 6, dec1 k.etikbc 0],
    grtyp := [k.gtyp] }

/-- Search criteria of `c_fstinfx`. -/
structure Query where
  datev : W
  etiket : List C
  ip1 : W
  ip2 : W
  ip3 : W
  typvar : List C
  nomvar : List C

/-- An entry with all fields zero (`calloc`, fstd98.c:1720). -/
def Keys.zero : Keys := ofWords []

/-- The target built by `c_fstinfx` (fstd98.c:1720, 1739-1789). -/
def target (q : Query) : Keys :=
  let etiket := padTo 12 q.etiket
  { Keys.zero with
    dateStamp := octDate q.datev
    ip1 := q.ip1.setWidth 28, ip2 := q.ip2.setWidth 28, ip3 := q.ip3.setWidth 28,
    nomvar := enc4 (padTo 4 q.nomvar) 0, typvar := enc2 (padTo 2 q.typvar) 0,
    etik15 := enc5 etiket 0, etik6a := enc5 etiket 5, etikbc := enc2 etiket 10 }

/-- The mask built by `c_fstinfx` (fstd98.c:1726-1789), the `ip` flags of `ip1_all` … not being
set. -/
def mask (q : Query) : Keys :=
  let t := target q
  let noEtik := t.etik15 = 0 ∧ t.etik6a = 0
  { Keys.zero with
    dateStamp := if q.datev = BitVec.ofInt 32 (-1) then 0 else BitVec.allOnes 32 &&& ~~~7#32
    ip1 := if q.ip1 = BitVec.ofInt 32 (-1) then 0 else BitVec.allOnes 28
    ip2 := if q.ip2 = BitVec.ofInt 32 (-1) then 0 else BitVec.allOnes 28
    ip3 := if q.ip3 = BitVec.ofInt 32 (-1) then 0 else BitVec.allOnes 28
    nomvar := if t.nomvar = 0 then 0 else BitVec.allOnes 24
    typvar := if t.typvar = 0 then 0 else BitVec.allOnes 12
    etik15 := if noEtik then 0 else BitVec.allOnes 30
    etik6a := if noEtik then 0 else BitVec.allOnes 30
    etikbc := if noEtik then 0 else BitVec.allOnes 12 }

/-- `build_fstd_prim_keys` in write mode (xdf98.c:223-262): the words of target and mask from the
third on, the first two words being masked out. -/
def buildPrim (t m : Keys) : List W × List W :=
  (0#32 :: 0#32 :: t.words.drop 2, 0#32 :: 0#32 :: m.words.drop 2)

/-- The comparison loop of `next_match` (xdf98.c, random files): every masked word agrees. -/
def wordsMatch : List W → List W → List W → Bool
  | e :: es, t :: ts, m :: ms => decide ((e ^^^ t) &&& m = 0#32) && wordsMatch es ts ms
  | _, _, _ => true

/-- The match test of a `c_fstinfx` search on a directory entry; `srch` is the extra mask of the
file (`srch_mask`, and-ed in by `c_xdfloc2`, xdf98.c:1650-1662; all ones from `init_file`,
xdf98.c:3123, until `c_fstmsq` changes it). -/
def entryMatch (srch : List W) (q : Query) (entry : List W) : Bool :=
  let (t, m) := buildPrim (target q) (mask q)
  wordsMatch entry t (List.zipWith (· &&& ·) m srch)

/-- `srch_mask` of a freshly opened file (xdf98.c:3122-3124). -/
def srchInit : List W := List.replicate 18 (BitVec.ofInt 32 (-1))

end Verif.FstKeys
