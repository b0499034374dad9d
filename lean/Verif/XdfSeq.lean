import Verif.Xdf
import Verif.FstKeys
/-! # Model of sequential XDF files (`src/fstd98/xdf98.c`, `src/fstd98/fstd98.c`)

A sequential file has no directory: the header of the file is followed by records, each with a
postfix that names it, and by end-of-file marks.  The file table entry keeps a position `cur_addr`.
Word addresses are 1-based in C and 0-based here; `addr` fields stay as in C.

A record is named here by its word position; `make_seq_handle` and `address_from_handle` are in
`Verif.Handles`.  Left out: files of 1989 (only `c_fstskp` is there), `nxtadr` (written but not used
for a sequential file), rewriting a record through a handle, reading a random file in sequential
mode. -/

namespace Verif.XdfSeq

open Verif.Xdf (W Header writeAt readAt)

/-- The parts of a `file_table_entry` (qstdir.h:760-830) and of the unit used by a sequential file.
`d` is what can be read (`eff_file_size` words) and `fsize` is `file_size`. -/
structure St where
  hdr : Header
  d : List W
  fsize : Nat
  cur : Nat
  bof : Nat
  head : List W
  valid : Bool
  modified : Bool
deriving DecidableEq, Repr

/-- `W64TOWD(primary_len)`. -/
def St.width (s : St) : Nat := 2 * s.hdr.lprm

/-- `c_wawrit` (src/primitives/c_baseio.c:916-953) at or before the end of the file.  A write that goes
beyond `file_size` sets both sizes (c_baseio.c:2203-2206, 2280-2283). -/
def St.wawrit (s : St) (a : Nat) (ws : List W) : St :=
  if a + ws.length > s.fsize then
    { s with d := (writeAt s.d a ws).take (a + ws.length), fsize := a + ws.length }
  else { s with d := writeAt s.d a ws }

/-- `c_waread2` (c_baseio.c:1003-1035): the words read; fewer than `n` at the end of the file.  The
negative counts of C (position beyond the end) are an empty list here. -/
def waread2 (d : List W) (a n : Nat) : List W := (d.drop a).take n

/-- `idtyp`, `lng` of the first word of an `xdf_record_header` (qstdir.h:391-398). -/
def idtyp (w : W) : Nat := (w.extractLsb' 24 8).toNat
def lng (w : W) : Nat := (w.extractLsb' 0 24).toNat

/-- The first word of a record header. -/
def word0 (idtyp lng : Nat) : W := BitVec.ofNat 8 idtyp ++ BitVec.ofNat 24 lng

/-- `postfix_seq` as written by `c_xdfput` (qstdir.h:608-616, xdf98.c:2347-2354). -/
def postfix_ (id n addr : Nat) : List W :=
  [word0 0 2, BitVec.ofInt 32 (-1), word0 id n, BitVec.ofNat 32 addr]

/-- The test of a postfix (fstd98.c:3048, 3063). -/
def isPostfix (p : List W) : Bool :=
  decide (idtyp (p.getD 0 0#32) = 0 ∧ lng (p.getD 0 0#32) = 2 ∧ p.getD 1 0#32 = BitVec.ofInt 32 (-1))

inductive Code
  | ok | noWrite | badAddr | noPostfix | noPos | badHndl | special | deleted | shortRead
  | stillOpn | badDir | notXdf | rdonly
deriving DecidableEq, Repr

/-- `c_xdfopn` in CREATE mode on a sequential file (xdf98.c:1798-1812) and `create_new_xdf`
(xdf98.c:2913-3008).  `seq_bof` keeps the value of `init_file`, the head of the file (xdf98.c:3114). -/
def create (sign : W) (nprm : BitVec 16) (lprm : Nat) (auxw : W) (keys : List W) : St :=
  let n := keys.length / 2 + 8
  let hdr : Header :=
    { idtyp := 0, lng := n, addr := 0#32, vrsn := 0x58444630#32, sign := sign, fsiz := n,
      nrwr := 0#32, nxtn := 0#32, nbd := 0, plst := 0#32, nbig := 0, nprm := nprm, lprm := lprm,
      auxw := auxw, neff := 0#32, nrec := 0, rwflg := 0, reserved := 0#32, keys := keys }
  { hdr := { hdr with rwflg := Xdf.CREATE }, d := hdr.words, fsize := hdr.words.length,
    cur := 2 * n, bof := 0, head := List.replicate (2 * lprm) 0#32, valid := false,
    modified := true }

/-- The position after a record and its postfix (xdf98.c:2309-2319), 0-based: the next multiple of the
cluster size. -/
def nextCluster (a : Nat) : Nat :=
  let size :=
    if a >>> 18 ≥ 512 then 128
    else if a >>> 18 ≥ 128 then 32
    else if a >>> 18 ≥ 32 then 8
    else 2
  ((a + size - 1) / size) * size

/-- `c_xdfput` with handle 0 on a sequential file (xdf98.c:2146-2380).  `data` are the `nbits / 32`
words of the buffer and `junk` the memory after them, which fills the cluster.  `none`: addresses
that do not fit an `int`, or a record without room for its header. -/
def put (s : St) (data : List W) (junk : Nat → W) : Option (St × Code) :=
  if data.length % 2 ≠ 0 then some (s, .badAddr)
  else if s.hdr.rwflg = Xdf.RDMODE then some (s, .noWrite)
  else if data.length < 2 ∨ s.cur + data.length + 200 ≥ 2 ^ 31 then none
  else
    let nwords := nextCluster (s.cur + data.length + 4) - s.cur - 4
    let id := idtyp (data.getD 0 0#32)
    let addr := s.cur / 2 + 1
    let rec_ := word0 id (nwords / 2) :: BitVec.ofNat 32 addr ::
      (data.drop 2 ++ (List.range (nwords - data.length)).map junk)
    let s1 := s.wawrit s.cur rec_
    let n := (nwords / 2) % 2 ^ 24
    let h := { s.hdr with
      nrec := (s.hdr.nrec + 1) % 2 ^ 32, nxtn := s.hdr.nxtn + 1#32, fsiz := s.hdr.fsiz + nwords / 2,
      nbig := if nwords / 2 > s.hdr.nbig then nwords / 2 else s.hdr.nbig }
    let cur := s.cur + nwords
    let s2 := s1.wawrit cur (postfix_ id n addr)
    let cur := cur + 4
    let s3 := s2.wawrit cur [word0 127 1, BitVec.ofNat 32 (cur / 2 + 1)]
    some ({ s3 with hdr := h, cur := cur, fsize := cur + 2, modified := true }, .ok)

/-- `c_fstweo` (fstd98.c:3340-3379) with a level from 1 to 15.  `junk` is the length field that level 15
leaves uninitialised.  The `addr` of a mark is a word address.  `none`: an address that does not fit
an `int`. -/
def weo (s : St) (level : Nat) (junk : Nat) : Option St :=
  if s.cur + 200 ≥ 2 ^ 31 then none
  else if level < 15 then
    let s1 := s.wawrit s.cur [word0 (112 + level) 1, BitVec.ofNat 32 (s.cur + 1)]
    let s2 := { s1 with cur := s.cur + 2 }
    some (s2.wawrit s2.cur [word0 127 1, BitVec.ofNat 32 (s2.cur + 1)])
  else some (s.wawrit s.cur [word0 127 junk, BitVec.ofNat 32 (s.cur + 1)])

/-- `c_waread2` into `head_keys`. -/
def St.readHead (s : St) : St × Nat :=
  let r := waread2 s.d s.cur s.width
  ({ s with head := r ++ s.head.drop r.length }, r.length)

/-- The loop of `next_match` on a sequential file (xdf98.c:3264-3275, 3362-3389), the target and its
mask being those of the keys after the header (xdf98.c:241-243).  `none`: still running. -/
def nextMatchLoop (keys mask : List W) : Nat → St → Option (St × Option Nat)
  | 0, _ => none
  | fuel + 1, s =>
    let (s, nw) := s.readHead
    let id := idtyp (s.head.getD 0 0#32)
    let n := lng (s.head.getD 0 0#32)
    if id ≥ 112 ∨ nw < s.width then
      some (if id ≥ 112 ∧ id < 127 then { s with cur := s.cur + 2 } else s, none)
    else if id < 1 ∨ id > 127 then nextMatchLoop keys mask fuel { s with cur := s.cur + 2 * n }
    else if FstKeys.wordsMatch (s.head.take s.width) (0#32 :: 0#32 :: keys) (0#32 :: 0#32 :: mask) then
      some ({ s with valid := true, cur := s.cur + 2 * n + 4 }, some s.cur)
    else nextMatchLoop keys mask fuel { s with cur := s.cur + 2 * n + 4 }

/-- Where `c_xdfloc2` starts: `handle == 0`, `handle == -1`, `handle > 0`. -/
inductive Start
  | bof | here
  | after (a : Nat)
deriving DecidableEq, Repr

/-- `c_xdfloc2` on a sequential file (xdf98.c:1575-1700): the position of the record found. -/
def loc (s : St) (start : Start) (keys mask : List W) : Option (St × Option Nat) :=
  let fuel := s.d.length + 2
  match start with
  | .bof => nextMatchLoop keys mask fuel { s with cur := s.bof, valid := false }
  | .here => nextMatchLoop keys mask fuel { s with valid := false }
  | .after a =>
    match readAt s.d a 2 with
    | none => none
    | some w =>
      nextMatchLoop keys mask fuel { s with cur := a + 2 * lng (w.getD 0 0#32), valid := false }

/-- `c_fsteof` (fstd98.c:1584-1620). -/
def eof (s : St) : Nat :=
  let id := idtyp (s.head.getD 0 0#32)
  if id ≥ 112 ∧ id ≤ 127 then id - 112 else 0

/-- `c_xdfget2` on a sequential file (xdf98.c:1102-1179) for the record at word position `a`, the
buffer being large enough. -/
def get (s : St) (a : Nat) : Except Code (List W) :=
  if s.valid = false then .error .noPos
  else
    let id := idtyp (s.head.getD 0 0#32)
    let addr := (s.head.getD 1 0#32).toNat
    if a ≠ 2 * (addr - 1) then .error .badHndl
    else if id = 0 then .error .special
    else if id &&& 0x7E = 0x7E then .error .deleted
    else
      let n := 2 * lng (s.head.getD 0 0#32)
      let r := waread2 s.d a n
      if r.length ≠ n then .error .shortRead else .ok r

/-- `c_xdfdel` on a sequential file (xdf98.c:945-1043) for the record at word position `a`. -/
def del (s : St) (a : Nat) : Option (St × Code) :=
  if s.hdr.rwflg = Xdf.RDMODE ∨ s.hdr.rwflg = Xdf.APPEND then some (s, .rdonly)
  else
    match readAt s.d a 2 with
    | none => none
    | some w =>
      let id := idtyp (w.getD 0 0#32)
      if id = 0 then some (s, .special)
      else if id &&& 0x7E = 0x7E then some (s, .deleted)
      else
        let s1 := s.wawrit a [word0 255 (lng (w.getD 0 0#32)), w.getD 1 0#32]
        some ({ s1 with
          hdr := { s.hdr with neff := s.hdr.neff + 1#32, nrec := (s.hdr.nrec + (2 ^ 32 - 1)) % 2 ^ 32 }
          modified := true }, .ok)

/-- `c_fstrwd` (fstd98.c:2971-3004). -/
def rwd (s : St) : St := { s with cur := s.bof, valid := false }

/-- The loop of `c_fstskp` forward (fstd98.c:3040-3056).  `none`: the postfix cannot be read. -/
def skpFwd : Nat → St → Option (St × Code)
  | 0, s => some (s, .ok)
  | n + 1, s =>
    let w := waread2 s.d s.cur 2
    let id := idtyp (w.getD 0 0#32)
    if w.length ≠ 2 ∨ (id ≥ 112 ∧ id ≤ 127) then some (s, .ok)
    else
      let s := { s with cur := s.cur + 2 * lng (w.getD 0 0#32) }
      match readAt s.d s.cur 4 with
      | none => none
      | some p => if isPostfix p then skpFwd n { s with cur := s.cur + 4 } else some (s, .noPostfix)

/-- The loop of `c_fstskp` backward (fstd98.c:3057-3075). -/
def skpBack : Nat → St → Option (St × Code)
  | 0, s => some (s, .ok)
  | n + 1, s =>
    if s.cur > s.bof + 4 then
      match readAt s.d (s.cur - 4) 4 with
      | none => none
      | some p =>
        if isPostfix p then
          let s := { s with cur := 2 * ((p.getD 3 0#32).toNat - 1) }
          match readAt s.d s.cur 2 with
          | none => none
          | some w => if (w.getD 1 0#32).toNat ≠ s.cur / 2 + 1 then some (s, .noPostfix) else skpBack n s
        else some (s, .noPostfix)
    else skpBack n s

/-- `c_fstskp` (fstd98.c:3008-3112) on a file of 1998. -/
def skp (s : St) (n : Int) : Option (St × Code) :=
  if n > 0 then skpFwd n.toNat s else skpBack (-n).toNat s

/-- `c_fstskp` on a file of 1989 (fstd98.c:3077-3110): the position after `nrec`; `fwd` and `back` are
one step of either loop. -/
def skp89 (fwd back : Nat → Nat) (cur : Nat) (nrec : Int) : Nat :=
  if nrec < 0 then Nat.repeat fwd nrec.toNat cur else Nat.repeat back (-nrec).toNat cur

/-- The loop of `c_fstapp` (fstd98.c:648-665). -/
def appLoop : Nat → St → Option St
  | 0, _ => none
  | fuel + 1, s =>
    let (s, nw) := s.readHead
    let id := idtyp (s.head.getD 0 0#32)
    if nw < 2 then some { s with head := word0 127 1 :: s.head.drop 1 }
    else if id ≥ 112 ∧ id ≤ 127 then some s
    else appLoop fuel { s with cur := s.cur + 2 * lng (s.head.getD 0 0#32) }

/-- `c_fstapp` (fstd98.c:596-668). -/
def app (s : St) : Option St := appLoop (s.d.length + 2) s

/-- `c_xdfcls` on a sequential file (xdf98.c:803-893): the file left on disk.  `c_secateur` cuts a
modified file at `file_size`. -/
def close (s : St) : List W :=
  let s1 := if s.hdr.rwflg ≠ Xdf.RDMODE then s.wawrit 0 s.hdr.words else s
  let s2 := if s.modified then { s1 with d := s1.d.take s1.fsize } else s1
  let s3 := if s.hdr.rwflg ≠ Xdf.RDMODE then s2.wawrit 0 { s.hdr with rwflg := 0 }.words else s2
  s3.d

/-- `c_xdfopn` on an existing sequential file (xdf98.c:1814-1913); a random one (`nbd ≠ 0`) is in
`Verif.Xdf`. -/
def openFile (d : List W) (mode : Nat) : Option (Except Code St) :=
  match readAt d 0 4 with
  | none => none
  | some w4 =>
    if w4.getD 2 0#32 = 0x58444630#32 ∨ w4.getD 2 0#32 = 0x78646630#32 then
      let n := lng (w4.getD 0 0#32)
      match readAt d 0 (2 * n) with
      | none => none
      | some hw =>
        let hdr := Header.ofWords hw
        if mode ≠ Xdf.RDMODE ∧ hdr.rwflg ≠ Xdf.RDMODE then some (.error .stillOpn)
        else if hdr.nbd ≠ 0 then none
        -- 'STDR', 'stdr'
        else if w4.getD 3 0#32 = 0x53544452#32 ∨ w4.getD 3 0#32 = 0x73746472#32 then
          some (.error .badDir)
        else
          some (.ok { hdr := { hdr with rwflg := mode }, d := d, fsize := d.length, cur := 2 * n,
                      bof := 2 * n, head := List.replicate (2 * hdr.lprm) 0#32, valid := false,
                      modified := false })
    else some (.error .notXdf)

end Verif.XdfSeq
