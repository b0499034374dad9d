/-! # Model of random XDF files (`src/fstd98/xdf98.c`, `src/fstd98/qstdir.h`)

An open file is the in-memory part `Mem` (header and directory pages of its file table entry) and
the disk, a list of 32-bit words.  Operations return the new in-memory part, the list of disk
writes they issue in order, and the C return code; `none` stands for behaviour outside the model
(out-of-bounds access, file of 8 Gb or more, reading past the end of the file).

Word addresses of the word-addressable layer (`c_wawrit`, `c_waread`) are 1-based in C and 0-based
here; 64-bit unit addresses (`addr` fields) stay 1-based as in C.

Not modelled here: sequential files, the 1989 format, file filters, linked files (see
`Verif.XdfSearch`), the page cache under the word-addressable layer. -/

namespace Verif.Xdf

abbrev W := BitVec 32

/-! ## Disk -/

abbrev Disk := List W

/-- `c_wawrit` on an uncached file: words `ws` at word position `a`; writing after the end leaves a
hole that reads as zero. -/
def writeAt (d : Disk) (a : Nat) (ws : List W) : Disk :=
  d.take a ++ List.replicate (a - d.length) 0#32 ++ ws ++ d.drop (a + ws.length)

/-- `c_waread` of `n` words at word position `a`; `none` when the file is too short. -/
def readAt (d : Disk) (a n : Nat) : Option (List W) :=
  if a + n ≤ d.length then some ((d.drop a).take n) else none

/-- One disk write: position and words. -/
abbrev Write := Nat × List W

def apply (d : Disk) (ws : List Write) : Disk := ws.foldl (fun d w => writeAt d w.1 w.2) d

/-! ## Directory -/

/-- `ENTRIES_PER_PAGE` (qstdir.h:67) -/
abbrev perPage : Nat := 256

/-- `MAX_DIR_PAGES` (qstdir.h:69) -/
abbrev maxPages : Nat := 1024

/-- A directory entry: `xdf_record_header` and the primary keys (qstdir.h:391-412). -/
structure Entry where
  idtyp : Nat
  lng : Nat
  addr : Nat
  keys : List W
deriving DecidableEq, Repr

/-- The words of an entry. -/
def Entry.words (e : Entry) : List W :=
  (BitVec.ofNat 8 e.idtyp ++ BitVec.ofNat 24 e.lng) :: BitVec.ofNat 32 e.addr :: e.keys

/-- The entry held by words. -/
def Entry.ofWords (w : List W) : Entry :=
  { idtyp := ((w.getD 0 0#32).extractLsb' 24 8).toNat
    lng := ((w.getD 0 0#32).extractLsb' 0 24).toNat
    addr := (w.getD 1 0#32).toNat
    keys := w.drop 2 }

/-- `full_dir_page` and `xdf_dir_page` (qstdir.h:319-384): the eight words before the entries, the
entries, and the in-memory `modified` flag. -/
structure Page where
  w0 : W
  addr : Nat
  res1 : W
  res2 : W
  nxtAddr : Nat
  nent : Nat
  chksum : W
  res3 : W
  entries : List Entry
  modified : Bool
deriving DecidableEq, Repr

/-- The words of a page on disk, from word 4 on (those that enter the checksum). -/
def Page.body (p : Page) : List W :=
  BitVec.ofNat 32 p.nxtAddr :: BitVec.ofNat 32 p.nent :: p.chksum :: p.res3 ::
    p.entries.flatMap Entry.words

/-- The words of a page on disk. -/
def Page.words (p : Page) : List W :=
  p.w0 :: BitVec.ofNat 32 p.addr :: p.res1 :: p.res2 :: p.body

/-- Cut a list in `n` pieces of `k` words. -/
def chunks (k : Nat) : Nat → List W → List (List W)
  | 0, _ => []
  | n + 1, l => l.take k :: chunks k n (l.drop k)

/-- The page held by words (`width` words per entry). -/
def Page.ofWords (width : Nat) (w : List W) : Page :=
  { w0 := w.getD 0 0#32, addr := (w.getD 1 0#32).toNat, res1 := w.getD 2 0#32,
    res2 := w.getD 3 0#32, nxtAddr := (w.getD 4 0#32).toNat, nent := (w.getD 5 0#32).toNat,
    chksum := w.getD 6 0#32, res3 := w.getD 7 0#32,
    entries := (chunks width perPage (w.drop 8)).map Entry.ofWords, modified := false }

/-- `file_header` (qstdir.h:699-745). -/
structure Header where
  idtyp : Nat
  lng : Nat
  addr : W
  vrsn : W
  sign : W
  fsiz : Nat
  nrwr : W
  nxtn : W
  nbd : Nat
  plst : W
  nbig : Nat
  nprm : BitVec 16
  lprm : Nat
  auxw : W
  neff : W
  nrec : Nat
  rwflg : Nat
  reserved : W
  keys : List W
deriving DecidableEq, Repr

/-- The words of the header. -/
def Header.words (h : Header) : List W :=
  [BitVec.ofNat 8 h.idtyp ++ BitVec.ofNat 24 h.lng, h.addr, h.vrsn, h.sign,
   BitVec.ofNat 32 h.fsiz, h.nrwr, h.nxtn, BitVec.ofNat 32 h.nbd, h.plst, BitVec.ofNat 32 h.nbig,
   h.nprm ++ BitVec.ofNat 16 h.lprm, h.auxw, h.neff, BitVec.ofNat 32 h.nrec,
   BitVec.ofNat 32 h.rwflg, h.reserved] ++ h.keys

/-- The header held by words. -/
def Header.ofWords (w : List W) : Header :=
  let g := fun i => w.getD i 0#32
  { idtyp := ((g 0).extractLsb' 24 8).toNat, lng := ((g 0).extractLsb' 0 24).toNat, addr := g 1,
    vrsn := g 2, sign := g 3, fsiz := (g 4).toNat, nrwr := g 5, nxtn := g 6, nbd := (g 7).toNat,
    plst := g 8, nbig := (g 9).toNat, nprm := (g 10).extractLsb' 16 16,
    lprm := ((g 10).extractLsb' 0 16).toNat, auxw := g 11, neff := g 12, nrec := (g 13).toNat,
    rwflg := (g 14).toNat, reserved := g 15, keys := w.drop 16 }

/-- The parts of a `file_table_entry` used by a random file. -/
structure Mem where
  hdr : Header
  pages : List Page
  nxtadr : Nat
  modified : Bool
deriving DecidableEq, Repr

/-- Words per entry, `W64TOWD(primary_len)`; `primary_len` is `header->lprm` (xdf98.c:1847). -/
def Mem.width (m : Mem) : Nat := 2 * m.hdr.lprm

/-- Open modes (qstdir.h:186-194). -/
abbrev RDMODE : Nat := 0
abbrev WMODE : Nat := 1
abbrev CREATE : Nat := 2
abbrev RWMODE : Nat := 3
abbrev APPEND : Nat := 4

/-- Return codes used (qstdir.h:77-180): their names, not their numbers. -/
inductive Code
  | ok | badHndl | badPageno | rdonly | noWrite | special | deleted | dirFull | badAddr
  | stillOpn | badDir | notXdf
deriving DecidableEq, Repr

/-- `add_dir_page` with the write flag set (xdf98.c:118-184).  `res3` and `junk` are the
uninitialised words of the new page (`malloc`; the clearing loop covers half of the entries). -/
def addDirPage (m : Mem) (res3 : W) (junk : List Entry) : Option (Mem × List Write × Code) :=
  if m.pages.length ≥ maxPages then some (m, [], .dirFull)
  else
    let wdlng := perPage * m.hdr.lprm + 4
    let addr := (m.nxtadr - 1) / 2 + 1
    let page : Page :=
      { w0 := BitVec.ofNat 8 0 ++ BitVec.ofNat 24 wdlng, addr := addr, res1 := 0#32, res2 := 0#32,
        nxtAddr := 0, nent := 0, chksum := 0#32, res3 := res3, entries := junk, modified := true }
    let pages := match m.pages.getLast? with
      | some last => m.pages.set (m.pages.length - 1) { last with nxtAddr := addr }
      | none => m.pages
    let nxtadr := m.nxtadr + 2 * wdlng
    let hdr := { m.hdr with fsiz := (nxtadr - 1) / 2, nbd := m.hdr.nbd + 1,
                            plst := BitVec.ofNat 32 addr }
    if (nxtadr - 1) / 2 ≥ 2 ^ 30 then none
    else some ({ m with hdr := hdr, pages := pages ++ [page], nxtadr := nxtadr },
               [(m.nxtadr - 1, page.words)], .ok)

/-- The words written by `create_new_xdf` and the in-memory state after `c_xdfopn` in CREATE mode
(xdf98.c:2913-3008, 1798-1811).  `keys` are the key descriptors, `lprm` and `auxw` the lengths
computed from them. -/
def create (sign : W) (nprm : BitVec 16) (lprm : Nat) (auxw : W) (keys : List W) (res3 : W)
    (junk : List Entry) : Option (Mem × List Write × Code) :=
  let lng := keys.length / 2 + 8
  let hdr : Header :=
    { idtyp := 0, lng := lng, addr := 0#32, vrsn := 0x58444630#32, sign := sign, fsiz := lng,
      nrwr := 0#32, nxtn := 0#32, nbd := 0, plst := 0#32, nbig := 0, nprm := nprm, lprm := lprm,
      auxw := auxw, neff := 0#32, nrec := 0, rwflg := 0, reserved := 0#32, keys := keys }
  let m : Mem := { hdr := hdr, pages := [], nxtadr := 1 + 2 * lng, modified := false }
  match addDirPage m res3 junk with
  | none => none
  | some (m', ws, c) =>
    some ({ m' with hdr := { m'.hdr with rwflg := CREATE }, modified := true },
          (0, hdr.words) :: ws, c)

/-- A record is deleted (xdf98.c:1014, 1119, 2249). -/
def isDeleted (e : Entry) : Bool := (e.idtyp &&& 0x7E) == 0x7E

/-- The directory entry named by a handle (xdf98.c:973-1003, 1072-1098, 2213-2238): page `p`,
record `r` of this file.  `record_number > nent` is the test of the code. -/
def locate (m : Mem) (p r : Nat) : Except Code (Option (Page × Entry)) :=
  match m.pages[p]? with
  | none => .error .badPageno
  | some pg =>
    if r > pg.nent then .error .badHndl
    else .ok (pg.entries[r]?.map fun e => (pg, e))

/-- Replace entry `r` of page `p` and mark the page modified. -/
def setEntry (pages : List Page) (p r : Nat) (e : Entry) : List Page :=
  match pages[p]? with
  | none => pages
  | some pg => pages.set p { pg with entries := pg.entries.set r e, modified := true }

/-- `c_xdfdel` on a random file (xdf98.c:945-1043). -/
def del (m : Mem) (p r : Nat) : Option (Mem × List Write × Code) :=
  if m.hdr.rwflg = RDMODE ∨ m.hdr.rwflg = APPEND then some (m, [], .rdonly)
  else match locate m p r with
    | .error c => some (m, [], c)
    | .ok none => none
    | .ok (some (_, e)) =>
      if e.idtyp = 0 then some (m, [], .special)
      else if isDeleted e then some (m, [], .deleted)
      else
        let hdr := { m.hdr with neff := m.hdr.neff + 1#32,
                                nrec := (m.hdr.nrec + (2 ^ 32 - 1)) % 2 ^ 32 }
        some ({ m with hdr := hdr, pages := setEntry m.pages p r { e with idtyp := 254 },
                       modified := true }, [], .ok)

/-- What is to be done by `c_xdfput`: the decoded `handle` argument.  Zero appends; a positive
handle rewrites, in place when the length allows; a negative one (BURP) deletes the old record and
writes at the end. -/
inductive Target
  | append
  | rewrite (p r : Nat)
  | rewriteEnd (p r : Nat)
deriving DecidableEq, Repr

/-- The last part of `c_xdfput` (xdf98.c:2304-2375): page `p` slot `r` receives the record.
`data` are the record words of the buffer; `toEnd` is `write_to_end`; `rew` is `handle != 0`. -/
def finishPut (m : Mem) (p r : Nat) (writeAddr : Nat) (data : List W) (toEnd rew : Bool) :
    Option (Mem × List Write × Code) :=
  let nwords := data.length
  let e : Entry :=
    { idtyp := ((data.getD 0 0#32).extractLsb' 24 8).toNat
      lng := (nwords / 2) % 2 ^ 24
      addr := (writeAddr - 1) / 2 + 1
      keys := (data.drop 2).take (m.width - 2) }
  let rec_ := (BitVec.ofNat 8 e.idtyp ++ BitVec.ofNat 24 e.lng) :: BitVec.ofNat 32 e.addr ::
    data.drop 2
  let h := { m.hdr with nrec := (m.hdr.nrec + 1) % 2 ^ 32 }
  let h := if toEnd then
      { h with nxtn := h.nxtn + 1#32, fsiz := h.fsiz + nwords / 2,
               nbig := if nwords / 2 > h.nbig then nwords / 2 else h.nbig }
    else h
  let h := if rew then { h with nrwr := h.nrwr + 1#32 } else h
  if h.fsiz ≥ 2 ^ 30 then none
  else
    some ({ hdr := h, pages := setEntry m.pages p r e,
            nxtadr := if toEnd then 2 * h.fsiz + 1 else m.nxtadr, modified := true },
          [(writeAddr - 1, rec_)], .ok)

/-- The append part of `c_xdfput` (xdf98.c:2280-2294, then 2298-2302 when `old` names the record
being replaced, then the rest). -/
def putEnd (m : Mem) (data : List W) (old : Option (Nat × Nat)) (res3 : W) (junk : List Entry) :
    Option (Mem × List Write × Code) :=
  match m.pages.getLast? with
  | none => none
  | some last =>
    -- a full last page: mark it modified, add a page
    let added : Option (Mem × List Write × Code) :=
      if last.nent ≥ perPage then
        addDirPage { m with pages := m.pages.set (m.pages.length - 1) { last with modified := true } }
          res3 junk
      else some (m, [], .ok)
    match added with
    | none => none
    | some (m1, ws1, .ok) =>
      match m1.pages.getLast? with
      | none => none
      | some pg =>
        let p := m1.pages.length - 1
        let slot := pg.nent
        let m2 := { m1 with pages := m1.pages.set p { pg with nent := pg.nent + 1 } }
        let writeAddr := m2.nxtadr
        match old with
        | none =>
          match finishPut m2 p slot writeAddr data true false with
          | none => none
          | some (m4, ws, c) => some (m4, ws1 ++ ws, c)
        | some (op, or) =>
          match del m2 op or with
          | none => none
          | some (m3, _, .ok) =>
            match finishPut m3 p slot writeAddr data true true with
            | none => none
            | some (m4, ws, c) => some (m4, ws1 ++ ws, c)
          | some (m3, _, c) => some (m3, ws1, c)
    | some (m1, ws1, c) => some (m1, ws1, c)

/-- `c_xdfput` on a random file (xdf98.c:2146-2375).  `data` is the record, `nbits / 32` words. -/
def put (m : Mem) (t : Target) (data : List W) (res3 : W) (junk : List Entry) :
    Option (Mem × List Write × Code) :=
  if data.length % 2 ≠ 0 then some (m, [], .badAddr)
  else if m.hdr.rwflg = RDMODE then some (m, [], .noWrite)
  else match t with
    | .append => putEnd m data none res3 junk
    | .rewrite p r =>
      if m.hdr.rwflg = APPEND then some (m, [], .noWrite)
      else match locate m p r with
        | .error c => some (m, [], c)
        | .ok none => none
        | .ok (some (_, e)) =>
          if e.idtyp = 0 then some (m, [], .special)
          else if isDeleted e then some (m, [], .deleted)
          else if 2 * e.lng ≠ data.length then putEnd m data (some (p, r)) res3 junk
          else
            match del m p r with
            | none => none
            | some (m2, _, .ok) => finishPut m2 p r (2 * (e.addr - 1) + 1) data false true
            | some (m2, _, c) => some (m2, [], c)
    | .rewriteEnd p r =>
      if m.hdr.rwflg = APPEND then some (m, [], .noWrite)
      else match locate m p r with
        | .error c => some (m, [], c)
        | .ok none => none
        | .ok (some (_, e)) =>
          if e.idtyp = 0 then some (m, [], .special)
          else if isDeleted e then some (m, [], .deleted)
          else putEnd m data (some (p, r)) res3 junk

/-- `c_xdfget2` on a random file (xdf98.c:1047-1179), the buffer being large enough: all words of
the record. -/
def get (m : Mem) (d : Disk) (p r : Nat) : Except Code (Option (List W)) :=
  match locate m p r with
  | .error c => .error c
  | .ok none => .ok none
  | .ok (some (_, e)) =>
    if e.idtyp = 0 then .error .special
    else if isDeleted e then .error .deleted
    else .ok (readAt d (2 * (e.addr - 1)) (2 * e.lng))

/-! ## Close and open -/

/-- The reset of one entry at close (xdf98.c:840-845). -/
def closeEntry (e : Entry) : Entry :=
  let e := if (e.idtyp ||| 0x80) = 254 then { e with idtyp := 255 } else e
  { e with idtyp := if (e.idtyp ||| 0x80) = 255 then 255 else e.idtyp &&& 0x7f }

/-- The record headers rewritten at close: those of entries marked 254 (xdf98.c:841-844). -/
def closeMarks (es : List Entry) : List Write :=
  (es.filter fun e => (e.idtyp ||| 0x80) = 254).map fun e =>
    (2 * (e.addr - 1), [BitVec.ofNat 8 255 ++ BitVec.ofNat 24 e.lng, BitVec.ofNat 32 e.addr])

def xorAll (ws : List W) : W := ws.foldl (· ^^^ ·) 0#32

/-- Writing back one modified page (xdf98.c:835-858): entries reset, checksum, page. -/
def closePage (pg : Page) : Page × List Write :=
  let es := (pg.entries.take pg.nent).map closeEntry ++ pg.entries.drop pg.nent
  let pg1 := { pg with entries := es }
  let sum := pg1.body.foldl (· ^^^ ·) pg1.chksum
  let pg2 := { pg1 with chksum := sum, modified := false }
  (pg2, closeMarks (pg.entries.take pg.nent) ++ [(2 * (pg.addr - 1), pg2.words)])

/-- The pages after close and all writes they cause, in order. -/
def closePages : List Page → List Page × List Write
  | [] => ([], [])
  | pg :: rest =>
    let (ps, ws) := closePages rest
    if pg.modified then
      let (pg', w) := closePage pg
      (pg' :: ps, w ++ ws)
    else (pg :: ps, ws)

/-- `c_xdfcls` (xdf98.c:803-893): the disk writes in order. -/
def close (m : Mem) : List Write :=
  let w1 := if m.hdr.rwflg ≠ RDMODE then [(0, m.hdr.words)] else []
  let w2 := if m.modified then (closePages m.pages).2 else []
  let w3 := if m.hdr.rwflg ≠ RDMODE then [(0, { m.hdr with rwflg := 0 }.words)] else []
  w1 ++ w2 ++ w3

/-- `c_xdfcls` in checkpoint mode (`c_fstckp`; xdf98.c:803-869, 888-890): the file stays open. -/
def checkpoint (m : Mem) : Mem × List Write :=
  let w1 := if m.hdr.rwflg ≠ RDMODE then [(0, m.hdr.words)] else []
  if m.modified then
    ({ m with pages := (closePages m.pages).1, modified := false }, w1 ++ (closePages m.pages).2)
  else (m, w1)

/-- The loop reading the directory pages (xdf98.c:1886-1911): `n` pages still to read, next one at
word position `a` (0-based).  `none`: read past the end of the file. -/
def readPages (d : Disk) (lprm : Nat) : Nat → Nat → Option (Except Code (List Page))
  | 0, _ => some (.ok [])
  | n + 1, a =>
    match readAt d a (2 * (perPage * lprm + 4)) with
    | none => none
    | some ws =>
      let pg := Page.ofWords (2 * lprm) ws
      -- W64TOWD(nxt_addr - 1) + 1 in unsigned arithmetic, stored in an `int`
      let wdu : Nat := (2 * (pg.nxtAddr + (2 ^ 32 - 1)) + 1) % 2 ^ 32
      let wda : Int := if wdu ≥ 2 ^ 31 then (wdu : Int) - 2 ^ 32 else wdu
      if (wda = 0 ∧ n ≠ 0) ∨ wda > (d.length : Int) then some (.error .badDir)
      else if n = 0 then some (.ok [pg])
      else if wda ≤ 0 then none
      else
        match readPages d lprm n (wda.toNat - 1) with
        | none => none
        | some (.error c) => some (.error c)
        | some (.ok ps) => some (.ok (pg :: ps))

/-- `c_xdfopn` on an existing random file (xdf98.c:1814-1921); `mode` is RDMODE, WMODE, RWMODE or
APPEND.  The directory checksum is only reported by C and does not change the outcome. -/
def openFile (d : Disk) (mode : Nat) : Option (Except Code Mem) :=
  match readAt d 0 4 with
  | none => none
  | some w4 =>
    if w4.getD 2 0#32 = 0x58444630#32 ∨ w4.getD 2 0#32 = 0x78646630#32 then
      let lng := ((w4.getD 0 0#32).extractLsb' 0 24).toNat
      match readAt d 0 (2 * lng) with
      | none => none
      | some hw =>
        let hdr := Header.ofWords hw
        if mode ≠ RDMODE ∧ hdr.rwflg ≠ RDMODE then some (.error .stillOpn)
        else
          let hdr := { hdr with rwflg := mode }
          if hdr.nbd = 0 then some (.error .badDir)
          -- `add_dir_page` fails unnoticed
          else if hdr.nbd > maxPages then none
          else
            match readPages d hdr.lprm hdr.nbd (2 * lng) with
            | none => none
            | some (.error c) => some (.error c)
            | some (.ok ps) =>
              some (.ok { hdr := hdr, pages := ps, nxtadr := 2 * hdr.fsiz + 1, modified := false })
    else some (.error .notXdf)

/-- The checksum test at open (xdf98.c:1892-1899): true when the page is accepted silently. -/
def checksumOk (pageWords : List W) : Bool := xorAll (pageWords.drop 4) == 0#32

end Verif.Xdf
