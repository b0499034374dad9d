import Verif.SwapBuffer

/-!
Model of word-addressable files: src/primitives/c_baseio.c (`c_wawrit2`, `c_waread2`, `qqcwawr`,
`qqcward` and the page cache) and src/primitives/wafile.h.

One local file that is not a CMCARC archive (`offset` of `wafile` 0, so `file_size` and
`eff_file_size` are the same).  Words have addresses from 1.  Word offset 0 asks for sequential
access and is not modelled.  The cache is shared by all files; what the other files do to this one
is to make it give up pages, at any time.  Which page goes depends on access counts; here any page
may go, so theorems hold for every replacement policy.  Page memory is recycled: a page starts with
arbitrary contents.
-/
namespace Verif.WaFile

abbrev Word := BitVec 32

/-- What can go wrong. -/
inductive Fail
  | exit      -- the library stops the program
  | corrupt   -- access outside of a page in memory
  | sequential -- word offset 0, not modelled
deriving DecidableEq, Repr

/-- `PAGEINFO`, wafile.h lines 15-23 (access counts apart). -/
structure Pg where
  wa0 : Nat
  walast : Nat
  touch : Bool
  data : List Word
deriving DecidableEq, Repr

/-- The file on disk, the size known to the library, and the pages in use. -/
structure File where
  disk : List Word
  size : Nat
  pages : List Pg
deriving DecidableEq, Repr

/-- `lseek` to a word and `write`; a gap reads as zeros. -/
def diskWrite (disk : List Word) (pos : Nat) (ws : List Word) : List Word :=
  if ws.isEmpty then disk
  else disk.take pos ++ List.replicate (pos - disk.length) 0#32 ++ ws ++ disk.drop (pos + ws.length)

/-- What the outside world decides at each page access: the page given up when the file has all the
pages it may have, the pages given up for lack of memory, and the contents of recycled memory. -/
structure World where
  victim : Nat
  others : List Nat
  junk : Nat → Word

/-- `scrap_page`, lines 1602-1656, once the page is chosen. -/
def scrap (f : File) (k : Nat) : File :=
  match f.pages[k % f.pages.length]? with
  | none => f
  | some p =>
    { f with
      disk := if p.touch then diskWrite f.disk (p.wa0 - 1) (p.data.take (p.walast + 1 - p.wa0))
        else f.disk
      pages := f.pages.eraseIdx (k % f.pages.length) }

/-- The pages given up in `get_new_page`, lines 1676-1697; `nb` is `WA_PAGE_NB`. -/
def makeRoom (nb : Nat) (w : World) (f : File) : File :=
  w.others.foldl scrap (if f.pages.length ≥ nb then scrap f w.victim else f)

/-- The page that contains `[adr, adr+n)`, lines 2031-2040 and 2143-2152. -/
def findPage (ps : Nat) (f : File) (adr n : Nat) : Option Nat :=
  f.pages.findIdx? fun p => decide (adr ≥ p.wa0 ∧ adr + n ≤ p.wa0 + ps)

/-- First word of the page for an address, lines 2046-2047 and 2158-2159. -/
def pageStart (ps adr : Nat) : Nat := Nat.max (adr - adr % ps + 1) 1

/-- Reading of a page, lines 2051-2070 (2170-2188 for `wa_page_write`, which asks for
`readbytes` only). -/
def loadPage (ps : Nat) (f : File) (wa0 ask : Nat) : Except Fail Pg :=
  let need : Int := if ps + wa0 > f.size then (f.size : Int) + 1 - wa0 else ps
  let got := (f.disk.drop (wa0 - 1)).take ask
  if (got.length : Int) < need then .error .exit
  else .ok ⟨wa0, wa0 + got.length - 1, false, got ++ List.replicate (ps - got.length) 0#32⟩

/-- `wa_page_read`, lines 2029-2069: the page to read from. -/
def readSel (ps nb : Nat) (w : World) (f : File) (adr n : Nat) : Except Fail (File × Nat) :=
  match findPage ps f adr n with
  | some k => .ok (f, k)
  | none =>
    match loadPage ps (makeRoom nb w f) (pageStart ps adr) ps with
    | .error e => .error e
    | .ok p =>
      .ok ({ makeRoom nb w f with pages := (makeRoom nb w f).pages ++ [p] }, (makeRoom nb w f).pages.length)

/-- `wa_page_read`, lines 2071-2091.  The check at its end compares every page with the one just
read instead of comparing pages with each other: with two pages or more it stops the program. -/
def fetch (ps : Nat) (f : File) (k adr n : Nat) : Except Fail (File × List Word) :=
  match f.pages[k]? with
  | none => .error .corrupt
  | some p =>
    if adr < p.wa0 ∨ adr + n > p.wa0 + ps then .error .corrupt
    else if (List.range f.pages.length).any (fun j => (List.range f.pages.length).any fun i =>
        decide (j ≠ i) && (f.pages[j]?).any fun q => decide (q.wa0 ≥ p.wa0 ∧ q.wa0 ≤ p.wa0 + ps - 1)) then
      .error .exit
    else .ok (f, (p.data.drop (adr - p.wa0)).take n)

/-- `wa_page_read`, lines 2006-2092. -/
def pageRead (ps nb : Nat) (w : World) (f : File) (adr n : Nat) : Except Fail (File × List Word) :=
  match readSel ps nb w f adr n with
  | .error e => .error e
  | .ok (f, k) => fetch ps f k adr n

/-- `wa_page_write`, lines 2141-2189: the page to write in. -/
def writeSel (ps nb : Nat) (w : World) (f : File) (adr n : Nat) : Except Fail (File × Nat) :=
  match findPage ps f adr n with
  | some k => .ok (f, k)
  | none =>
    let wa0 := pageStart ps adr
    let g := makeRoom nb w f
    if adr > wa0 ∨ (adr + n ≠ wa0 + ps ∧ adr + n < g.size) then
      match loadPage ps g wa0 (if ps + wa0 > g.size then g.size + 1 - wa0 else ps) with
      | .error e => .error e
      | .ok p => .ok ({ g with pages := g.pages ++ [p] }, g.pages.length)
    else
      .ok ({ g with pages := g.pages ++ [⟨wa0, 0, false, (List.range ps).map w.junk⟩] }, g.pages.length)

/-- `wa_page_write`, lines 2191-2223. -/
def store (ps : Nat) (f : File) (k adr : Nat) (ws : List Word) : Except Fail File :=
  match f.pages[k]? with
  | none => .error .corrupt
  | some p =>
    if adr < p.wa0 ∨ adr + ws.length > p.wa0 + ps then .error .corrupt
    else if adr > f.size + 1 then .error .exit
    else
      let p' : Pg :=
        ⟨p.wa0, Nat.max p.walast (adr + ws.length - 1), true,
          p.data.take (adr - p.wa0) ++ ws ++ p.data.drop (adr - p.wa0 + ws.length)⟩
      let pages := f.pages.set k p'
      if (List.range pages.length).any (fun j => (List.range pages.length).any fun i =>
          decide (j ≠ i) && (pages[j]?).any fun q => (pages[i]?).any fun r =>
            decide (q.wa0 ≥ r.wa0 ∧ q.wa0 ≤ r.wa0 + ps - 1)) then
        .error .exit
      else .ok { f with pages := pages, size := Nat.max f.size (adr + ws.length - 1) }

/-- `wa_page_write`, lines 2119-2224. -/
def pageWrite (ps nb : Nat) (w : World) (f : File) (adr : Nat) (ws : List Word) : Except Fail File :=
  match writeSel ps nb w f adr ws.length with
  | .error e => .error e
  | .ok (f, k) => store ps f k adr ws

/-- Last address of the page of an address, lines 2319 and 2392. -/
def lastAdr (ps adr : Nat) : Nat := (adr + ps - 1) / ps * ps

/-- The loop of `qqcwawr` over the pages, lines 2315-2332; world `ω i` for the `i`-th page access. -/
def writePages (ps nb : Nat) : Nat → (Nat → World) → File → Nat → List Word → Except Fail File
  | 0, _, f, _, _ => .ok f
  | fuel + 1, ω, f, adr, ws =>
    if ws.length = 0 then .ok f
    else if ws.length > lastAdr ps adr - adr then
      match pageWrite ps nb (ω 0) f adr (ws.take (lastAdr ps adr - adr + 1)) with
      | .error e => .error e
      | .ok f => writePages ps nb fuel (fun i => ω (i + 1)) f (adr + (lastAdr ps adr - adr + 1))
          (ws.drop (lastAdr ps adr - adr + 1))
    else pageWrite ps nb (ω 0) f adr ws

/-- `qqcwawr`, lines 2227-2337, for a local file: without pages (`ps` = 0) or through them. -/
def rawWrite (ps nb : Nat) (ω : Nat → World) (f : File) (adr : Nat) (ws : List Word) : Except Fail File :=
  if ps = 0 then
    .ok { f with disk := diskWrite f.disk (adr - 1) ws, size := Nat.max f.size (adr + ws.length - 1) }
  else writePages ps nb ws.length ω f adr ws

/-- The loop of `qqcward` over the pages, lines 2397-2412. -/
def readPages (ps nb : Nat) : Nat → (Nat → World) → File → Nat → Nat → Except Fail (File × List Word)
  | 0, _, f, _, _ => .ok (f, [])
  | fuel + 1, ω, f, adr, n =>
    if n = 0 then .ok (f, [])
    else if n > lastAdr ps adr - adr then
      match pageRead ps nb (ω 0) f adr (lastAdr ps adr - adr + 1) with
      | .error e => .error e
      | .ok (f, a) =>
        match readPages ps nb fuel (fun i => ω (i + 1)) f (adr + (lastAdr ps adr - adr + 1))
            (n - (lastAdr ps adr - adr + 1)) with
        | .error e => .error e
        | .ok (f, b) => .ok (f, a ++ b)
    else pageRead ps nb (ω 0) f adr n

/-- `qqcward`, lines 2340-2415, for a local file. -/
def rawRead (ps nb : Nat) (ω : Nat → World) (f : File) (adr n : Nat) : Except Fail (File × List Word) :=
  if ps = 0 then
    if ((f.disk.drop (adr - 1)).take n).length ≠ n then .error .exit
    else .ok (f, (f.disk.drop (adr - 1)).take n)
  else readPages ps nb n ω f adr n

/-- Files hold big-endian words. -/
def swapAll (ws : List Word) : List Word := ws.map SwapBuffer.swapWord

/-- The words that fill a hole, lines 941-943: `memset` clears 2048 bytes, that is 512 of the 2048
words; the others are whatever is on the stack. -/
def scrapWords (stack : Nat → Word) (n : Nat) : List Word :=
  (List.range n).map fun i => if i < 512 then 0#32 else stack i

/-- The filling of a hole in `c_wawrit2`, lines 940-944. -/
def fillHole (ps nb : Nat) (ω : Nat → World) (stack : Nat → Word) (f : File) (offset : Nat) : Except Fail File :=
  if offset > f.size + 1 then rawWrite ps nb ω f (f.size + 1) (scrapWords stack (offset - f.size))
  else .ok f

/-- `c_wawrit2`, lines 916-951, on an open file with write permission (a little-endian machine). -/
def wawrit (ps nb : Nat) (ω : Nat → World) (stack : Nat → Word) (f : File) (offset : Nat)
    (ws : List Word) : Except Fail File :=
  if offset = 0 then .error .sequential
  else if offset > f.size + 2048 then .error .exit
  else
    match fillHole ps nb ω stack f offset with
    | .error e => .error e
    | .ok f => rawWrite ps nb (fun i => ω (i + 2048)) f offset (swapAll ws)

/-- `c_waread2`, lines 1003-1034, on an open file: the number returned and the words. -/
def waread (ps nb : Nat) (ω : Nat → World) (f : File) (offset n : Nat) :
    Except Fail (File × Int × List Word) :=
  if offset = 0 then .error .sequential
  else if offset > f.size + 2 then .ok (f, -2, [])
  else if f.size = 0 then .ok (f, 0, [])
  else
    let ln : Int := if offset + n - 1 > f.size then (f.size : Int) + 1 - offset else n
    if ln = 0 then .ok (f, 0, [])
    else if ln < 0 then
      -- `read` of a huge number of bytes at the end of the file; no page is read
      if ps = 0 then .error .exit else .ok (f, ln, [])
    else
      match rawRead ps nb ω f offset ln.toNat with
      | .error e => .error e
      | .ok (f, ws) => .ok (f, ln, swapAll ws)

/-- `wa_pages_flush`, lines 1721-1728. -/
def flush (order : List Nat) (f : File) : File :=
  (order ++ List.replicate f.pages.length 0).foldl scrap f

end Verif.WaFile
