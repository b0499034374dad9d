import Mathlib.Logic.Function.Basic
/-! # Changes to linked random files

Model of the changes made by `c_xdfdel`, `c_xdfput` and `add_dir_page` when the file may be linked to
others, of `c_xdfget2` and of `c_xdfcls` (src/fstd98/xdf98.c).  Simplified: random files open for
writing; a page holds the entries used and no others (a handle to the first unused entry is refused);
the data of a record is one number, stored at the address of the record; keys are not kept. -/

namespace Verif.LinkEdit

/-- A directory entry: `idtyp`, `addr` and `lng` in units of 64 bits. -/
structure Ent where
  idtyp : Nat
  addr : Nat
  lng : Nat
deriving DecidableEq, Repr

/-- A directory page in memory. -/
structure Pg where
  ents : List Ent
  modified : Bool
deriving DecidableEq, Repr

/-- An open file.  `tail` is the file whose first page follows the last page (`next_page`), `link` is
whether `link ≠ -1`; `saved` and `savedNrec` are the directory and the count as they are on disk, `data` the
records on disk. -/
structure Fil where
  pages : List Pg
  link : Bool
  tail : Option Nat
  nrec : Int
  neff : Int
  fsiz : Nat
  modified : Bool
  data : Nat → Option Nat
  saved : List (List Ent)
  savedNrec : Int

/-- `file_table`; files that are not open have no pages. -/
abbrev Table := Nat → Fil

/-- `ENTRIES_PER_PAGE` (qstdir.h:67). -/
def perPage : Nat := 256

/-- The length of a directory page on disk (xdf98.c:160) for the keys of standard files. -/
def pageLng : Nat := perPage * 9 + 4

/-- The page that follows (`next_page`, xdf98.c:146-153, 1533). -/
def nextPage (T : Table) (l : Nat × Nat) : Option (Nat × Nat) :=
  if l.2 + 1 < (T l.1).pages.length then some (l.1, l.2 + 1) else (T l.1).tail.map fun g => (g, 0)

def walk (T : Table) : Nat → Option (Nat × Nat) → Option (Nat × Nat)
  | 0, l => l
  | n + 1, l => walk T n (l.bind (nextPage T))

/-- The page a handle leads to (xdf98.c:979-998, 1074-1093, 2222-2241). -/
def pageOf (T : Table) (f p : Nat) : Option (Nat × Nat) :=
  if p < (T f).pages.length then some (f, p)
  else if (T f).link = false ∨ (T f).pages = [] then none
  else walk T (p - (T f).pages.length + 1) (some (f, (T f).pages.length - 1))

/-- The entry a handle leads to, with its page (xdf98.c:1000-1008). -/
def entry (T : Table) (f p r : Nat) : Option ((Nat × Nat) × Ent) :=
  (pageOf T f p).bind fun l => ((T l.1).pages[l.2]?).bind fun g => (g.ents[r]?).map fun e => (l, e)

/-- The tests of `idtyp` (xdf98.c:1016-1024). -/
def live (e : Ent) : Bool := e.idtyp != 0 && e.idtyp &&& 0x7E != 0x7E

def setFile (T : Table) (f : Nat) (F : Fil) : Table := Function.update T f F

/-- A page changed: entry `r` becomes `e` (xdf98.c:1026-1029, 2312-2322). -/
def setEnt (F : Fil) (p r : Nat) (e : Ent) : Fil :=
  { F with pages := F.pages.modify p fun g => { ents := g.ents.set r e, modified := true } }

/-- `c_xdfdel` (xdf98.c:946-1042); `none` if refused.  The page is that of the file it belongs to, the
counts are those of the file of the handle. -/
def del (T : Table) (f p r : Nat) : Option Table :=
  match entry T f p r with
  | none => none
  | some (l, e) =>
    if live e = false then none
    else
      let T1 := setFile T l.1 (setEnt (T l.1) l.2 r { e with idtyp := 254 })
      some (setFile T1 f { T1 f with
        neff := (T1 f).neff + 1, nrec := (T1 f).nrec - 1, modified := true })

/-- A page added to the file (`add_dir_page`, xdf98.c:118-185): the last page is now followed by the new
one, and that by none. -/
def addPage (F : Fil) : Fil :=
  { F with
    pages := F.pages ++ [{ ents := [], modified := true }]
    tail := none
    fsiz := F.fsiz + pageLng }

/-- Place for a new entry (xdf98.c:2277-2291): a page is added if the last one is full. -/
def room (F : Fil) : Fil :=
  match F.pages.getLast? with
  | none => F
  | some g =>
    if g.ents.length < perPage then F
    else addPage { F with pages := F.pages.modify (F.pages.length - 1) fun g => { g with modified := true } }

/-- A record written at the end (xdf98.c:2277-2291, 2298-2368). -/
def append (F : Fil) (idtyp lng : Nat) (x : Nat) : Fil :=
  let R := room F
  let a := R.fsiz + 1
  { R with
    pages := R.pages.modify (R.pages.length - 1) fun g =>
      { ents := g.ents ++ [{ idtyp := idtyp, addr := a, lng := lng }], modified := true }
    data := Function.update R.data a (some x)
    nrec := R.nrec + 1
    fsiz := R.fsiz + lng
    modified := true }

/-- `c_xdfput` without a handle. -/
def put (T : Table) (f idtyp lng x : Nat) : Table := setFile T f (append (T f) idtyp lng x)

/-- `c_xdfput` with a handle (xdf98.c:2205-2296): a record of the same length is written over the old
one, at its address and in the file of the handle; another is written at the end and the old one is
deleted.  Simplified: the new entry is filled before the deletion and not after it, which differs only for
a handle that leads to the new entry. -/
def rewrite (T : Table) (f p r idtyp lng x : Nat) : Option Table :=
  match entry T f p r with
  | none => none
  | some (l, e) =>
    if live e = false then none
    else if e.lng ≠ lng then del (put T f idtyp lng x) f p r
    else
      match del T f p r with
      | none => none
      | some T1 =>
        let T2 := setFile T1 l.1 (setEnt (T1 l.1) l.2 r { e with idtyp := idtyp })
        some (setFile T2 f { T2 f with
          nrec := (T2 f).nrec + 1, data := Function.update (T2 f).data e.addr (some x) })

/-- `c_xdfget2` (xdf98.c:1074-1160): read from the file the page belongs to. -/
def get (T : Table) (f p r : Nat) : Option Nat :=
  match entry T f p r with
  | none => none
  | some (l, e) => if live e = false then none else (T l.1).data e.addr

/-- How an entry is written at closing (xdf98.c:841-845). -/
def closed (e : Ent) : Ent :=
  { e with idtyp :=
      let t := if e.idtyp ||| 0x80 = 254 then 255 else e.idtyp
      if t ||| 0x80 = 255 then 255 else t &&& 0x7f }

/-- What `c_xdfcls` leaves on disk (xdf98.c:827-869): the header always, the pages changed only if the
file is marked as changed. -/
def close (F : Fil) : Fil :=
  { F with
    savedNrec := F.nrec
    saved := if F.modified then
        F.pages.mapIdx fun i g => if g.modified then g.ents.map closed else (F.saved[i]?).getD []
      else F.saved }

/-- Calls on one file. -/
inductive Op where
  | put (f idtyp lng x : Nat)
  | del (f p r : Nat)
  | rewrite (f p r idtyp lng x : Nat)

/-- A call; a call refused changes nothing. -/
def step (T : Table) : Op → Table
  | .put f t n x => put T f t n x
  | .del f p r => (del T f p r).getD T
  | .rewrite f p r t n x => (rewrite T f p r t n x).getD T

end Verif.LinkEdit
