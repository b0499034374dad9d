import Verif.Xdf
import Verif.FstKeys
/-! # Searching a random file and linked files

Model of `c_xdflnk`, `c_xdfunl`, `c_xdfloc2`, `next_match` and of the page walk shared by `c_xdfprm`,
`c_xdfget2` and `c_xdfdel`, for random files (`xdf_seq == 0`).  Directory pages are named by the index
of their file and their number in it; `next_page` pointers are followed through `nextPage`. -/

namespace Verif.Xdf

/-- What the search needs of an open file: its pages (`dir_page`, `npages`), its `link`, and where the
`next_page` pointer of its last page leads (the first page of which file). -/
structure LFile where
  pages : List Page
  link : Option Nat
  tail : Option Nat

/-- `file_table`. -/
abbrev Table := List LFile

/-- A directory page: file index, page number. -/
abbrev Loc := Nat × Nat

def pageAt (T : Table) (l : Loc) : Option Page := (T[l.1]?).bind fun f => f.pages[l.2]?

/-- The `next_page` pointer of a page (set at xdf98.c:146-153, 1533, 2604). -/
def nextPage (T : Table) (l : Loc) : Option Loc :=
  match T[l.1]? with
  | none => none
  | some f => if l.2 + 1 < f.pages.length then some (l.1, l.2 + 1) else f.tail.map fun g => (g, 0)

/-- One step of the loop of `c_xdflnk` (xdf98.c:1518-1537): file `a` is followed by file `b`. -/
def linkTo (T : Table) (a b : Nat) : Table :=
  match T[a]? with
  | none => T
  | some f => T.set a { f with link := some b, tail := some b }

/-- `c_xdflnk` (xdf98.c:1499-1542) on open files, given by their indices. -/
def xdflnk (T : Table) : List Nat → Table
  | a :: b :: rest => xdflnk (linkTo T a b) (b :: rest)
  | _ => T

/-- `c_xdfunl` (xdf98.c:2584-2608). -/
def xdfunl (T : Table) : List Nat → Table
  | [] => T
  | a :: rest =>
    match T[a]? with
    | none => xdfunl T rest
    | some f => xdfunl (T.set a { f with link := none, tail := none }) rest

/-- The search target, its mask, and the filter of the file if any (`file_filter`, called with the
page and record numbers put in the handle). -/
structure Criteria where
  words : List W
  mask : List W
  filter : Nat → Nat → Bool

/-- The test made on entry number `r` of a page known as `pageno` (xdf98.c:3238-3256). -/
def accepts (t : Criteria) (pageno r : Nat) (e : Entry) : Bool :=
  decide (e.idtyp < 127) && FstKeys.wordsMatch e.words t.words t.mask && t.filter pageno r

/-- The `for` loop of `next_match` (xdf98.c:3237-3260) from record `r` on, `n` records being left:
the record found. -/
def scan (t : Criteria) (pageno : Nat) (pg : Page) : Nat → Nat → Option Nat
  | _, 0 => none
  | r, n + 1 =>
    if (pg.entries[r]?).any (accepts t pageno r) then some r else scan t pageno pg (r + 1) n

/-- The position of a file: `cur_dir_page`, `cur_pageno`, `page_record`. -/
structure Cursor where
  page : Option Loc
  pageno : Nat
  record : Nat

inductive Found
  | hit (pageno record : Nat)
  | notFound
  | noPos
  | badPageno
deriving DecidableEq, Repr

/-- The `while` loop of `next_match` (xdf98.c:3223-3262).  `none`: the loop is still running after
`fuel` pages, or a page pointer is wild. -/
def nextMatchLoop (T : Table) (t : Criteria) : Nat → Loc → Nat → Nat → Option (Found × Cursor)
  | 0, _, _, _ => none
  | fuel + 1, l, pageno, r =>
    match pageAt T l with
    | none => none
    | some pg =>
      match scan t pageno pg r (pg.nent - r) with
      | some j => some (.hit pageno j, ⟨some l, pageno, j + 1⟩)
      | none =>
        match nextPage T l with
        | none => some (.notFound, ⟨none, pageno, 0⟩)
        | some l' => nextMatchLoop T t fuel l' (pageno + 1) 0

/-- `next_match` on a random file (xdf98.c:3190-3263, 3382-3388). -/
def nextMatch (T : Table) (t : Criteria) (fuel : Nat) (c : Cursor) : Option (Found × Cursor) :=
  match c.page with
  | none => some (.noPos, c)
  | some l => nextMatchLoop T t fuel l c.pageno c.record

/-- The walk along linked pages in `c_xdfloc2` (xdf98.c:1676-1681); the bound of the loop moves with
`cur_pageno`.  `fuel` is at least the number of steps. -/
def locWalk (T : Table) (pageno : Nat) : Nat → Nat → Nat → Option Loc → Option Loc × Nat
  | 0, _, cur, l => (l, cur)
  | fuel + 1, i, cur, l =>
    match l with
    | none => (none, cur)
    | some x =>
      if (i : Int) ≤ (pageno : Int) - cur then locWalk T pageno fuel (i + 1) (cur + 1) (nextPage T x)
      else (l, cur)

/-- `c_xdfloc2` with handle 0 (xdf98.c:1625-1632, 1661-1708): search from the beginning of file `f`. -/
def locFirst (T : Table) (f : Nat) (t : Criteria) (fuel : Nat) : Option (Found × Cursor) :=
  nextMatch T t fuel ⟨some (f, 0), 0, 0⟩

/-- `c_xdfloc2` with handle -1 and no new target, as called by `c_fstsui` (fstd98.c:3114-3142). -/
def locNext (T : Table) (t : Criteria) (fuel : Nat) (c : Cursor) : Option (Found × Cursor) :=
  nextMatch T t fuel c

/-- `c_xdfloc2` with a positive handle (xdf98.c:1604-1624, 1661-1708): search after record `record` of
page `pageno`; `curno` is `cur_pageno` before the call.  `none` also stands for the use of the
unset pointer `dir_page[cur_pageno]` when the current page is one of a linked file. -/
def locAfter (T : Table) (f : Nat) (t : Criteria) (fuel : Nat) (curno : Option Nat) (pageno record : Nat) :
    Option (Found × Cursor) :=
  match T[f]? with
  | none => none
  | some lf =>
    if pageno < lf.pages.length then nextMatch T t fuel ⟨some (f, pageno), pageno, record + 1⟩
    else if some pageno = curno then none
    else if lf.link.isNone then some (.badPageno, ⟨none, pageno, record + 1⟩)
    else
      match locWalk T pageno (pageno + 2) 0 (lf.pages.length - 1) (some (f, lf.pages.length - 1)) with
      | (none, cur) => some (.badPageno, ⟨none, cur, record + 1⟩)
      | (some l, cur) => nextMatch T t fuel ⟨some l, cur, record + 1⟩

/-- `fstinf` followed by `fstsui` until one of them fails: the handles found, as page and record
numbers, and the last answer. -/
def sweepFrom (T : Table) (t : Criteria) (fuel : Nat) : Nat → Cursor → Option (List (Nat × Nat) × Found)
  | 0, _ => none
  | n + 1, c =>
    match locNext T t fuel c with
    | none => none
    | some (.hit p r, c') => (sweepFrom T t fuel n c').map fun x => ((p, r) :: x.1, x.2)
    | some (e, _) => some ([], e)

def sweep (T : Table) (f : Nat) (t : Criteria) (fuel n : Nat) : Option (List (Nat × Nat) × Found) :=
  match locFirst T f t fuel with
  | none => none
  | some (.hit p r, c) => (sweepFrom T t fuel n c).map fun x => ((p, r) :: x.1, x.2)
  | some (e, _) => some ([], e)

/-- The first loop of `c_fstinl` (fstd98.c:1917-1928): handle `h` was just found; at most `room` more
are stored. -/
def inlStore (T : Table) (t : Criteria) (fuel : Nat) : Nat → Found × Cursor → Option (List (Nat × Nat) × Cursor)
  | 0, (_, c) => some ([], c)
  | room + 1, (.hit p r, c) =>
    if room = 0 then some ([(p, r)], c)
    else
      match locNext T t fuel c with
      | none => none
      | some x => (inlStore T t fuel room x).map fun y => ((p, r) :: y.1, y.2)
  | _, (_, c) => some ([], c)

/-- The counting loop of `c_fstinl` (fstd98.c:1935). -/
def inlCount (T : Table) (t : Criteria) (fuel : Nat) : Nat → Cursor → Option Nat
  | 0, _ => none
  | n + 1, c =>
    match locNext T t fuel c with
    | none => none
    | some (.hit _ _, c') => (inlCount T t fuel n c').map (· + 1)
    | some _ => some 0

/-- `c_fstinl` (fstd98.c:1870-1942): the stored list and the return value.  The dimensions it also
returns are not modelled.  `n` bounds the number of records. -/
def fstinl (T : Table) (f : Nat) (t : Criteria) (fuel n nmax : Nat) : Option (List (Nat × Nat) × Int) :=
  match locFirst T f t fuel with
  | none => none
  | some x =>
    match inlStore T t fuel nmax x with
    | none => none
    | some (l, c) =>
      match inlCount T t fuel n c with
      | none => none
      | some k => some (l, if l.length + k > nmax then -((l.length + k : Nat) : Int) else 0)

/-- The page a handle leads to in `c_xdfprm`, `c_xdfget2` and `c_xdfdel` (xdf98.c:981-998,
1075-1093, 2092-2110). -/
def walk (T : Table) : Nat → Option Loc → Option Loc
  | 0, l => l
  | n + 1, l => walk T n (l.bind (nextPage T))

def pageOf (T : Table) (f pageno : Nat) : Option Loc :=
  match T[f]? with
  | none => none
  | some lf =>
    if pageno < lf.pages.length then some (f, pageno)
    else if lf.link.isNone then none
    else walk T (pageno - lf.pages.length + 1) (some (f, lf.pages.length - 1))

end Verif.Xdf
