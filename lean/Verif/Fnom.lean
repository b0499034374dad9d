/-!
Model of the table of units: src/primitives/c_baseio.c (`c_fnom`, `c_fclos`, `c_qqqfscr`, `c_waopen2`,
`c_waclos2`, `qqcopen`, `qqcclos`) and src/PUBLIC_INCLUDES/rmn/fnom.h.

A character string is the list of its characters, without the final NUL.  What the system answers is
given with each call (`Os`).  Simplified: names are not limited to PATH_MAX characters, memory is never
short, file sizes and pages are left out (the pages are in `Verif.WaFile`), and files on other machines
(attribute REMOTE with a name that has a colon) are an outcome of their own.
-/
namespace Verif.Fnom

abbrev Str := List Char

/-- `strstr`: is `pat` somewhere in the string? -/
def hasSub (pat : Str) : Str → Bool
  | [] => pat.isEmpty
  | c :: t => pat.isPrefixOf (c :: t) || hasSub pat t

/-- The words searched in the type, c_baseio.c lines 382-430. -/
inductive Kw
  | stream | std | burp | rnd | wa | ftn | unf | old | ro | rw | d77 | scratch | remote
deriving DecidableEq, Repr

/-- Their two spellings, lines 382-430. -/
def Kw.upper : Kw → Str
  | .stream => ['S', 'T', 'R', 'E', 'A', 'M'] | .std => ['S', 'T', 'D'] | .burp => ['B', 'U', 'R', 'P']
  | .rnd => ['R', 'N', 'D'] | .wa => ['W', 'A'] | .ftn => ['F', 'T', 'N'] | .unf => ['U', 'N', 'F']
  | .old => ['O', 'L', 'D'] | .ro => ['R', '/', 'O'] | .rw => ['R', '/', 'W'] | .d77 => ['D', '7', '7']
  | .scratch => ['S', 'C', 'R', 'A', 'T', 'C', 'H'] | .remote => ['R', 'E', 'M', 'O', 'T', 'E']
@[inherit_doc Kw.upper]
def Kw.lower : Kw → Str
  | .stream => ['s', 't', 'r', 'e', 'a', 'm'] | .std => ['s', 't', 'd'] | .burp => ['b', 'u', 'r', 'p']
  | .rnd => ['r', 'n', 'd'] | .wa => ['w', 'a'] | .ftn => ['f', 't', 'n'] | .unf => ['u', 'n', 'f']
  | .old => ['o', 'l', 'd'] | .ro => ['r', '/', 'o'] | .rw => ['r', '/', 'w'] | .d77 => ['d', '7', '7']
  | .scratch => ['s', 'c', 'r', 'a', 't', 'c', 'h'] | .remote => ['r', 'e', 'm', 'o', 't', 'e']

/-- `strstr(type, "XXX") || strstr(type, "xxx")`. -/
def asks (type : Str) (k : Kw) : Bool := hasSub k.upper type || hasSub k.lower type

/-- `attributs`, fnom.h lines 11-28 (`notpaged` is never used). -/
structure Attr where
  stream : Bool := false
  std : Bool := false
  burp : Bool := false
  rnd : Bool := false
  wa : Bool := false
  ftn : Bool := false
  unf : Bool := false
  readOnly : Bool := false
  old : Bool := false
  scratch : Bool := false
  pipe : Bool := false
  writeMode : Bool := false
  remote : Bool := false
deriving DecidableEq, Repr

/-- `general_file_info`, fnom.h lines 32-53 (sizes apart). -/
structure Entry where
  name : Option Str := none
  sub : Option Str := none
  ftype : Option Str := none
  iun : Int := 0
  fd : Int := 0
  lrec : Int := 0
  isOpen : Bool := false
  attr : Attr := {}
deriving DecidableEq, Repr

/-- The part of `FILEINFO` (wafile.h lines 25-30) used here. -/
structure Slot where
  fd : Int := 0
  offset : Int := 0
deriving DecidableEq, Repr

/-- `FGFDT`, `wafile` and the flags of c_baseio.c lines 101-113. -/
structure St where
  table : List Entry
  slots : List Slot
  started : Bool := false
  waInit : Bool := false
  stdoutFlag : Bool := false
  stdinFlag : Bool := false
deriving DecidableEq, Repr

/-- MAXFILES, fnom.h line 8. -/
def maxFiles : Nat := 1024
/-- MAXWAFILES, wafile.h line 2. -/
def maxWaFiles : Nat := 1024

/-- Static memory before the first call. -/
def initial : St := { table := List.replicate maxFiles {}, slots := List.replicate maxWaFiles {} }

/-- What cannot be answered within the model. -/
inductive Fault
  | outside  -- access outside of a table
  | remote   -- file on another machine, not modelled
deriving DecidableEq, Repr

/-- Answers of the system during one call. -/
structure Os where
  /-- `access(name, F_OK)` -/
  access : Str → Bool
  /-- `errno` is ENOENT after a failed `access` -/
  noent : Bool := true
  /-- `open` for reading, for reading and writing, for creation -/
  rdonly : Str → Option Nat
  rdwr : Str → Option Nat
  creat : Str → Option Nat
  /-- the Fortran OPEN of `qqqf7op` works -/
  ftnOpen : Bool := true
  /-- result of `filepos` -/
  filepos : Int := 1
  freopen : Bool := true
  close : Int := 0
  tmpdir : Str := ['/', 't', 'm', 'p']
  pid : Str := ['1']
  cmcconst : Str := ['.', '/']
  armnlib : Str := ['.', '/']

/-- `reset_file_entry`, lines 184-215: `pipe` is not reset. -/
def resetEntry (e : Entry) : Entry := { fd := -1, attr := { pipe := e.attr.pipe } }

/-- `find_file_entry`, lines 220-234. -/
def find (t : List Entry) (u : Int) : Option Nat := t.findIdx? (·.iun == u)

/-- `c_qqqfscr`, lines 668-693. -/
def scanUnit (t : List Entry) : Nat → Int
  | 0 => -1
  | j + 1 => if (find t (j + 11 : Nat)).isSome then scanUnit t j else ((j + 11 : Nat) : Int)

@[inherit_doc scanUnit]
def qqqfscr (t : List Entry) (type : Str) : Int :=
  scanUnit t (if asks type .ftn || asks type .d77 then 99 - 10 else 999 - 10)

/-- An assignment under a condition. -/
def sets (c : Bool) (f : Attr → Attr) (a : Attr) : Attr := if c then f a else a

/-- Attributes from the type, lines 368-434. -/
def parse (a0 : Attr) (t : Str) : Attr :=
  ({ writeMode := a0.writeMode } : Attr)
  |> sets (asks t .stream) (fun a => { a with stream := true, rnd := true })
  |> sets (asks t .std) (fun a => { a with std := true, rnd := true })
  |> sets (asks t .burp) (fun a => { a with burp := true, rnd := true })
  |> sets (asks t .rnd) (fun a => { a with rnd := true })
  |> sets (asks t .wa) (fun a => { a with rnd := true })
  |> sets (asks t .ftn) (fun a => { a with ftn := true, rnd := false })
  |> sets (asks t .unf) (fun a => { a with unf := true, ftn := true, rnd := false })
  |> sets (asks t .old) (fun a => { a with old := true })
  |> sets (asks t .ro) (fun a => { a with readOnly := true, old := true })
  |> sets (asks t .rw) (fun a => { a with readOnly := false, writeMode := true })
  |> sets (asks t .d77) (fun a => { a with ftn := true, rnd := true })
  |> sets (asks t .scratch) (fun a => { a with scratch := true })
  |> sets (asks t .remote) (fun a => { a with remote := true })
  |> fun a => sets (!a.std && !a.burp && !a.wa && !a.rnd && !a.stream) (fun a => { a with ftn := true }) a

/-- The first character is dropped when it is one of `@%+`, lines 484-506 (`%` also sets `pipe`). -/
def strip : Str → Str
  | [] => []
  | c :: t => if c = '@' ∨ c = '%' ∨ c = '+' then t else c :: t

/-- `filename@subfilename`, lines 510-521. -/
def archive (e : Entry) (name : Str) : Entry :=
  if name.contains '@' then
    { e with
      name := some (name.takeWhile (· ≠ '@')), sub := some ((name.dropWhile (· ≠ '@')).drop 1)
      attr := { e.attr with old := true, readOnly := true } }
  else { e with name := some name, sub := none }

/-- `@filename` is searched in three places, lines 524-545; `false` when found in none. -/
def locate (os : Os) (nom : Str) (e : Entry) : Entry × Bool :=
  if nom.head? = some '@' then
    let f := e.name.getD []
    match [f, os.cmcconst ++ '/' :: f, os.armnlib ++ ['/', 'd', 'a', 't', 'a', '/'] ++ f].find? os.access with
    | none => (e, false)
    | some g => ({ e with name := some g }, true)
  else (e, true)

/-- Lines 357-545: attributes and name; `false` when `c_fnom` returns -1 there. -/
def register (os : Os) (u : Int) (nom type : Str) (lrec : Int) (e : Entry) : Except Fault (Entry × Bool) :=
  let a := parse e.attr type
  let e := { e with iun := u, ftype := some type, attr := a, lrec := lrec, isOpen := false }
  if a.scratch then
    if nom.contains '/' then .ok (e, false)
    else if a.remote then .error .remote
    else .ok (locate os nom (archive e (os.tmpdir ++ '/' :: os.pid ++ '_' :: nom)))
  else if a.remote && nom.contains ':' then
    if a.rnd then .error .remote
    else
      .ok (locate os nom (archive { e with attr := { a with
        remote := false, readOnly := false, pipe := nom.head? = some '%' } } (strip nom)))
  else
    .ok (locate os nom (archive { e with attr := { a with remote := false, pipe := nom.head? = some '%' } } (strip nom)))

/-- Trailing blanks removed by `existe`, lines 1151-1161; the first character stays. -/
def rstrip : Str → Str
  | [] => []
  | c :: t => c :: (t.reverse.dropWhile (· = ' ')).reverse

/-- `wafile` ready for use, lines 1855-1894. -/
def waStart (s : St) : St :=
  if s.waInit then s else { s with waInit := true, slots := s.slots.map (fun _ => { fd := -1, offset := 0 }) }

/-- The opening of a file that is not an archive, lines 1930-1960: descriptor and `read_only`. -/
def openPlain (os : Os) (name : Option Str) (a : Attr) : Option Nat × Bool :=
  match name with
  | none => (none, a.readOnly)
  | some f =>
    if os.access f then
      if a.readOnly then (os.rdonly f, true)
      else
        match os.rdwr f with
        | some d => (some d, false)
        | none => if a.writeMode then (none, false) else (os.rdonly f, true)
    else if os.noent then (os.creat f, false) else (none, a.readOnly)

/-- `qqcopen`, lines 1851-1989, for the entry of index `k`. -/
def qqcopen (os : Os) (k : Nat) (s : St) : Except Fault (St × Int) :=
  let s := waStart s
  match s.table[k]? with
  | none => .error .outside
  | some e =>
    let e := { e with fd := -1 }
    match s.slots.findIdx? (·.fd == -1) with
    | none => .error .outside
    | some i =>
      match e.sub with
      | some _ =>
        let e := { e with attr := { e.attr with readOnly := true } }
        match os.rdonly (e.name.getD []) with
        | none => .ok ({ s with table := s.table.set k e }, -1)
        | some d =>
          let s := { s with slots := s.slots.set i { fd := d, offset := os.filepos } }
          if os.filepos ≤ 0 then .ok ({ s with table := s.table.set k { e with fd := d } }, -1)
          else .ok ({ s with table := s.table.set k { e with fd := d, isOpen := true } }, d)
      | none =>
        let r := openPlain os e.name e.attr
        let e := { e with attr := { e.attr with readOnly := r.2 } }
        match r.1 with
        | none => .ok ({ s with table := s.table.set k e }, -1)
        | some d =>
          .ok ({ s with
            slots := s.slots.modify i ({ · with fd := d })
            table := s.table.set k { e with fd := d, isOpen := true } }, d)

/-- Decimal digits of a unit (`sprintf` with `%d`), line 811. -/
def digits : Int → Str
  | .ofNat n => Nat.toDigits 10 n
  | .negSucc n => '-' :: Nat.toDigits 10 (n + 1)

/-- Entry of a unit not given to `c_fnom`, lines 806-813. -/
def waEntry (u : Int) (e : Entry) : Entry :=
  { e with
    iun := u, name := some (['W', 'a', 'f', 'i', 'l', 'e'] ++ digits u)
    attr := { e.attr with wa := true, rnd := true } }

/-- The end of `c_waopen2`, lines 829-835. -/
def waFinish (k : Nat) (r : St × Int) : St × Int :=
  if 0 ≤ r.2 then
    ({ r.1 with table := r.1.table.modify k fun e =>
        { e with isOpen := true, attr := { e.attr with wa := true, rnd := true } } }, r.2)
  else r

/-- `c_waopen2`, lines 788-836. -/
def waopen (os : Os) (u : Int) (s : St) : Except Fault (St × Int) :=
  match find s.table u with
  | some k =>
    match s.table[k]? with
    | none => .error .outside
    | some e =>
      if !e.attr.rnd then .ok (s, -1)
      else if e.isOpen then
        .ok ({ s with table := s.table.set k { e with attr := { e.attr with wa := true } } }, e.fd)
      else (qqcopen os k s).map (waFinish k)
  | none =>
    match find s.table 0 with
    | none => .ok (s, -1)
    | some k =>
      if 3 < (digits u).length then .error .outside  -- ten bytes are allocated, line 810
      else
      (qqcopen os k { s with table := s.table.modify k (waEntry u) }).map (waFinish k)

/-- `c_fclos`, lines 634-656. -/
def fclos (os : Os) (u : Int) (s : St) : St × Int :=
  if u = 6 ∧ s.stdoutFlag then (s, 0)
  else if u = 5 ∧ s.stdinFlag then (s, 0)
  else
    match find s.table u with
    | none => (s, -1)
    | some k =>
      let ier : Int :=
        match s.table[k]? with
        | some e => if e.isOpen && !e.attr.ftn then os.close else 0
        | none => 0
      ({ s with table := s.table.modify k resetEntry }, ier)

/-- `qqcclos`, lines 730-783. -/
def qqcclos (k : Nat) (s : St) : Except Fault (St × Int) :=
  match s.table[k]? with
  | none => .error .outside
  | some e =>
    match s.slots.findIdx? (·.fd == e.fd) with
    | none => .error .outside
    | some i =>
      .ok ({ s with
        slots := s.slots.modify i ({ · with fd := -1 })
        table := s.table.set k { e with fd := -1, isOpen := false } }, 0)

/-- `c_waclos2`, lines 869-885. -/
def waclos (u : Int) (s : St) : Except Fault (St × Int) :=
  match find s.table u with
  | none => .ok (s, -1)
  | some k =>
    match s.table[k]? with
    | none => .error .outside
    | some e =>
      if !e.isOpen then .ok (s, -1)
      else (qqcclos k s).map fun r =>
        ({ r.1 with table := r.1.table.modify k fun e => { e with isOpen := false, attr := { e.attr with wa := false } } }, r.2)

/-- The first call of `c_fnom`, lines 290-301. -/
def start (s : St) : St :=
  if s.started then s else { s with started := true, table := s.table.map resetEntry }

/-- Names of the standard units, lines 320-329. -/
def outNames : List Str :=
  [['$', 'O', 'U', 'T'], ['$', 'O', 'U', 'T', 'P', 'U', 'T'], ['O', 'U', 'T', 'P', 'U', 'T'], ['o', 'u', 't', 'p', 'u', 't']]
@[inherit_doc outNames]
def inNames : List Str :=
  [['$', 'I', 'N'], ['$', 'I', 'N', 'P', 'U', 'T'], ['I', 'N', 'P', 'U', 'T'], ['i', 'n', 'p', 'u', 't']]

/-- The opening of the file of a new entry, lines 547-586. -/
def openNew (os : Os) (u : Int) (k : Nat) (e : Entry) (s : St) : Except Fault (St × Int) :=
  let s := { s with table := s.table.set k e }
  if (e.attr.old || e.attr.readOnly) && !os.access (rstrip (e.name.getD [])) then
    .ok ((fclos os u s).1, -1)
  else if e.attr.ftn then
    if os.ftnOpen then .ok ({ s with table := s.table.set k { e with isOpen := true } }, 0)
    else .ok ((fclos os u s).1, -1)
  else
    (waopen os u s).map fun r =>
      let s := { r.1 with table := r.1.table.modify k fun e => { e with attr := { e.attr with wa := false } } }
      if r.2 < 0 then ((fclos os u s).1, -1)
      else if r.2 = 0 then ({ s with table := s.table.modify k ({ · with isOpen := true }) }, 0)
      else (s, 0)

/-- The entry given to a unit, lines 347-362. -/
def connect (os : Os) (u : Int) (nom type : Str) (lrec : Int) (s : St) : Except Fault (St × Int) :=
  if (find s.table u).isSome then .ok (s, -1)
  else
    match find s.table 0 with
    | none => .error .outside
    | some k =>
      match s.table[k]? with
      | none => .error .outside
      | some e =>
        (register os u nom type lrec e).bind fun r =>
          if r.2 then openNew os u k r.1 s
          else .ok ({ s with table := s.table.set k r.1 }, -1)

/-- `c_fnom`, lines 242-587, with the value of the unit; gives the unit and the status. -/
def fnom (os : Os) (u : Int) (nom type : Str) (lrec : Int) (s : St) : Except Fault (St × Int × Int) :=
  let s := start s
  let u := if u = 0 then qqqfscr s.table type else u
  if u = -1 then .ok (s, u, -1)
  else if u = 6 then
    if nom ∈ outNames ∨ os.freopen then .ok ({ s with stdoutFlag := true }, u, 0) else .ok (s, u, -1)
  else if u = 5 ∧ nom ∈ inNames then .ok ({ s with stdinFlag := true }, u, 0)
  else if u = -2 then .ok (s, u, if os.freopen then 0 else -1)
  else (connect os u nom type lrec s).map fun r => (r.1, u, r.2)

/-- The calls of a program. -/
inductive Op
  | fnom (os : Os) (u : Int) (nom type : Str) (lrec : Int)
  | fclos (os : Os) (u : Int)
  | waopen (os : Os) (u : Int)
  | waclos (u : Int)

/-- One call. -/
def step (s : St) : Op → Except Fault St
  | .fnom os u nom type lrec => (fnom os u nom type lrec s).map (·.1)
  | .fclos os u => .ok (fclos os u s).1
  | .waopen os u => (waopen os u s).map (·.1)
  | .waclos u => (waclos u s).map (·.1)

/-- A program. -/
def run : St → List Op → Except Fault St
  | s, [] => .ok s
  | s, op :: ops => (step s op).bind (run · ops)

end Verif.Fnom
