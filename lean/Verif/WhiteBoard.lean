/-
Model of the whiteboard: src/whiteboard/WhiteBoard_c.c, WhiteBoard.h, WhiteBoard_constants.h.

A page is kept as what it is in memory: a counter of used lines, a number of lines, and
40 bytes per line.  Every line starting a variable holds 28 bytes of name, 4 bytes of
flags and 8 bytes of value or array description (`wb_linemeta`); the lines after it hold
the rest of a string or the elements of an array.  `none` stands for a write outside the
page (heap corruption), for arithmetic overflow, or for a use of an uninitialised name.
-/
namespace WhiteBoard

abbrev Byte := BitVec 8

/-! ### Memory -/

/-- The four bytes of a 32 bit integer, low byte first. -/
def le32 (n : Nat) : List Byte :=
  [BitVec.ofNat 8 n, BitVec.ofNat 8 (n / 256), BitVec.ofNat 8 (n / 65536),
   BitVec.ofNat 8 (n / 16777216)]

/-- The 32 bit integer at the beginning of some memory. -/
def rd32 : List Byte → Nat
  | a :: b :: c :: d :: _ =>
    a.toNat + 256 * b.toNat + 65536 * c.toNat + 16777216 * d.toNat
  | _ => 0

/-- A 32 bit pattern as `int`. -/
def int32 (n : Nat) : Int := if n < 2147483648 then n else (n : Int) - 4294967296

/-- Store bytes at an offset; outside of the page it corrupts the heap. -/
def write (mem : List Byte) (off : Nat) (bs : List Byte) : Option (List Byte) :=
  if off + bs.length ≤ mem.length then
    some (mem.take off ++ bs ++ mem.drop (off + bs.length))
  else none

/-- WhiteBoard.h lines 8-33, `wb_flags`: bit fields of one 32 bit word. -/
structure Flags where
  type : Nat
  array : Bool
  fromrestart : Bool
  readonly : Bool
  elementsize : Nat
  badval : Bool
  islocal : Bool
  resetuntil : Bool
  resetmany : Bool
  noreset : Bool
  initialized : Bool
  lines : Nat
deriving DecidableEq, Repr

/-- The word holding the bit fields (fields allocated from the low bit, as gcc does). -/
def Flags.pack (f : Flags) : Nat :=
  f.type % 8 + 8 * f.array.toNat + 16 * f.fromrestart.toNat + 32 * f.readonly.toNat
    + 64 * (f.elementsize % 1024) + 65536 * f.badval.toNat + 131072 * f.islocal.toNat
    + 262144 * f.resetuntil.toNat + 524288 * f.resetmany.toNat + 1048576 * f.noreset.toNat
    + 2097152 * f.initialized.toNat + 4194304 * (f.lines % 1024)

/-- Bit `k` of a word. -/
def bitAt (n k : Nat) : Bool := decide (n / k % 2 = 1)

def Flags.unpack (n : Nat) : Flags where
  type := n % 8
  array := bitAt n 8
  fromrestart := bitAt n 16
  readonly := bitAt n 32
  elementsize := n / 64 % 1024
  badval := bitAt n 65536
  islocal := bitAt n 131072
  resetuntil := bitAt n 262144
  resetmany := bitAt n 524288
  noreset := bitAt n 1048576
  initialized := bitAt n 2097152
  lines := n / 4194304 % 1024

/-- WhiteBoard.h lines 83-95, `wb_page`; the whiteboard is the chain of its pages, first
page first. -/
structure Page where
  firstFree : Nat
  nbLines : Nat
  mem : List Byte
deriving DecidableEq, Repr

/-- `line->meta.name.carr`. -/
def Page.nameAt (p : Page) (i : Nat) : List Byte := (p.mem.drop (40 * i)).take 28

/-- `line->meta.flags`. -/
def Page.flagsAt (p : Page) (i : Nat) : Flags := Flags.unpack (rd32 (p.mem.drop (40 * i + 28)))

/-- `line->meta.data.desc.maxElements`. -/
def Page.maxAt (p : Page) (i : Nat) : Int := int32 (rd32 (p.mem.drop (40 * i + 36)))

/-- Store the flags of a line. -/
def Page.setFlags (p : Page) (i : Nat) (f : Flags) : Option Page := do
  let mem ← write p.mem (40 * i + 28) (le32 f.pack)
  return { p with mem := mem }

/-! ### Names -/

def blank : Byte := 32#8

/-- `trim`, lines 176-187. -/
def trim (s : List Byte) : List Byte := (s.reverse.dropWhile (· == blank)).reverse

/-- `toupper` in the C locale. -/
def up (c : Byte) : Byte := if 97 ≤ c.toNat ∧ c.toNat ≤ 122 then c - 32#8 else c

/-- `fill_line`, lines 561-582: the 27 upper case characters, padded with blanks, and the
final null. -/
def fillLine (name : List Byte) : List Byte :=
  ((name.take 27) ++ List.replicate (27 - name.length) blank).map up ++ [0#8]

/-- `wb_match_name`, lines 585-614. -/
def matchName : List Byte → List Byte → Nat → Bool
  | _, _, 0 => true
  | x :: a, y :: b, n + 1 =>
    if x = 0#8 ∨ y = 0#8 then true
    else if up x ≠ up y then false
    else matchName a b n
  | _, _, _ => false

/-- The lines at which `lookup_line` (lines 617-648) and `c_wb_check` (lines 1490-1525)
stop in a page. -/
def startsFrom (p : Page) : Nat → Nat → List Nat
  | 0, _ => []
  | fuel + 1, i =>
    if i < p.firstFree then
      i :: (if (p.flagsAt i).lines = 0 then [] else startsFrom p fuel (i + (p.flagsAt i).lines))
    else []

def Page.starts (p : Page) : List Nat := startsFrom p p.firstFree 0

/-- `lookup_line`, lines 617-648. -/
def lookupLine (p : Page) (nm : List Byte) : Option Nat :=
  p.starts.find? fun i => matchName (p.nameAt i) nm 27

/-- The page walk of `c_wb_lookup`, lines 894-957: page number and line number. -/
def lookup : List Page → List Byte → Option (Nat × Nat)
  | [], _ => none
  | p :: w, nm =>
    match lookupLine p nm with
    | some i => some (0, i)
    | none => (lookup w nm).map fun (k, i) => (k + 1, i)

/-! ### Adding lines -/

/-- `new_page`, lines 651-689. -/
def newPage (nlines : Nat) : Page := ⟨0, nlines, List.replicate (40 * nlines) 0#8⟩

/-- `new_line`, lines 789-832: the chain (with a new page in front when no page has enough
room) and the number of the page that takes the lines.  A whiteboard without pages gets
its first page (`wb_init`, lines 692-713, when there is no checkpoint file). -/
def newLine (w : List Page) (nlines : Nat) : List Page × Nat :=
  let w := if w.isEmpty then [newPage 32] else w
  match w.findIdx? fun p => decide (p.firstFree + nlines ≤ p.nbLines) with
  | some k => (w, k)
  | none => (newPage (if nlines > 32 then nlines else 32) :: w, 0)

/-! ### Values -/

/-- The significant part of a string in `c_fortran_string_copy`, lines 499-508: up to the
first null, without trailing blanks. -/
def significant (s : List Byte) : List Byte := trim (s.takeWhile (· != 0#8))

/-- `c_fortran_string_copy` with blank padding, lines 484-545: the bytes stored and the
length returned, `none` when it returns -1. -/
def copyString (src : List Byte) (dstLen : Nat) : Option (List Byte × Nat) :=
  let s := significant src
  if s.length > dstLen then none
  else some (s ++ List.replicate (dstLen - s.length) blank, s.length)

/-- `f_logical2int` and `f_int2logical`, src/primitives/f_logical2int.f90: elements of four
bytes become 0 or 1 (the bytes of `.false.` and `.true.`). -/
def logicals : Nat → List Byte → List Byte
  | 0, _ => []
  | n + 1, s =>
    le32 (if (s.take 4).all (· == 0#8) then 0 else 1) ++ logicals n (s.drop 4)

/-- Storing of the strings of a put, lines 1366-1374. -/
def putStrings (size stored : Nat) :
    Nat → List Byte → Nat → List Byte → Int → Option (List Byte × Int)
  | 0, mem, _, _, res => some (mem, res)
  | n + 1, mem, off, src, _ =>
    match copyString (src.take size) stored with
    | none => some (mem, -1010)
    | some (bs, len) => do
      let mem ← write mem off bs
      putStrings size stored n mem (off + stored) (src.drop size) len

/-- Reading of the strings of a get, lines 1103-1115: what was written to the destination,
and whether the copy went to the end. -/
def getStrings (element size : Nat) : Nat → List Byte → List Byte × Bool
  | 0, _ => ([], true)
  | n + 1, src =>
    match copyString (src.take element) size with
    | none => ([], false)
    | some (bs, _) =>
      let r := getStrings element size n (src.drop element)
      (bs ++ r.1, r.2)

def WB_REAL : Nat := 1
def WB_INT : Nat := 2
def WB_CHAR : Nat := 3
def WB_BOOL : Nat := 4

/-- `get_typecode`, lines 450-481. -/
def typeOk (type : Nat) (size length : Int) : Bool :=
  decide ((type = WB_REAL ∨ type = WB_INT) ∧ (size = 4 ∨ size = 8)) ||
  decide (type = WB_BOOL ∧ size = 4) ||
  decide (type = WB_CHAR ∧ size > 0 ∧ length ≤ 520)

/-! ### Get -/

/-- Arguments of `c_wb_get`. -/
structure Query where
  name : List Byte
  type : Nat
  size : Int
  nbelem : Int
deriving DecidableEq, Repr

/-- `c_wb_get`, lines 993-1117: the code returned and the bytes stored at the
destination. -/
def get (w : List Page) (q : Query) : Int × List Byte :=
  let size := if q.type = WB_BOOL ∧ q.size = 1 then 4 else q.size
  if !typeOk q.type size 520 then (-1006, [])
  else if q.nbelem < 0 then (-1004, [])
  else
    let array := decide (q.nbelem > 0)
    let nbelem := if q.nbelem = 0 then 1 else q.nbelem.toNat
    let name := trim q.name
    if name.length > 27 then (-1001, [])
    else match lookup w (fillLine name) with
    | none => (-1001, [])
    | some (k, i) =>
      match w[k]? with
      | none => (-1001, [])
      | some p =>
        let f := p.flagsAt i
        if f.badval then (-1009, [])
        else if !f.initialized then (-1008, [])
        else if f.type ≠ q.type then (-1003, [])
        else if f.type ≠ WB_CHAR ∧ (f.elementsize : Int) ≠ size then (-1003, [])
        else if array && !f.array then (-1004, [])
        else
          let n : Nat := if array && decide ((nbelem : Int) > p.maxAt i) then (p.maxAt i).toNat else nbelem
          let result : Int := if array then p.maxAt i else 0
          let src := if array then p.mem.drop (40 * (i + 1)) else p.mem.drop (40 * i + 32)
          if f.type = WB_CHAR then
            let r := getStrings f.elementsize size.toNat n src
            (if r.2 then result else -1010, r.1)
          else if f.type = WB_BOOL then (result, logicals n src)
          else (result, src.take (n * size.toNat))

/-! ### Put -/

/-- Arguments of `c_wb_put`; the options are the option bits it looks at. -/
structure Req where
  name : List Byte
  type : Nat
  size : Int
  src : List Byte
  nbelem : Int
  createOnly : Bool := false
  rewriteNone : Bool := false
  rewriteMany : Bool := false
  rewriteUntil : Bool := false
  isLocal : Bool := false
  readOnlyOnRestart : Bool := false
deriving DecidableEq, Repr

/-- The values going to memory, lines 1352-1376: the memory and the result. -/
def putValues (mem : List Byte) (off : Nat) (stored : Nat) (r : Req) (size n : Nat)
    (result : Int) : Option (List Byte × Int) :=
  if r.type = WB_CHAR then putStrings size stored n mem off r.src result
  else
    (write mem off (if r.type = WB_BOOL then logicals n r.src else r.src.take (n * size))).map
      fun mem => (mem, result)

/-- Copy of the values at the end of `c_wb_put`, lines 1336-1381, into a line whose flags
are `f`. -/
def putCopy (p : Page) (i : Nat) (f : Flags) (stored : Nat) (r : Req) (size n : Nat)
    (array : Bool) : Option (Page × Int) :=
  if array && decide ((n : Int) > p.maxAt i) then some (p, -1004)
  else
    (putValues p.mem (if array then 40 * (i + 1) else 40 * i + 32) stored r size n
      (if array then p.maxAt i else 0)).bind fun (mem, res) =>
    if res < 0 then some ({ p with mem := mem }, res)
    else
      (Page.setFlags { p with mem := mem } i { f with initialized := true, badval := false }).map
        fun p => (p, res)

/-- The part of `c_wb_put` for a variable that exists, lines 1219-1252 and 1336-1381. -/
def putOld (p : Page) (i : Nat) (r : Req) (size n : Nat) (array : Bool) :
    Option (Page × Int) :=
  let f := p.flagsAt i
  if r.createOnly then some (p, -1012)
  else if f.readonly && f.initialized then some (p, -1002)
  else
    let f := { f with badval := true }
    (p.setFlags i f).bind fun p =>
    if f.array && !array then some (p, -1004)
    else if f.type ≠ r.type then some (p, -1003)
    else if f.type ≠ WB_CHAR ∧ f.elementsize ≠ size then some (p, -1003)
    else if array && decide (p.maxAt i < n) then some (p, -1004)
    else putCopy p i f f.elementsize r size n array

/-- Number of lines of a new variable, lines 1257-1262. -/
def linesFor (type size n : Nat) (array : Bool) : Nat :=
  if array ∨ type = WB_CHAR then 1 + (n * size + 39) / 40 else 1

/-- Size of the elements of a new variable, lines 1275-1279. -/
def storedSize (type size : Nat) (array : Bool) : Nat :=
  if type = WB_CHAR ∧ ¬ array then (size + 39) / 40 * 40 else size

/-- Flags of a new variable, lines 1288-1311. -/
def newFlags (r : Req) (size n : Nat) (array : Bool) : Flags where
  type := r.type
  array := array
  fromrestart := false
  readonly := r.rewriteNone
  elementsize := storedSize r.type size array
  badval := !r.createOnly
  islocal := r.isLocal
  resetuntil := r.rewriteUntil
  resetmany := r.rewriteMany
  noreset := r.readOnlyOnRestart
  initialized := false
  lines := if linesFor r.type size n array > 32 then 0 else linesFor r.type size n array

/-- More than one of the three rewrite options, line 1295. -/
def Req.conflict (r : Req) : Bool :=
  decide (r.rewriteNone.toNat + r.rewriteMany.toNat + r.rewriteUntil.toNat > 1)

/-- The part of `c_wb_put` for a new variable, lines 1253-1326 and 1328-1381, in the page
chosen by `new_line`. -/
def putNew (p : Page) (r : Req) (size n : Nat) (array : Bool) : Option (Page × Int) :=
  let i := p.firstFree
  let f := newFlags r size n array
  let lines := linesFor r.type size n array
  (write p.mem (40 * i) (fillLine (trim r.name))).bind fun mem =>
  let p := { p with mem := mem }
  if r.conflict then
    (p.setFlags i { p.flagsAt i with
      type := f.type, elementsize := f.elementsize, lines := f.lines, readonly := f.readonly,
      resetmany := f.resetmany, resetuntil := f.resetuntil }).map fun p => (p, -1015)
  else
    (p.setFlags i f).bind fun p =>
    (write p.mem (40 * i + 32)
      (if array then le32 n ++ le32 n else List.replicate 8 0#8)).bind fun mem =>
    let p := { p with mem := mem }
    if p.nbLines - p.firstFree < lines then some (p, -1007)
    else
      let p := { p with firstFree := p.firstFree + lines }
      if r.createOnly then some (p, if array then p.maxAt i else 0)
      else putCopy p i f f.elementsize r size n array

/-- `c_wb_put`, lines 1146-1384.  The product `nbelem * size` is an `int`. -/
def put (w : List Page) (r : Req) : Option (List Page × Int) :=
  let size := if r.type = WB_BOOL ∧ r.size = 1 then 4 else r.size
  if !typeOk r.type size size then some (w, -1006)
  else if r.nbelem < 0 then some (w, -1004)
  else
    let array := decide (r.nbelem > 0)
    let n := if r.nbelem = 0 then 1 else r.nbelem.toNat
    let size := size.toNat
    if n * size ≥ 2147483648 then none
    else if (trim r.name).length > 27 then some (w, -1000)
    else match lookup w (fillLine (trim r.name)) with
    | some (k, i) =>
      match w[k]? with
      | none => none
      | some p => (putOld p i r size n array).map fun (p, c) => (w.set k p, c)
    | none =>
      let (w, k) := newLine w (linesFor r.type size n array)
      match w[k]? with
      | none => none
      | some p => (putNew p r size n array).map fun (p, c) => (w.set k p, c)

/-! ### Lock, checkpoint, reload -/

/-- Options tested by the callers of `c_wb_check`. -/
inductive Mask | all | rewriteUntil | readOnlyOnRestart | isLocal | rewriteAtRestart

/-- `options & optionMask` with `flags_to_options`, lines 867-891: `WB_REWRITE_AT_RESTART`
is never set; one of `WB_INITIALIZED` and `WB_NOTINITIALIZED` always is. -/
def Mask.test : Mask → Flags → Bool
  | .all, _ => true
  | .rewriteUntil, f => f.resetuntil
  | .readOnlyOnRestart, f => f.noreset
  | .isLocal, f => f.islocal
  | .rewriteAtRestart, _ => false

/-- `wb_cb_read_only`, lines 1553-1571; `none` is the error return. -/
def cbReadOnly (f : Flags) : Option Flags :=
  if f.initialized then some { f with readonly := true, resetmany := false } else none

/-- `wb_cb_read_write`, lines 1574-1586. -/
def cbReadWrite (f : Flags) : Option Flags := some { f with readonly := false }

/-- `wb_cb_undefined`, lines 1589-1601. -/
def cbUndefined (f : Flags) : Option Flags := some { f with initialized := false, badval := false }

/-- `wb_cb_from_restart`, lines 1604-1615. -/
def cbFromRestart (f : Flags) : Option Flags := some { f with fromrestart := true }

/-- The line loop of `c_wb_check`, lines 1482-1527, on the lines of one page: the page, the
number of matches, and whether the callback failed (which ends the whole function). -/
def checkLines (m : Mask) (name : List Byte) (cb : Flags → Option Flags) :
    List Nat → Page → Option (Page × Nat × Bool)
  | [], p => some (p, 0, false)
  | i :: is, p =>
    if m.test (p.flagsAt i) && matchName (p.nameAt i) name name.length then
      match cb (p.flagsAt i) with
      | none => some (p, 1, true)
      | some f => do
        let p ← p.setFlags i f
        let (p, c, e) ← checkLines m name cb is p
        return (p, c + 1, e)
    else checkLines m name cb is p

/-- `c_wb_check`, lines 1457-1531: the count of matches, or the error of the callback
(`WB_ERR_NOVAL`, the only one there is). -/
def check (m : Mask) (name : List Byte) (cb : Flags → Option Flags) :
    List Page → Option (List Page × Int)
  | [] => some ([], 0)
  | p :: w => do
    let (p, c, e) ← checkLines m name cb p.starts p
    if e then return (p :: w, -1008)
    let (w, d) ← check m name cb w
    return (p :: w, if d < 0 then d else d + c)

/-- `c_wb_lock`, lines 1703-1716.  A name of 520 significant characters or more leaves
`localname` unset. -/
def lock (w : List Page) (name : List Byte) : Option (List Page × Int) :=
  if (significant name).length ≥ 520 then none
  else check .rewriteUntil (significant name) cbReadOnly w

/-- "WBckp100". -/
def signature : List Byte := [87#8, 66#8, 99#8, 107#8, 112#8, 49#8, 48#8, 48#8]

/-- `c_wb_checkpoint`, lines 1397-1450: what is written over the beginning of the file (which
is opened without being emptied). -/
def checkpoint (w : List Page) : List Byte :=
  signature ++ (w.flatMap fun p => le32 p.nbLines ++ le32 p.firstFree ++ p.mem) ++ le32 0

/-- The page loop of `c_wb_reload`, lines 1755-1768; every page goes in front of the chain.
A file that ends too early leaves `pagelen` as it was, and the loop never ends: `none`. -/
def reloadPages : Nat → List Byte → List Page → Option (List Page)
  | 0, _, _ => none
  | fuel + 1, file, w =>
    if file.length < 4 then none
    else if int32 (rd32 file) ≤ 0 then some w
    else
      let len := rd32 file
      let file := file.drop 4
      if file.length < 4 + 40 * len then none
      else
        reloadPages fuel (file.drop (4 + 40 * len))
          (⟨rd32 file, len, (file.drop 4).take (40 * len)⟩ :: w)

/-- `c_wb_reload`, lines 1729-1786. -/
def reload (w : List Page) (file : List Byte) : Option (List Page × Int) :=
  if ¬ w.isEmpty then some (w, -1017)
  else if file.take 8 ≠ signature then some (w, -1011)
  else do
    let w ← reloadPages (file.length + 1) (file.drop 8) []
    let (w, _) ← check .rewriteAtRestart [] cbReadWrite w
    let (w, _) ← check .readOnlyOnRestart [] cbReadOnly w
    let (w, _) ← check .isLocal [] cbUndefined w
    let (w, _) ← check .all [] cbFromRestart w
    return (w, 0)

end WhiteBoard
