/-
Model of the memory manager of named arrays: src/gmm/rmn_gmm_mod.F90 and the templates
gmm_create.tmpl90, gmm_get.tmpl90, gmm_pointer_table.tmpl90, gmm_dealloc_ptr.tmpl90,
gmm_checkpoint.tmpl90, each instantiated for 20 types (4, 8 byte integers, reals and 8 byte
complex numbers of 1 to 4 dimensions).

The directory of 16 pages of 128 entries is kept as one list: page and entry of element `i`
are `i / 128 + 1` and `i % 128 + 1`; only the used entries are listed.  An allocated array
has an address, its position in `heap`; `none` there is an array which has been deallocated.
`none` as the outcome of a function stands for undefined behaviour (access outside of the
directory, to an undefined pointer, to a deallocated array) or for the program being stopped
by `qqexit`.  `allocate` always succeeds.  Log messages, `array_addr` (only used by
`gmm_dumpinfo`) and the keys in the pointer tables (never read) are left out.
-/
namespace Gmm

abbrev Name := List Char

/-- A name as it is kept in `character(len = 32)`, without the blanks at the end
(rmn_gmm_mod.F90:37, `l_name = trim(name)` lines 867, 900).  Comparison of Fortran strings
ignores these blanks. -/
def fixed (s : Name) : Name := ((s.take 32).reverse.dropWhile (· == ' ')).reverse

/-- rmn_gmm_mod.F90:63-71 `gmm_layout`. -/
structure Dim where
  low : Int
  high : Int
  halo : Int
  halomax : Int
  n : Int
deriving DecidableEq, Repr

/-- rmn_gmm_mod.F90:73-83 `gmm_attributes`. -/
structure Attr where
  key : Int
  uuid1 : Int
  uuid2 : Int
  initmode : Int
  flags : BitVec 32
deriving DecidableEq, Repr

/-- rmn_gmm_mod.F90:85-89 `gmm_metadata`; `l` has four elements. -/
structure Meta where
  l : List Dim
  a : Attr
deriving DecidableEq, Repr

/-- rmn_gmm_mod.F90:126-136 `p_gmm_metadata`. -/
structure Entry where
  l : List Dim
  a : Attr
  dtype : Nat
  pti : Nat
  name : Name
deriving DecidableEq, Repr

/-- An array: its bounds and its elements in storage order. -/
structure Arr where
  bounds : List (Int × Int)
  data : List Nat
deriving DecidableEq, Repr

/-- rmn_gmm_mod.F90:142-160 and the pointer tables `gmm_ptrs<type>` (type number as argument).
`cur = 0` stands for `cur_page = cur_entry = 0`, `cur = i + 1` for directory element `i`. -/
structure S where
  dir : List Entry
  cur : Nat
  ptrs : Nat → List (Option Nat)
  heap : List (Option Arr)
  restart : Bool

/-- The state before the first call (rmn_gmm_mod.F90:142-160). -/
def init : S := ⟨[], 0, fun _ => [], [], false⟩

/-- rmn_gmm_mod.F90:92 -/
def nullDim : Dim := ⟨0, 0, 0, 0, 0⟩
/-- rmn_gmm_mod.F90:94 -/
def nullAttr : Attr := ⟨-2, 0, 0, 0, 0⟩
/-- rmn_gmm_mod.F90:93, 95 -/
def nullMeta : Meta := ⟨List.replicate 4 nullDim, nullAttr⟩

/-- The types in the order of rmn_gmm_mod.F90:752-771: kind (1 integer, 2 real, 3 complex),
length and number of dimensions. -/
def exts : List Nat :=
  [184, 144, 284, 244, 384, 183, 143, 283, 243, 383, 182, 142, 282, 242, 382,
   181, 141, 281, 241, 381]

/-- `DIM` of a type. -/
def rank (ext : Nat) : Nat := ext % 10

/-- rmn_gmm_mod.F90:801 -/
def tomb : Name := "Variable deleted upon request".toList
/-- rmn_gmm_mod.F90:1199 -/
def temp : Name := "2121_Trans-Canada_Dorval_H9P-1J3".toList

/-- The number of elements in one dimension. -/
def extent (b : Int × Int) : Int := max 0 (b.2 - b.1 + 1)

/-- The size of an array with these bounds. -/
def total (bounds : List (Int × Int)) : Nat := (bounds.map fun b => (extent b).toNat).prod

/-- The bounds of the first dimensions. -/
def boundsOf (ext : Nat) (l : List Dim) : List (Int × Int) :=
  (l.take (rank ext)).map fun d => (d.low, d.high)

/-- gmm_create.tmpl90:54-58, 99-109: the size of every dimension is the one asked for. -/
def consistent (ext : Nat) (arr : Arr) (l : List Dim) : Bool :=
  arr.bounds.map extent == (l.take (rank ext)).map fun d => d.high - d.low + 1

/-- gmm_create.tmpl90:167-168, gmm_checkpoint.tmpl90:34-35.  `ordinal` is a 32 bit integer:
shifted by 32 bits it is zero. -/
def keyOf (i ext : Nat) : Int := (i + ext * 2048 + 0 : Nat)

/-- What a pointer of the table of a type points to (index from 1): the outer `none` is an
undefined pointer, the inner one a null pointer. -/
def pointer (s : S) (ext pti : Nat) : Option (Option Nat) :=
  if pti = 0 then none else (s.ptrs ext)[pti - 1]?

/-- The array at an address. -/
def S.at (s : S) (ad : Nat) : Option Arr := s.heap[ad]?.join

/-- rmn_gmm_mod.F90:851-884 `check_directory_entry`, always called with key 0: page
`min(1, table_size)`, entry 1. -/
def check (name : Name) (s : S) : Option S :=
  if s.cur = 0 then some s
  else match s.dir with
    | [] => none
    | e :: _ =>
      if e.a.key = 0 ∧ e.name = fixed name then some { s with cur := 1 }
      else some { s with cur := 0 }

/-- rmn_gmm_mod.F90:889-922 `find_directory_entry`: the state and the key. -/
def find (name : Name) (s : S) : S × Int :=
  match s.dir.findIdx? (fun e => e.name == fixed name) with
  | some i => ({ s with cur := i + 1 }, ((s.dir[i]?).map (·.a.key)).getD (-2))
  | none => ({ s with cur := 0 }, -2)

/-- gmm_get.tmpl90:25-30, rmn_gmm_mod.F90:789-794, 1319-1324. -/
def locate (name : Name) (s : S) : Option S := do
  let s ← check name s
  if s.cur = 0 then some (find name s).1 else some s

/-- rmn_gmm_mod.F90:926-963 `add_directory_entry`. -/
def addEntry (s : S) : Option S :=
  if s.dir.length ≥ 2048 then none
  else some { s with
    dir := s.dir ++ [⟨List.replicate 4 nullDim, nullAttr, 0, 0, []⟩]
    cur := s.dir.length + 1 }

/-- What a function hands back: status, pointer, metadata. -/
structure Ret where
  code : Int
  p : Option Nat
  m : Meta
deriving DecidableEq, Repr

/-- gmm_create.tmpl90:213-238.  `nan` is what `ieee_quiet_nan` becomes in an element of this
type.  The preprocessor test `DATATYPE == real` compares two undefined names, hence is true
for every type: integers and complex numbers are filled as well. -/
def fill (flags : BitVec 32) (nan : Nat) (d : List Nat) : List Nat :=
  let d := if flags &&& 2 ≠ 0 then d.map fun _ => 0 else d
  if flags &&& 4 ≠ 0 then d.map fun _ => nan else d

/-- gmm_create.tmpl90:156-240: the variable is not in the directory.  `junk` are the contents
of freshly allocated memory. -/
def createNew (ext : Nat) (name : Name) (p : Option Nat) (m : Meta) (junk : Nat → Nat)
    (nan : Nat) (s : S) : Option (S × Ret) := do
  let s ← addEntry s
  let flags := (m.a.flags &&& 7) ||| 32
  let e : Entry :=
    { l := m.l.take (rank ext) ++ List.replicate (4 - rank ext) nullDim
      a := { m.a with key := keyOf (s.cur - 1) ext, flags := flags }
      dtype := ext
      pti := (s.ptrs ext).length + 1
      name := fixed name }
  let b := boundsOf ext m.l
  let ad := p.getD s.heap.length
  let heap := if p.isSome then s.heap
    else s.heap ++ [some ⟨b, (List.range (total b)).map junk⟩]
  let arr ← heap[ad]?.join
  some ({ s with
      dir := s.dir.set (s.cur - 1) e
      ptrs := fun t => if t = ext then s.ptrs ext ++ [some ad] else s.ptrs t
      heap := heap.set ad (some { arr with data := fill flags nan arr.data }) },
    ⟨0, some ad, ⟨e.l, e.a⟩⟩)

/-- gmm_create.tmpl90:1-241 `gmm_create<type>`; an optional argument `flags_arg` has been put
into the metadata before. -/
def create (ext : Nat) (name : Name) (p : Option Nat) (m : Meta) (junk : Nat → Nat)
    (nan : Nat) (s : S) : Option (S × Ret) := do
  let ok ← match p with
    | none => some true
    | some ad => (s.at ad).map fun arr => consistent ext arr m.l
  if ok = false then some (s, ⟨-4, p, m⟩)
  else
    let s := (find name s).1
    if s.cur = 0 then createNew ext name p m junk nan s
    else
      let e ← s.dir[s.cur - 1]?
      if p.isSome then some (s, ⟨-5, p, m⟩)
      else
        let ad ← (pointer s ext e.pti).join
        let arr ← s.at ad
        if consistent ext arr m.l = false then some (s, ⟨-4, none, m⟩)
        else if e.a.flags &&& 32 ≠ 0 then some (s, ⟨-6, none, m⟩)
        else
          let flags := ((m.a.flags &&& 7) ||| e.a.flags) ||| 32
          some ({ s with dir := s.dir.set (s.cur - 1) { e with a := { e.a with flags := flags } } },
            ⟨0, some ad, m⟩)

/-- gmm_get.tmpl90:48-52: the last dimension with useful contents; without any, `array_rank`
is not initialised. -/
def rankOf (junk : Nat) (l : List Dim) : Nat :=
  (l.zipIdx 1).foldl (fun r d => if d.1.n ≠ 0 then d.2 else r) junk

/-- gmm_get.tmpl90:1-63 `gmm_get<type>`. -/
def get (ext : Nat) (name : Name) (junk : Nat) (s : S) : Option (S × Ret) := do
  let s ← locate name s
  if s.cur = 0 then some (s, ⟨-3, none, nullMeta⟩)
  else
    let e ← s.dir[s.cur - 1]?
    if rankOf junk e.l ≠ rank ext then some (s, ⟨-4, none, nullMeta⟩)
    else
      let p ← pointer s ext e.pti
      some (s, ⟨0, p, ⟨e.l, e.a⟩⟩)

/-- gmm_dealloc_ptr.tmpl90:1-6, of the type and index of an entry. -/
def dealloc (e : Entry) (s : S) : Option S := do
  let ad ← (pointer s e.dtype e.pti).join
  let _ ← s.at ad
  some { s with
    heap := s.heap.set ad none
    ptrs := fun t => if t = e.dtype then (s.ptrs t).set (e.pti - 1) none else s.ptrs t }

/-- rmn_gmm_mod.F90:779-848 `gmm_delete`. -/
def delete (name : Name) (s : S) : Option (S × Int) := do
  let s ← locate name s
  if s.cur = 0 then some (s, -3)
  else
    let e ← s.dir[s.cur - 1]?
    let s ← if e.dtype ∈ exts then dealloc e s else some s
    some ({ s with dir := s.dir.set (s.cur - 1) <|
      { e with name := tomb, l := List.replicate 4 nullDim, a := nullAttr } }, 0)

/-- rmn_gmm_mod.F90:1057-1081 `gmm_getmeta`. -/
def getmeta (name : Name) (s : S) : Option (S × Int × Option Meta) :=
  let (s, key) := find name s
  if key = -2 then some (s, -1, none)
  else if s.cur = 0 then none
  else (s.dir[s.cur - 1]?).map fun e => (s, 0, some ⟨e.l, e.a⟩)

/-- rmn_gmm_mod.F90:1332-1336: the part of the layout which may be updated. -/
def updateDim (d f : Dim) : Dim := { d with halo := f.halo, halomax := f.halomax, n := f.n }

/-- rmn_gmm_mod.F90:1306-1343 `gmm_updatemeta`. -/
def updatemeta (name : Name) (m : Meta) (s : S) : Option (S × Int) := do
  let s ← locate name s
  if s.cur = 0 then some (s, -3)
  else
    let e ← s.dir[s.cur - 1]?
    some ({ s with dir := s.dir.set (s.cur - 1) <|
      { e with
        l := List.zipWith updateDim e.l m.l
        a := { e.a with uuid1 := m.a.uuid1, uuid2 := m.a.uuid2, flags := m.a.flags } } }, 0)

/-- rmn_gmm_mod.F90:1096-1100 `gmm_nkeys`. -/
def nkeys (s : S) : Nat := s.dir.length

/-- rmn_gmm_mod.F90:1104-1147 `gmm_keys` without a pattern, into a list of `room` names. -/
def keys (room : Nat) (s : S) : S × Int × List Name :=
  if s.dir.length > room then (s, -1, [])
  else ({ s with cur := s.dir.length + 1 }, s.dir.length, s.dir.map (·.name))

/-- rmn_gmm_mod.F90:1151-1183 `gmm_rename`. -/
def rename (old new : Name) (s : S) : S × Int :=
  let (s, key) := find new s
  if key ≥ 0 then (s, -1)
  else
    let (s, key) := find old s
    if key = -2 then (s, -1)
    else ({ s with dir := s.dir.modify (s.cur - 1) fun e => { e with name := fixed new } }, 0)

/-- rmn_gmm_mod.F90:1231-1233: the keys of a list of variables. -/
def findAll : List Name → S → S × List Int
  | [], s => (s, [])
  | t :: ts, s =>
    let (s, k) := find t s
    let (s, ks) := findAll ts s
    (s, k :: ks)

/-- rmn_gmm_mod.F90:1270-1274: the loop downwards from `i = j + 1` to 2; `ks` are the keys
after they have been moved by one place. -/
def shift (tags : List Name) (ks : List Int) : Nat → S → S
  | 0, s => s
  | j + 1, s =>
    shift tags ks j <|
      if (ks[j]?).getD (-2) ≠ -2 then
        (rename ((tags[j]?).getD []) ((tags[j + 1]?).getD []) s).1
      else s

/-- rmn_gmm_mod.F90:1187-1285 `gmm_shuffle`.  That the temporary name exists is only logged. -/
def shuffle (taglist : List Name) (s : S) : S × Int :=
  let s := (find temp s).1
  let tags := taglist.takeWhile fun t => t.any (· != ' ')
  let n := tags.length
  let (s, ks) := findAll tags s
  if ks.all (· == -2) then (s, -1)
  else if n = 2 then
    let a := (tags[0]?).getD []
    let b := (tags[1]?).getD []
    if (ks[0]?).getD (-2) = -2 then ((rename b a s).1, 0)
    else if (ks[1]?).getD (-2) = -2 then ((rename a b s).1, 0)
    else
      let s := (rename a temp s).1
      let s := (rename b a s).1
      ((rename temp b s).1, 0)
  else
    let ks := (ks.getLast?).getD (-2) :: ks.dropLast
    let s := if (ks.getLast?).getD (-2) ≠ -2 then
        (rename ((tags.getLast?).getD []) temp s).1 else s
    let s := shift tags ks (n - 1) s
    let (s, k) := find temp s
    if k ≠ -2 then ((rename temp ((tags[0]?).getD []) s).1, 0) else (s, 0)

/-- What the restart file holds for one variable (gmm_checkpoint.tmpl90:79-86). -/
structure Rec where
  ext : Nat
  name : Name
  l : List Dim
  a : Attr
  dtype : Nat
  data : List Nat
deriving DecidableEq, Repr

/-- gmm_checkpoint.tmpl90:79-86: write one variable. -/
def writeRec (ext : Nat) (s : S) (e : Entry) : Option Rec := do
  let ad ← (pointer s ext e.pti).join
  let arr ← s.at ad
  some ⟨ext, e.name, e.l.take (rank ext), { e.a with flags := e.a.flags &&& 15 }, e.dtype,
    arr.data⟩

/-- gmm_checkpoint.tmpl90:68-91: write the variables of one type. -/
def writeType (s : S) (ext : Nat) : Option (List Rec) :=
  (s.dir.filter fun e => e.a.flags &&& 1 ≠ 0 ∧ e.dtype = ext).mapM (writeRec ext s)

/-- rmn_gmm_mod.F90:737-771: write the restart file. -/
def checkpointWrite (s : S) : Option (List Rec) := (exts.mapM (writeType s)).map List.flatten

/-- gmm_checkpoint.tmpl90:17-66: read one variable. -/
def readRec (r : Rec) (s : S) : Option S :=
  if r.ext ∉ exts then none
  else do
    let s ← addEntry s
    let b := boundsOf r.ext r.l
    if r.data.length < total b then none
    else
      let e : Entry :=
        { l := r.l.take (rank r.ext) ++ List.replicate (4 - rank r.ext) nullDim
          a := { r.a with key := keyOf (s.cur - 1) r.ext, flags := r.a.flags ||| 16 }
          dtype := r.dtype
          pti := (s.ptrs r.ext).length + 1
          name := r.name }
      some { s with
        dir := s.dir.set (s.cur - 1) e
        ptrs := fun t => if t = r.ext then s.ptrs r.ext ++ [some s.heap.length] else s.ptrs t
        heap := s.heap ++ [some ⟨b, r.data.take (total b)⟩]
        restart := true }

/-- rmn_gmm_mod.F90:669-735: read the restart file. -/
def checkpointRead (f : List Rec) (s : S) : Option S :=
  if s.restart then some s else f.foldlM (fun s r => readRec r s) s

end Gmm
