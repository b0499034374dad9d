/-
Table of the grids of the interpolation package: `src/interp/ez_identifygrid.c`,
`ez_findgrid.c`, `ez_addgrid.c`, `gdrls.c`, and the calls of `ezgdef_fmem.c` and
`ezgdef_ffile.c`.
-/

namespace Verif.EzGrid

/-- Bits of a number in single precision. -/
abbrev Real32 := BitVec 32

/-- The fields of `_Grille` which `c_ez_findgrid` compares (ez_def.h:201-231); `ax` is `none` for a
null pointer. -/
structure Desc where
  typ : Char
  ref : Char
  ni : Nat
  nj : Nat
  niAx : Nat
  njAy : Nat
  ig : Int × Int × Int × Int
  igref : Int × Int × Int × Int
  ax : Option (List Real32)
  ay : Option (List Real32)
deriving DecidableEq, Repr

/-- A grid of the table; `bucket` is `grid_index`, `next` is `next_gd`. -/
structure Slot where
  d : Desc
  index : Int
  bucket : Nat
  next : Int
  access : Int
deriving DecidableEq

/-- memset to zero, gdrls.c:74 -/
def zeroSlot : Slot :=
  ⟨⟨Char.ofNat 0, Char.ofNat 0, 0, 0, 0, 0, (0, 0, 0, 0), (0, 0, 0, 0), none, none⟩, 0, 0, 0, 0⟩

/-- ez_addgrid.c:83-86, ez_identifygrid.c:57-60 -/
def freshSlot : Slot := { zeroSlot with index := -1 }

/-- Ways to get no answer: an endless loop, `exit`, access outside of the tables. -/
inductive Fault
  | hang
  | stop
  | outside
deriving DecidableEq, Repr

/-- ez_statics.c:6-8. `slots` is `Grille` by `c_gdkey2rowcol` (gd_key2rowcol.h:24-27), of which
`cap` are allocated; `heads` is `gr_list`, with numbers of slots for pointers. -/
structure Table where
  slots : Int → Slot
  cap : Int
  heads : Nat → Option Int
  n : Int

/-- `Grille[row][col]` -/
def slot (s : Table) (k : Int) : Except Fault Slot :=
  if 0 ≤ k ∧ k < s.cap then .ok (s.slots k) else .error .outside

def setSlot (s : Table) (k : Int) (v : Slot) : Table :=
  { s with slots := fun i => if i = k then v else s.slots i }

/-- Value of two numbers equal, for `!=` on floats. -/
def numEq (a b : Real32) : Bool :=
  let nan := fun x : Real32 => x &&& 0x7fffffff#32 > 0x7f800000#32
  !(nan a) && !(nan b) && (a == b || (a ||| b) &&& 0x7fffffff#32 == 0)

/-- ez_findgrid.c:64-76, 81-94: are the first `m` elements equal? -/
def axisEq : Nat → List Real32 → List Real32 → Except Fault Bool
  | 0, _, _ => .ok true
  | m + 1, a :: as, b :: bs => if numEq a b then axisEq m as bs else .ok false
  | _ + 1, _, _ => .error .outside

/-- What is done with a grid of the chain. -/
inductive Verdict
  | same
  | next
  | stay
deriving DecidableEq

/-- ez_findgrid.c:34-126, body of the loop: the new grid `g` is compared with `r`. -/
def compare (g r : Desc) : Except Fault Verdict :=
  if g.typ = 'U' ∧ g.typ = r.typ ∧ g.ref = r.ref ∧ g.niAx = r.niAx ∧ g.njAy = r.njAy ∧ g.ig = r.ig then
    .ok .same
  else if g.typ = r.typ ∧ g.ni = r.ni ∧ g.nj = r.nj ∧ g.ig = r.ig then
    if g.typ = 'G' then .ok .same
    else if g.igref = r.igref then
      match r.ax, r.ay, g.ax, g.ay with
      | some rx, some ry, some gx, some gy => do
        let mx := if r.typ = 'Z' then g.ni else g.ni * g.nj
        let my := if r.typ = 'Z' then g.nj else g.ni * g.nj
        let ex ← axisEq mx rx gx
        if ex then
          let ey ← axisEq my ry gy
          .ok (if ey then .same else .next)
        else .ok .next
      | _, _, _, _ => .ok .same
    else .ok .stay
  else .ok .next

/-- ez_findgrid.c:33-127: the loop from slot `k` on. The result is the slot where it ends and
whether this is the grid. The loop is in the same state again when the verdict is `stay`, or after
more steps than there are slots. -/
def walk (s : Table) (g : Desc) : Nat → Int → Except Fault (Int × Bool)
  | 0, _ => .error .hang
  | fuel + 1, k => do
    let r ← slot s k
    match ← compare g r.d with
    | .same => .ok (k, true)
    | .stay => .error .hang
    | .next => if r.next = -1 then .ok (k, false) else walk s g fuel r.next

/-- ez_findgrid.c:8-139 `c_ez_findgrid`, of a bucket which has grids. -/
def find (s : Table) (head : Int) (g : Desc) : Except Fault (Table × Int) := do
  let (k, found) ← walk s g (s.cap.toNat + 1) head
  let r ← slot s k
  let s := setSlot s k { r with access := r.access + 1 }
  .ok (s, if found then r.index else -1)

/-- ez_addgrid.c:60-63 -/
def last (s : Table) : Nat → Int → Except Fault Int
  | 0, _ => .error .hang
  | fuel + 1, k => do
    let r ← slot s k
    if r.next = -1 then .ok k else last s fuel r.next

/-- ez_addgrid.c:48-66: the next free slot is put at the end of the chain of the bucket. -/
def link (s : Table) (b : Nat) : Except Fault Table :=
  match s.heads b with
  | none => do
    let r ← slot s s.n
    .ok { setSlot s s.n { r with bucket := b } with
      heads := fun i => if i = b then some s.n else s.heads i }
  | some head => do
    let cur ← slot s head
    let k ← last s (s.cap.toNat + 1) cur.index
    let r ← slot s k
    .ok (setSlot s k { r with next := s.n })

/-- ez_addgrid.c:68-88 -/
def place (s : Table) (b : Nat) (g : Desc) : Except Fault (Table × Int) := do
  let _ ← slot s s.n
  let f := (setSlot s s.n ⟨g, s.n, b, -1, 1⟩).slots
  let n := s.n + 1
  if n ≥ 16384 then .error .stop
  else if n % 128 = 0 then
    .ok ({ s with
      slots := fun i => if n ≤ i ∧ i < n + 128 then freshSlot else f i
      cap := max s.cap (n + 128)
      n := n }, n - 1)
  else .ok ({ s with slots := f, n := n }, n - 1)

/-- ez_addgrid.c:34-93 `c_ez_addgrid` -/
def add (s : Table) (b : Nat) (g : Desc) : Except Fault (Table × Int) := do
  let s ← link s b
  place s b g

/-- ez_identifygrid.c:53-61, 111-118; ezgdef_ffile.c:52-59 -/
def tables (s : Table) : Table :=
  if s.n = 0 then { slots := fun _ => freshSlot, cap := 128, heads := fun _ => none, n := 0 } else s

/-- ez_identifygrid.c:79-96, 196-209; ezgdef_ffile.c:76-91. The result tells if the grid was
found. -/
def identify (s : Table) (b : Nat) (g : Desc) : Except Fault (Table × Int × Bool) := do
  match s.heads b with
  | none =>
    let (s, id) ← add s b g
    .ok (s, id, false)
  | some head =>
    let (s, id) ← find s head g
    if id = -1 then
      let (s, id) ← add s b g
      .ok (s, id, false)
    else .ok (s, id, true)

/-- Arguments of `c_ezgdef_fmem`. -/
structure Call where
  ni : Nat
  nj : Nat
  typ : Char
  ref : Char
  ig : Int × Int × Int × Int
  ax : List Real32
  ay : List Real32
deriving DecidableEq

/-- ezgdef_fmem.c:63 -/
def irregular (t : Char) : Bool := t == '#' || t == 'Y' || t == 'Z' || t == 'G'

/-- `newgr` of ez_identifygrid.c:63-76 and 120-194. -/
def newGrid (c : Call) : Desc :=
  if irregular c.typ then
    { typ := c.typ, ref := c.ref, ni := c.ni, nj := c.nj, niAx := 0, njAy := 0
      ig := c.ig, igref := c.ig
      ax := if c.typ = 'G' then none else some c.ax
      ay := if c.typ = 'G' then none else some c.ay }
  else
    { typ := c.typ, ref := Char.ofNat 0, ni := c.ni, nj := c.nj, niAx := 0, njAy := 0
      ig := c.ig, igref := (0, 0, 0, 0), ax := none, ay := none }

/-- ez_defaxes.c:29-108 `c_ezdefaxes`, the fields that are compared later; `gauss` stands for the
axes and the parameters computed for grid `G`. -/
def defAxes (gauss : Nat → Nat → Desc) (c : Call) (d : Desc) : Desc :=
  if d.typ = '#' ∨ d.typ = 'Z' then
    { d with ax := some (c.ax.take d.ni), ay := some (c.ay.take d.nj) }
  else if d.typ = 'Y' then
    { d with ax := some (c.ax.take (d.ni * d.nj)), ay := some (c.ay.take (d.ni * d.nj)) }
  else if d.typ = 'G' then
    { d with
      ref := 'L'
      igref := (gauss d.ni d.nj).igref
      ax := (gauss d.ni d.nj).ax
      ay := (gauss d.ni d.nj).ay }
  else d

/-- ezgdef_fmem.c:37-93 `c_ezgdef_fmem`. `crc` is the remainder of `ez_calc_crc` (ez_calc_crc.c:23-52)
over the whole structure and the axes, which are functions of the fields in `Desc`. -/
def defMem (crc : Desc → Nat) (gauss : Nat → Nat → Desc) (s : Table) (c : Call) :
    Except Fault (Table × Int) := do
  let g := newGrid c
  let (s, id, _) ← identify (tables s) (crc g) g
  if irregular c.typ then
    let r ← slot s id
    .ok (setSlot s id { r with d := defAxes gauss c r.d }, id)
  else .ok (s, id)

/-- Words of the structure and of the axes are added bit by bit, ez_calc_crc.c:23-52. -/
def calcCrc (words : List (BitVec 32)) : BitVec 32 := words.foldl (· ^^^ ·) 0

/-- What `LireEnrPositionnels` finds in a file for a grid of type `Y` or `Z`
(ez_lireEnrPositionnels.c:88-347): numbers of the records `tags`, the argument `ig4`, parameters of the reference
grid; `labels` are the words of names and labels of the records. -/
structure Record where
  typ : Char
  ref : Char
  ni : Nat
  nj : Nat
  niAx : Nat
  njAy : Nat
  tags : Int × Int × Int
  ig4 : Int
  igref : Int × Int × Int × Int
  labels : List (BitVec 32)
  ax : List Real32
  ay : List Real32

/-- The words of `newgr` which are not zero, ezgdef_ffile.c:61-75. `xg` is `cigaxg`. -/
def words (xg : Char → Int × Int × Int × Int → Real32 × Real32 × Real32 × Real32) (r : Record) :
    List (BitVec 32) :=
  let x := xg r.ref r.igref
  let w := BitVec.ofInt 32
  [BitVec.ofNat 32 r.typ.toNat, BitVec.ofNat 32 r.ref.toNat, BitVec.ofNat 32 r.ni,
    BitVec.ofNat 32 r.nj, BitVec.ofNat 32 r.niAx, BitVec.ofNat 32 r.njAy, w (-1),
    w r.tags.1, w r.tags.2.1, w r.tags.2.2, w r.ig4,
    w r.igref.1, w r.igref.2.1, w r.igref.2.2.1, w r.igref.2.2.2,
    w r.igref.1, w r.igref.2.1, w r.igref.2.2.1,
    if r.ref = 'N' then 1 else if r.ref = 'S' then 2 else 0,
    x.1, x.2.1, x.2.2.1, x.2.2.2] ++ r.labels

/-- ezgdef_ffile.c:29-140 `c_ezgdef_ffile` for types `Y` and `Z`. The first call of
`LireEnrPositionnels` finds the records (line 72), a second one reads the axes of a new grid
(line 105), with zero for `ig4`. -/
def defFile (xg : Char → Int × Int × Int × Int → Real32 × Real32 × Real32 × Real32) (s : Table)
    (r : Record) : Except Fault (Table × Int) := do
  let g : Desc :=
    { typ := r.typ, ref := r.ref, ni := r.ni, nj := r.nj, niAx := r.niAx, njAy := r.njAy
      ig := (r.tags.1, r.tags.2.1, r.tags.2.2, r.ig4), igref := r.igref, ax := none, ay := none }
  let b := (calcCrc (words xg r)).toNat % 16381
  let (s, id, old) ← identify (tables s) b g
  if old then .ok (s, id)
  else
    let v ← slot s id
    let d := { v.d with
      ig := (r.tags.1, r.tags.2.1, r.tags.2.2, 0), ax := some r.ax, ay := some r.ay }
    .ok (setSlot s id { v with d := d }, id)

/-- gdrls.c:32-81 `EliminerGrille`, without the memory of the grid. -/
def release (s : Table) (id : Int) : Except Fault Table := do
  let r ← slot s id
  let r := if r.access > 0 then { r with access := r.access - 1 } else r
  if r.access = 0 then
    .ok { setSlot s id zeroSlot with
      heads := fun i => if i = r.bucket then none else s.heads i
      n := s.n - 1 }
  else .ok (setSlot s id r)

end Verif.EzGrid
