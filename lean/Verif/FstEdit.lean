import Verif.FstKeysLemmas
import Verif.Xdf

/-! # Editing directory entries and masking search keys

Model of `c_fst_edit_dir_plus`, `c_fst_edit_dir` and `c_fstmsq` (src/fstd98/fstd98.c) on random standard files
that are open: the tests of the file number, of `attr.std` and of `xdf_seq` are left out, as are messages. -/

namespace Verif.FstEdit

open Verif.FstKeys (W C Keys)
open Verif.Xdf (Mem Page Entry Code setEntry)

/-- Arguments of `c_fst_edit_dir_plus` (fstd98.c:1389-1410); strings are given up to their terminating null.  Pointers
are not null. -/
structure Edit where
  date : W
  deet : Int
  npas : Int
  ni : Int
  nj : Int
  nk : Int
  ip1 : Int
  ip2 : Int
  ip3 : Int
  typvar : List C
  nomvar : List C
  etiket : List C
  grtyp : List C
  ig1 : Int
  ig2 : Int
  ig3 : Int
  ig4 : Int
  datyp : Int

/-- A bit field of `n` bits keeps its value when the argument is -1 (fstd98.c:1466-1500, 1507-1509). -/
def orKeep {n : Nat} (x : Int) (old : BitVec n) : BitVec n := if x = -1 then old else BitVec.ofInt n x

/-- The names of width `n` that mean "keep": all blank (`strcmp`, fstd98.c:1464, 1477, 1496, 1501). -/
def keeps (n : Nat) (s : List C) : Bool := decide (FstKeys.padTo n s = List.replicate n 32#8)

/-- The new fields of an entry (fstd98.c:1464-1510). -/
def editKeys (a : Edit) (k : Keys) : Keys :=
  let et := FstKeys.padTo 12 a.etiket
  { k with
    gtyp := if keeps 1 a.grtyp then k.gtyp else FstKeys.ch (FstKeys.padTo 1 a.grtyp) 0
    deet := orKeep a.deet k.deet
    npas := orKeep a.npas k.npas
    ig1 := orKeep a.ig1 k.ig1
    ig2a := if a.ig2 = -1 then k.ig2a else BitVec.ofInt 8 (a.ig2 >>> 16)
    ig2b := if a.ig2 = -1 then k.ig2b else BitVec.ofInt 8 (a.ig2 >>> 8)
    ig2c := if a.ig2 = -1 then k.ig2c else BitVec.ofInt 8 a.ig2
    ig3 := orKeep a.ig3 k.ig3
    ig4 := orKeep a.ig4 k.ig4
    etik15 := if keeps 12 a.etiket then k.etik15 else FstKeys.enc5 et 0
    etik6a := if keeps 12 a.etiket then k.etik6a else FstKeys.enc5 et 5
    etikbc := if keeps 12 a.etiket then k.etikbc else FstKeys.enc2 et 10
    typvar := if keeps 2 a.typvar then k.typvar else FstKeys.enc2 (FstKeys.padTo 2 a.typvar) 0
    nomvar := if keeps 4 a.nomvar then k.nomvar else FstKeys.enc4 (FstKeys.padTo 4 a.nomvar) 0
    ip1 := orKeep a.ip1 k.ip1
    ip2 := orKeep a.ip2 k.ip2
    ip3 := orKeep a.ip3 k.ip3
    dateStamp := if a.date = BitVec.ofInt 32 (-1) then k.dateStamp else FstKeys.octDate a.date }

/-- `c_fst_edit_dir_plus` on page `p`, record `r` of a file (fstd98.c:1451-1519).  `none`: an entry outside of the
directory is used (page number equal to the number of pages, or record number past the end of a page). -/
def editDir (m : Mem) (p r : Nat) (a : Edit) : Option (Except Code Mem) :=
  if p > m.pages.length then some (.error .badPageno)
  else
    match m.pages[p]? with
    | none => none
    | some pg =>
      match pg.entries[r]? with
      | none => none
      | some e =>
        some (.ok { m with
          pages := setEntry m.pages p r (Entry.ofWords (editKeys a (FstKeys.ofWords e.words)).words)
          modified := true })

/-- `c_fst_edit_dir` (fstd98.c:1523-1546): the dimensions, the grid type and the data type are not passed on. -/
def editDirOld (m : Mem) (p r : Nat) (a : Edit) : Option (Except Code Mem) :=
  editDir m p r { a with ni := -1, nj := -1, nk := -1, grtyp := [32#8], datyp := -1 }

/-! ## Masks -/

/-- `isignore` (fstd98.c:2476-2478). -/
def isignore (c : C) : BitVec 6 := if c = 42#8 then 0#6 else 0x3f#6

/-- `inv_isignore` (fstd98.c:2482-2484). -/
def invIsignore (x : BitVec 6) : C := if x = 0x3f#6 then 32#8 else 42#8

/-- Five characters of a mask (fstd98.c:2533-2544). -/
def mask5 (s : List C) (i : Nat) : BitVec 30 :=
  isignore (FstKeys.ch s i) ++ isignore (FstKeys.ch s (i + 1)) ++ isignore (FstKeys.ch s (i + 2))
    ++ isignore (FstKeys.ch s (i + 3)) ++ isignore (FstKeys.ch s (i + 4))

/-- Two characters of a mask (fstd98.c:2545-2547). -/
def mask2 (s : List C) (i : Nat) : BitVec 12 := isignore (FstKeys.ch s i) ++ isignore (FstKeys.ch s (i + 1))

/-- `c_fstmsq` when `getmode` is zero (fstd98.c:2529-2547); twelve characters of `metiket` are read. -/
def msqSet (m1 m2 m3 : W) (s : List C) (k : Keys) : Keys :=
  { k with
    ip1 := (~~~ m1).setWidth 28, ip2 := (~~~ m2).setWidth 28, ip3 := (~~~ m3).setWidth 28,
    etik15 := mask5 s 0, etik6a := mask5 s 5, etikbc := mask2 s 10 }

/-- `c_fstmsq` when `getmode` is not zero (fstd98.c:2513-2528). -/
def msqGet (k : Keys) : W × W × W × List C :=
  let six := fun {n : Nat} (x : BitVec n) (sh : Nat) => invIsignore ((x >>> sh).setWidth 6)
  (~~~ (k.ip1.setWidth 32) &&& 0xfffffff#32, ~~~ (k.ip2.setWidth 32) &&& 0xfffffff#32,
    ~~~ (k.ip3.setWidth 32) &&& 0xfffffff#32,
    [six k.etik15 24, six k.etik15 18, six k.etik15 12, six k.etik15 6, six k.etik15 0,
     six k.etik6a 24, six k.etik6a 18, six k.etik6a 12, six k.etik6a 6, six k.etik6a 0,
     six k.etikbc 6, six k.etikbc 0])

/-- `c_fstmsq` (fstd98.c:2487-2550) on the `srch_mask` of an open standard file: the new mask and what the arguments
hold afterwards. -/
def fstmsq (getmode : Int) (m1 m2 m3 : W) (s : List C) (srch : List W) : List W × W × W × W × List C :=
  if getmode ≠ 0 then (srch, msqGet (FstKeys.ofWords srch))
  else ((msqSet m1 m2 m3 s (FstKeys.ofWords srch)).words, m1, m2, m3, s)

end Verif.FstEdit
