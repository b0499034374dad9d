import Mathlib.Data.Rat.Defs
/-! # The table of grids for GRIB codes

Model of `igagds95`, `igaxg95`, `qgblukig` and of the reading of the table in `qqqgbld`
(src/base/igaxg95.F).  Simplified: a line of the table is a comment, or a record already decoded, or one
that cannot be decoded (`none`, where the list-directed `read` reports an error); real numbers are integers;
the search for the file is not modelled. -/

namespace Verif.GribTable

/-- A record of the table (igaxg95.F:140-143): codes, type of grid, the eleven other numbers and the
text. -/
structure Rec where
  gribcode : Int
  centre : Int
  subcentre : Int
  proj : Int
  gtyp : Char
  vals : List Int
  gds : String
deriving DecidableEq, Repr

/-- A line of the file. -/
inductive Line where
  | comment
  | record (r : Option Rec)

/-- `ncodemax` (qqqcgb1.cdk). -/
def ncodemax : Nat := 32

/-- The loop of `qqqgbld` (igaxg95.F:254-261): the lines kept so far; `none` if there are too many. -/
def load : List Line → List (Option Rec) → Option (List (Option Rec))
  | [], t => some t
  | .comment :: ls, t => load ls t
  | .record r :: ls, t => if t.length + 1 > ncodemax then none else load ls (t ++ [r])

/-- `xglst` as set by `qgblukig` (igaxg95.F:146-159). -/
def xg (r : Rec) : List Int := r.vals ++ [r.centre, r.subcentre, r.proj]

/-- `qgblukig` (igaxg95.F:109-185) from record `i` on: the number of the record with the type and the
list, `none` for -1. -/
def lookup (ig1 _ig2 : Int) (nxg : Nat) : Nat → List (Option Rec) → Option (Nat × Rec)
  | _, [] => none
  | _, none :: _ => none
  | i, some r :: t =>
    if r.gribcode = ig1 then
      if nxg < 14 then none
      else
        -- `found` is set or not (igaxg95.F:161-163), and is not used after that
        some (i, r)
    else lookup ig1 _ig2 nxg (i + 1) t

/-- `igagds95` (igaxg95.F:20-60) for type `!`: the text and the code of the projection. -/
def igagds95 (file : List Line) (ig1 ig2 : Int) : Option (String × Int) :=
  match load file [] with
  | none => none
  | some t => (lookup ig1 ig2 20 1 t).map fun p => (p.2.gds, p.2.proj)

/-- What `igaxg95` returns for type `!` (igaxg95.F:63-106). -/
structure Out where
  gtyp : Char
  xglst : List Int
  ig3 : Int
  ig4 : Int
deriving DecidableEq, Repr

/-- `igaxg95`; `junk` is what `xglst` holds before, which is used if the record is not found
(igaxg95.F:94-96). -/
def igaxg95 (file : List Line) (ig1 ig2 ig3 ig4 : Int) (junk : List Int) : Out :=
  match load file [] with
  | none => ⟨'*', junk, ig3, ig4⟩
  | some t =>
    match lookup ig1 ig2 junk.length 1 t with
    | none => ⟨'*', junk, 256 * junk.getD 12 0 + junk.getD 13 0, 0⟩
    | some (_, r) => ⟨r.gtyp, xg r ++ junk.drop 14, 256 * r.subcentre + r.proj, 0⟩

end Verif.GribTable
