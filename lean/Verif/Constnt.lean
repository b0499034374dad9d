import Mathlib.Algebra.Field.Rat

/-! # The table of common constants

Model of src/primitives/constnt.F90: `constnt_x`.  Names are lists of characters; a value of double precision is a number and `r4`
rounds it to single precision.  `ncns` has no first value in the code; here it is 0.  The file is the list of its records which can
be read, and whether the end of file or an error ended it. -/

namespace Verif.Constnt

abbrev Name := List ℕ

/-- Assignment to `character(len = 8)` (constnt.F90:124, 179). -/
def cut (n : Name) : Name := n.take 8 ++ List.replicate (8 - n.length) 32

def blank : Name := List.replicate 8 32

/-- The entries from 1 to `ncns`. -/
abbrev Table := List (Name × ℚ)

/-- The end of a call. -/
inductive Res where
  | stop
  | ret (flag : ℕ) (valeur : ℚ)
deriving DecidableEq

/-- The test `name(1) == ' '` (constnt.F90:147). -/
def unread (t : Table) : Bool :=
  match t with
  | [] => true
  | (n, _) :: _ => n == blank

/-- The first entry with a name (constnt.F90:189-199). -/
def find (t : Table) (n : Name) : Option ℚ :=
  match t with
  | [] => none
  | (m, v) :: t => if n = m then some v else find t n

/-- Change of the first entry with a name (constnt.F90:235-245). -/
def change (t : Table) (n : Name) (v : ℚ) : Table :=
  match t with
  | [] => []
  | (m, w) :: t => if n = m then (m, v) :: t else (m, w) :: change t n v

/-- The part after the table was read (constnt.F90:179-251); `flag` is the one it has by then. -/
def serve (r4 : ℚ → ℚ) (t : Table) (flag : ℕ) (nom : Name) (v : ℚ) (mode0 : ℕ) : Table × Res :=
  let tname := cut nom
  if mode0 % 100 = 0 then
    match find t tname with
    | none => (t, .ret 0 0)
    | some x => (t, .ret 1 (if mode0 < 100 then r4 x else x))
  else if mode0 % 100 = 2 then
    match find t tname with
    | some _ => (t, .stop)
    | none => if t.length < 200 then (t ++ [(tname, v)], .ret 1 v) else (t, .stop)
  else if mode0 % 100 = 3 then
    match find t tname with
    | some _ => (change t tname v, .ret 1 v)
    | none => (t, .stop)
  else (t, .ret flag v)

/-- `constnt_x` (constnt.F90:50-257); `file` is `none` where it is not found. -/
def constnt (r4 : ℚ → ℚ) (file : Option (Table × Bool)) (t : Table) (nom : Name) (v : ℚ) (mode0 : ℕ) : Table × Res :=
  if mode0 % 100 = 4 then (t, .ret 0 v)
  else if unread t then
    match file with
    | none => (t, .ret 0 v)
    | some (recs, ok) =>
      let t' := if recs = [] then t else recs.take 200
      let flag := if ok || 200 ≤ recs.length then 1 else 0
      if mode0 % 100 = 1 then (t', .ret flag v) else serve r4 t' flag nom v mode0
  else serve r4 t 0 nom v mode0

end Verif.Constnt
