/-! # Variables of an application

Model of src/primitives/appl_var.c: a table of names and values.  A name and a value are blank padded (Fortran);
characters are numbers, none of them 0.  The strings of the table have one byte more than characters, which is
never set (`junk`); to read behind it is a fault (`none`).  Names of blanks only are not modelled: the comparison
of line 56 then reads to a NUL which nobody writes (`none`). -/

namespace Verif.ApplVar

/-- An entry (appl_var.c:11-16): the name, the byte behind it, the value and the byte behind it. -/
structure Entry where
  name : List Nat
  jn : Nat
  value : List Nat
  jv : Nat
deriving DecidableEq, Repr

/-- `MAX_ENTRIES` (appl_var.c:9). -/
def maxEntries : Nat := 1024

/-- Trailing blanks are removed (appl_var.c:45-46, 83). -/
def trim (s : List Nat) : List Nat := (s.reverse.dropWhile (· == 32)).reverse

/-- `strncmp` of `a.length` characters, equal or not, after `f` on both sides. -/
def ncmp (f : Nat → Nat) : List Nat → List Nat → Option Bool
  | [], _ => some true
  | _ :: _, [] => none
  | a :: as, b :: bs => if f a = f b then ncmp f as bs else some false

/-- The loop for the entry of a name (appl_var.c:48-53, 86-91): the index, if there is one. -/
def find (f : Nat → Nat) (name : List Nat) : List Entry → Nat → Option (Option Nat)
  | [], _ => some none
  | e :: es, i =>
    match ncmp f name (e.name ++ [e.jn]) with
    | none => none
    | some true => some (some i)
    | some false => find f name es (i + 1)

/-- `set_appl_var` (appl_var.c:43-77); `jn` and `jv` are the bytes malloc leaves behind the strings.  An entry behind the end of the
table (66) is a fault. -/
def set (t : List Entry) (name value : List Nat) (jn jv : Nat) : Option (List Entry) :=
  let name := trim name
  let value := trim value
  if name = [] then none
  else
    match find id name t 0 with
    | none => none
    | some (some i) => some (t.set i ⟨name, jn, value, jv⟩)
    | some none => if t.length < maxEntries then some (t ++ [⟨name, jn, value, jv⟩]) else none

/-- `tolower`, in the C locale. -/
def lower (c : Nat) : Nat := if 65 ≤ c ∧ c ≤ 90 then c + 32 else c

/-- `strncpy` of `n` bytes from a string and the bytes behind it: zeros behind the first zero; `none` is a read behind
the last byte. -/
def ncpy : Nat → List Nat → Option (List Nat)
  | 0, _ => some []
  | _ + 1, [] => none
  | n + 1, c :: cs => if c = 0 then some (List.replicate (n + 1) 0) else (ncpy n cs).map (c :: ·)

/-- `get_appl_var` (appl_var.c:80-103): the result and what is written at the beginning of `value`. -/
def get (t : List Entry) (name : List Nat) (lng : Nat) : Option (Int × List Nat) :=
  let name := trim name
  if name = [] then none
  else
    match find lower name t 0 with
    | none => none
    | some none => some (0, [])
    | some (some i) =>
      match t[i]? with
      | none => none
      | some e => (ncpy lng (e.value ++ [e.jv])).map fun w =>
        (if e.value.length ≤ lng then (e.value.length : Int) else -(e.value.length : Int), w)

/-- The bytes `w` are written from the position 0 on. -/
def write (m : Int → Nat) (w : List Nat) : Int → Nat := fun a => if 0 ≤ a ∧ a < w.length then w.getD a.toNat 0 else m a

/-- The wrapper for Fortran (appl_var.c:106-114): blanks from the result to `lv`, the latter included.  Positions are
relative to the beginning of `value`. -/
def get77 (m : Int → Nat) (t : List Entry) (name : List Nat) (lv : Nat) : Option (Int × (Int → Nat)) :=
  (get t name lv).map fun r => (r.1, fun a => if r.1 ≤ a ∧ a ≤ lv then 32 else write m r.2 a)

end Verif.ApplVar
