/-! # Strings of Fortran and C

Model of src/fstd98/FC_string.c, src/base/ftnStrLen.c, src/primitives/up2low.f, src/primitives/getenvc.c, src/fstd98/r4astrg.c and
src/fstd98/strgr4a.c.  Characters are numbers; a C string is a list without 0, a Fortran string a list of its length.
`none` is an access outside of the string. -/

namespace Verif.FStr

/-- cstring_to_fstring (FC_string.c:36-50): `nc` characters. -/
def toF : List Nat → Nat → List Nat
  | _, 0 => []
  | [], nc + 1 => 32 :: toF [] nc
  | c :: cs, nc + 1 => c :: toF cs nc

/-- The loop which takes blanks away (FC_string.c:70-73), on the string in reverse: `i` is not changed, so that the loop
does not end at the beginning of the string. -/
def strip : List Nat → Option (List Nat)
  | [] => none
  | c :: cs => if c = 32 then strip cs else some (c :: cs)

/-- fstring_to_cstring (FC_string.c:53-77); the C string ends at the first NUL. -/
def toC (f : List Nat) (rmblanks : Bool) : Option (List Nat) :=
  if rmblanks ∧ 0 < f.length then (strip f.reverse).map fun r => r.reverse.takeWhile (· != 0)
  else some (f.takeWhile (· != 0))

/-- fill_string_array (FC_string.c:80-88): `ns` strings of `nc` characters. -/
def fill (f : List Nat) (nc : Nat) (rmblanks : Bool) : Nat → Option (List (List Nat))
  | 0 => some []
  | ns + 1 =>
    match toC (f.take nc) rmblanks, fill (f.drop nc) nc rmblanks ns with
    | some s, some ss => some (s :: ss)
    | _, _ => none

/-- A blank or NUL (ftnStrLen.c:12, 15). -/
def pad (c : Nat) : Bool := c == 32 || c == 0

/-- The loop of ftnStrLen.c:12-14. -/
def back (s : List Nat) : Nat → Nat
  | 0 => 0
  | len + 1 => if pad (s.getD (len + 1) 0) then back s len else len + 1

/-- `ftnStrLen` (ftnStrLen.c:5-19); for the length 0 the number `maxLen - 1` is the largest one. -/
def ftnStrLen (s : List Nat) : Option Nat :=
  if s.length = 0 then none
  else
    let len := back s (s.length - 1)
    some (if pad (s.getD len 0) then len else len + 1)

/-- `UP2LOW` (up2low.f:22-40) into a string of `l2` characters. -/
def up2low (s : List Nat) (l2 : Nat) : List Nat :=
  (s.take l2).map (fun c => if 65 ≤ c ∧ c ≤ 90 then c + 32 else c) ++ List.replicate (l2 - s.length) 32

/-- `LOW2UP` (up2low.f:43-61). -/
def low2up (s : List Nat) (l2 : Nat) : List Nat :=
  (s.take l2).map (fun c => if 97 ≤ c ∧ c ≤ 122 then c - 32 else c) ++ List.replicate (l2 - s.length) 32

/-- `getenvc2` (getenvc.c:31-74): `name` and a value of `len` characters of Fortran; `env` is `getenv`. -/
def getenvc (env : List Nat → Option (List Nat)) (name : List Nat) (len : Nat) : List Nat :=
  let blank := List.replicate len 32
  match env (name.takeWhile (· != 32)) with
  | none => blank
  | some v => if name.length + 1 = 1 then blank else v.take len ++ blank.drop v.length

/-- The first byte of the integer 3 (strgr4a.c:8-10): 3 or 0 by the order of bytes. -/
def order (little : Bool) : Nat := if little then 3 else 0

/-- The loop of strgr4a.c:14-17: characters into the bytes `i` to `fin` of words, counted from the high end. -/
def strgr4a (little : Bool) : List Nat → (Nat → Nat) → Nat → Nat → (Nat → Nat)
  | [], r, _, _ => r
  | c :: cs, r, i, fin => if i ≤ fin then strgr4a little cs (fun a => if a = i ^^^ order little then c else r a) (i + 1) fin else r

/-- The loop of r4astrg.c:15-18, into a string `s`. -/
def r4astrg (little : Bool) : List Nat → (Nat → Nat) → Nat → Nat → List Nat
  | [], _, _, _ => []
  | c :: cs, r, i, fin => if i ≤ fin then r (i ^^^ order little) :: r4astrg little cs r (i + 1) fin else c :: cs

end Verif.FStr
