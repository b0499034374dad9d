/-! # Copies of strings with filling, and a file in an array

Model of src/primitives/ftn2c_helper_c.c and src/primitives/array_file.c.  Characters are numbers.  A read of the character
before the beginning of a string is a fault (`none`); the character after its end, which the loop of line 38 reads, has no
influence. -/

namespace Verif.Ftn2c

/-- The characters up to the first NUL, `lsrc` at most (ftn2c_helper_c.c:38-39). -/
def upto (src : List Nat) (lsrc : Nat) : List Nat := (src.take lsrc).takeWhile (· != 0)

/-- The loop of ftn2c_helper_c.c:41 on the string in reverse. -/
def strip : List Nat → Option (List Nat)
  | [] => none
  | c :: cs => if c = 32 then strip cs else some (c :: cs)

/-- `ftn2c_string_copy` (ftn2c_helper_c.c:24-60): `dest` is the memory of the destination, `ldest` its length. -/
def copy (src : List Nat) (dest : Option (List Nat)) (lsrc ldest pad : Nat) : Option (Int × Option (List Nat)) :=
  match strip (upto src lsrc).reverse with
  | none => none
  | some r =>
    let t := r.reverse
    match dest with
    | none => some (t.length, none)
    | some d =>
      if ldest < t.length then some (-1, some d)
      else if pad = 0 ∧ t.length = ldest then some (-1, some d)
      else if pad ≠ 0 then some (t.length, some (t ++ List.replicate (ldest - t.length) pad ++ d.drop ldest))
      else some (t.length, some (t ++ 0 :: d.drop (t.length + 1)))

/-- The loop of `ftn2c_cstra_fstra` (ftn2c_helper_c.c:72-77): `dest` has the places of all strings. -/
def cToF (lsrc ldest pad : Nat) : List (List Nat) → List Nat → Option (Int × List Nat)
  | [], d => some (0, d)
  | s :: ss, d =>
    match copy s (some (d.take ldest)) lsrc ldest pad with
    | some (n, some e) =>
      if n < 0 then some (-1, e ++ d.drop ldest)
      else (cToF lsrc ldest pad ss (d.drop ldest)).map fun x => (x.1, e ++ x.2)
    | _ => none

/-- The loop of `ftn2c_fstra_cstra` (ftn2c_helper_c.c:90-95). -/
def fToC (lsrc ldest pad : Nat) : List Nat → List (List Nat) → Option (Int × List (List Nat))
  | _, [] => some (0, [])
  | f, d :: ds =>
    match copy (f.take lsrc) (some d) lsrc ldest pad with
    | some (n, some e) =>
      if n < 0 then some (-1, e :: ds)
      else (fToC lsrc ldest pad (f.drop lsrc) ds).map fun x => (x.1, e :: x.2)
    | _ => none

/-- What `array_from_file` leaves (array_file.c:33-55): the last index, the number of characters and the characters. -/
structure Arr where
  last : Nat
  nchar : Nat
  data : List Nat
deriving DecidableEq

/-- `array_from_file` for a file which can be opened and an array of `nw` words, two at least. -/
def fromFile (file : List Nat) (nw : Nat) : Arr :=
  let got := file.take ((nw - 2) * 4)
  { last := 2 + (got.length + 4 - 1) / 4, nchar := got.length, data := got }

/-- `array_to_file` (array_file.c:72-94): the file begins with what is written and is cut there. -/
def toFile (a : Arr) (file : List Nat) : List Nat :=
  let out := a.data.take a.nchar
  (out ++ file.drop out.length).take out.length

end Verif.Ftn2c
