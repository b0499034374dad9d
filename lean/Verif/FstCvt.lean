import Mathlib.Data.List.Basic

namespace Verif.FstCvt

/-! Hollerith words and characters (src/fstd98/fstcvt2.f).  A word is the list of its four characters in the order of the memory;
the word -1 is four times 255.  `none` is an error of the run: a formatted write into a string which is too short. -/

/-- A blank. -/
def blank : Nat := 32

/-- `-1` as the characters of a word. -/
def minus1 : List Nat := [255, 255, 255, 255]

/-- A string of `n` characters from another one, cut or filled with blanks: assignment, and records in reads. -/
def fit (n : Nat) (s : List Nat) : List Nat := (s ++ List.replicate n blank).take n

/-- `READ(s,'(Aw)')` of a word, `w ≤ 4` (fstcvt2.f:102, 107, 112): `w` characters, blanks after them. -/
def readA (w : Nat) (s : List Nat) : List Nat := fit 4 (fit w s)

/-- `WRITE(s,'(Aw)')` of a word into a string of `n` characters, `w ≤ 4` (fstcvt2.f:70-72, 78-81, 87). -/
def writeA (w n : Nat) (h : List Nat) : Option (List Nat) := if w ≤ n then some (fit n (h.take w)) else none

/-- The four strings. -/
structure Chars where
  nom : List Nat
  typ : List Nat
  grtp : List Nat
  etik : List Nat
  deriving DecidableEq

/-- The words; the label has three. -/
structure Words where
  nom : List Nat
  typ : List Nat
  grtp : List Nat
  e1 : List Nat
  e2 : List Nat
  e3 : List Nat
  deriving DecidableEq

/-- `CNOM.EQ.' '` (fstcvt2.f:103, 108, 113, 122). -/
def isBlank (s : List Nat) : Bool := s.all (· == blank)

/-- Characters to words (fstcvt2.f:102-124); `e3` is what the third word of the label held. -/
def toWords (c : Chars) (e3 : List Nat) : Words where
  nom := if isBlank c.nom then minus1 else readA 4 c.nom
  typ := if isBlank c.typ then minus1 else readA 2 c.typ
  grtp := if isBlank c.grtp then minus1 else readA 1 c.grtp
  e1 := if isBlank c.etik then minus1 else fit 4 c.etik
  e2 := fit 4 (c.etik.drop 4)
  e3 := if c.etik.length > 8 then fit 4 (c.etik.drop 8) else e3

/-- Words to characters (fstcvt2.f:66-98); the strings have `nn`, `nt`, `ng` and `ne` characters. -/
def toChars (w : Words) (nn nt ng ne : Nat) : Option Chars :=
  (if w.nom = minus1 then some (List.replicate nn blank) else if nn > 2 then writeA 4 nn w.nom else writeA 2 nn w.nom).bind fun nom =>
  (if w.typ = minus1 then some (List.replicate nt blank) else if nt > 1 then writeA 2 nt w.typ else writeA 1 nt w.typ).bind fun typ =>
  (if w.grtp = minus1 then some (List.replicate ng blank) else writeA 1 ng w.grtp).bind fun grtp =>
  (if w.e1 = minus1 then some (List.replicate ne blank)
    else if ne > 8 then (if 12 ≤ ne then some (fit ne (w.e1 ++ w.e2 ++ w.e3)) else none)
    else (if 8 ≤ ne then some (fit ne (w.e1 ++ w.e2)) else none)).bind fun etik =>
  some ⟨nom, typ, grtp, etik⟩

end Verif.FstCvt
