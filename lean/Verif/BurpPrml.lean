import Verif.Burp

/-! # The parameters of all blocks of a report

Model of src/burp98_f/mrbprml.F90, on the reports of `Verif.Burp`.  Positions of bits are those of src/burp98_f/bpl.cdk. -/

namespace Verif.BurpPrml

open Verif Verif.Burp

/-- `GETBIT` (include/ftnmacros.hf:35-36): `z` bits of which the last is bit `y`, bit 0 being the sign bit of the first word. -/
def getbit (e : List W) (y z : Nat) : Nat := (e.getD (y / 32) 0).toNat / 2 ^ (31 - y % 32) % 2 ^ z

/-- A column of `tblprm` from the header in `ENTETE` (mrbprml.F90:94-116). -/
def column (bkno : Nat) (e : List W) : List Nat :=
  let famdesc := getbit e 11 12
  let big := 128 ≤ getbit e 71 8
  let nele := if big then getbit e 95 16 else getbit e 71 8
  let nval := if big then getbit e 111 16 else getbit e 79 8
  let nt := if big then getbit e 127 16 else getbit e 39 8
  let bfam := famdesc % 64 * 64 + famdesc / 64 % 64
  [bkno + 1, nele, nval, nt, bfam, 0, getbit e 26 15, getbit e 31 5 + 1, getbit e 63 20, getbit e 43 4]

/-- The loop of mrbprml.F90:89-119: the code of the extraction is lost and `ENTETE` keeps what it was where nothing is extracted. -/
def loop (u : W) (st : Buf) : Nat → Nat → List W → Option (List (List Nat))
  | 0, _, _ => some []
  | n + 1, bkno, e =>
    match xdfxtr u st e (bkno * 128) 4 32 0 with
    | none => none
    | some (_, e') =>
      match loop u st n (bkno + 1) e' with
      | none => none
      | some r => some (column bkno e' :: r)

/-- `mrbprml` (mrbprml.F90:22-121): the value and the columns stored; `e` is what `ENTETE` was, `ERNPRM` is 40, codes.cdk:34. -/
def mrbprml (u : W) (st : Buf) (inbkno nprm inblocs : Int) (e : List W) : Option (Int × List (List Nat)) :=
  if nprm ≠ 10 then some (40, [])
  else
    let nblocs := min inblocs st.nblk
    match loop u st nblocs.toNat (max inbkno 0).toNat e with
    | none => none
    | some r => some (nblocs, r)

end Verif.BurpPrml
