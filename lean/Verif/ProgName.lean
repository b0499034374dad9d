import Mathlib.Data.Nat.Digits.Defs

/-! # Names of model output files

Model of src/primitives/prog_filename.c.  Characters are numbers; integers are mathematical.  The `snprintf` into the 50
characters of `fname` are written without the cut: `C156_fits` shows that there is none. -/

namespace Verif.ProgName

/-- The last `k` decimal digits. -/
def dig : ℕ → ℕ → List ℕ
  | 0, _ => []
  | k + 1, n => dig k (n / 10) ++ [48 + n % 10]

/-- `%0kd` of a number which is not negative. -/
def dec (k n : ℕ) : List ℕ := dig (max k (Nat.digits 10 n).length) n

/-- `isalpha`. -/
def isalpha (c : ℕ) : Bool := (65 ≤ c && c ≤ 90) || (97 ≤ c && c ≤ 122)

/-- `tolower`. -/
def tolower (c : ℕ) : ℕ := if 65 ≤ c ∧ c ≤ 90 then c + 32 else c

/-- The arguments: `pre` and `unit` are strings of Fortran. -/
structure Req where
  pre : List ℕ
  date : ℤ
  hour : ℤ
  min : ℤ
  sec : ℤ
  npex : ℤ
  npey : ℤ
  num : ℤ
  numlen : ℤ
  unit : List ℕ

/-- `units` (prog_filename.c:143-144). -/
def units (u : List ℕ) : List ℕ :=
  match u with
  | [] => []
  | c :: _ => if c = 32 ∨ c = 0 then [] else [tolower c]

/-- `fname` (prog_filename.c:111-184); `none` is the value -1. -/
def fname (r : Req) : Option (List ℕ) :=
  match r.pre with
  | c1 :: c2 :: _ =>
    if !(isalpha c1 && isalpha c2) then none
    else if r.date < 0 ∨ r.date > 99999999 then none
    else if r.hour < 0 ∨ r.hour > 23 then none
    else
      let numlen := if r.numlen < 3 ∨ r.numlen > 9 then 3 else r.numlen
      if r.num < 0 then none
      else
        let s := [tolower c1, tolower c2] ++ dec 8 r.date.toNat ++ dec 2 r.hour.toNat
        if r.min ≠ -1 ∧ r.sec ≠ -1 ∧ (r.min < 0 ∨ r.min > 59 ∨ r.sec < 0 ∨ r.sec > 59) then none
        else
          let s := s ++ if r.min ≠ -1 ∧ r.sec ≠ -1 then dec 2 r.min.toNat ++ dec 2 r.sec.toNat else []
          if r.npex ≠ -1 ∧ r.npey ≠ -1 ∧ (r.npex < 0 ∨ r.npex > 99 ∨ r.npey < 0 ∨ r.npey > 99) then none
          else
            let s := s ++ if r.npex ≠ -1 ∧ r.npey ≠ -1 then 45 :: dec 2 r.npex.toNat ++ 45 :: dec 2 r.npey.toNat else []
            some (s ++ 95 :: dec numlen.toNat r.num.toNat ++ units r.unit)
  | _ => none

/-- `Bad_Filename` (prog_filename.c:102). -/
def bad : List ℕ := [66, 97, 100, 95, 70, 105, 108, 101, 110, 97, 109, 101]

/-- A string in `l1` characters (prog_filename.c:101-104, 186-187). -/
def fit (l1 : ℕ) (s : List ℕ) : List ℕ := s.take l1 ++ List.replicate (l1 - s.length) 32

/-- `prog_filename` (prog_filename.c:89-190): `f_nom` of `l1` characters and the value. -/
def progFilename (l1 : ℕ) (r : Req) : List ℕ × ℤ :=
  if l1 < 16 then (fit l1 bad, -1)
  else
    match fname r with
    | none => (fit l1 bad, -1)
    | some s => (fit l1 s, 0)

end Verif.ProgName
