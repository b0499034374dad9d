import Mathlib.Data.Rat.Floor

/-!
Model of the element functions of BURP: src/burp98_f/mrbcov.F90, mrbdcv.F90, mrbcol.F90 (names), mrbtyp.F90 (types),
qbrptri.F90 and bufrchr.F90 (table), mrbcvt.F90 (conversion of units).
-/
namespace Verif.Bufr

/-! ### Names and types -/

/-- `MRBCOV`, mrbcov.F90 lines 47-54, for an element that is not negative. -/
def cov (elem : Nat) : Nat :=
  let ielem := elem % 100000
  (ielem % 1000 ||| ((ielem / 1000 &&& 63) <<< 8)) ||| ((elem / 100000 &&& 3) <<< 14)

/-- `MRBDCV`, mrbdcv.F90 lines 51-55; the argument is the bit pattern. -/
def dcv (elem : Nat) : Nat := (elem >>> 14 &&& 3) * 100000 + (elem >>> 8 &&& 63) * 1000 + (elem &&& 255)

/-- `MRBCOL`, mrbcol.F90 lines 51-60. -/
def col (liste : List Nat) : List Nat := liste.map cov

/-- `MRBDCL`, mrbcol.F90 lines 85-91. -/
def dcl (cliste : List Nat) : List Nat := cliste.map dcv

/-- `MRBTYP` with `BTYP = -1`, mrbtyp.F90 lines 64-68; bit patterns. -/
def typOf (bknat bktyp bkstp : Nat) : Nat := (bkstp &&& 15 ||| ((bktyp &&& 127) <<< 4)) ||| ((bknat &&& 15) <<< 11)

/-- `MRBTYP` for other values, mrbtyp.F90 lines 69-73: nature, type, sub-type. -/
def ofTyp (btyp : Nat) : Nat × Nat × Nat := (btyp >>> 11 &&& 15, btyp >>> 4 &&& 127, btyp &&& 15)

/-! ### Table -/

/-- A column of `TABLEAU`: code, exponent of the scale, reference. -/
structure Row where
  code : Int
  scale : Int
  ref : Int
deriving DecidableEq

/-- The inner loop of `QBRPTRI`, lines 49-58, with gap `m`; positions count from 0. -/
def sink (m : Nat) : Nat → Nat → List Row → Option (List Row)
  | 0, _, _ => none
  | fuel + 1, j, t =>
    if j < m then some t
    else
      match t[j - m]?, t[j]? with
      | some a, some b => if a.code < b.code then some t else sink m fuel (j - m) ((t.set j a).set (j - m) b)
      | _, _ => none

/-- The loop of lines 48-60: `n` positions from `i` on. -/
def pass (m : Nat) : Nat → Nat → List Row → Option (List Row)
  | 0, _, t => some t
  | n + 1, i, t =>
    match sink m (i + 1) i t with
    | none => none
    | some t => pass m n (i + 1) t

/-- The outer loop, lines 45-62. -/
def shell : Nat → Nat → List Row → Option (List Row)
  | 0, _, _ => none
  | fuel + 1, m, t =>
    if m > 1 then
      let m := (m + 2) / 3
      match pass m (t.length - m) m t with
      | none => none
      | some t => shell fuel m t
    else some t

/-- `QBRPTRI`. -/
def sort (t : List Row) : Option (List Row) := shell (t.length + 1) t.length t

/-- The loop of `BUFRCHR`, lines 48-60. -/
def look (elem : Int) (t : List Row) : Nat → Nat → Nat → Option Int
  | 0, _, _ => none
  | fuel + 1, debut, fin =>
    let milieu := (debut + fin) / 2
    if debut ≠ milieu then
      match (if milieu = 0 then none else t[milieu - 1]?) with
      | none => none
      | some r =>
        if elem ≠ r.code then
          if elem > r.code then look elem t fuel milieu fin else look elem t fuel debut milieu
        else some milieu
    else some (-1)

/-- `BUFRCHR`, lines 44-62. -/
def bufrchr (elem : Int) (t : List Row) : Option Int := look elem t (t.length + 1) 0 (t.length + 1)

/-- The row used for an element, mrbcvt.F90 lines 112-117: none when the element is not found. -/
def rowOf (elem : Int) (t : List Row) : Option (Option Row) :=
  match bufrchr elem t with
  | none => none
  | some j => if j > 0 then (t[j.toNat - 1]?).map some else some none

/-- `MRBSCT`, lines 174-183: the rows of the user, sorted, behind the table.  The size of `TABLEAU` is not checked. -/
def mrbsct (t usr : List Row) : Option (List Row) := (sort usr).map (t ++ ·)

/-! ### Conversion -/

/-- Single precision: rounding, and the power of ten. -/
structure Real4 where
  r : ℚ → ℚ
  ten : Int → ℚ

/-- `NINT`. -/
def nint (x : ℚ) : Int := if 0 ≤ x then ⌊x + 1 / 2⌋ else ⌈x - 1 / 2⌉

/-- Lines 125-130: new value of `TBLVAL` and value of `RVAL`. -/
def decode (R : Real4) (manque : ℚ) (row : Row) (v : Int) : Int × ℚ :=
  if v = -1 then (v, manque)
  else
    let v := if v < 0 then v + 1 else v
    (v, R.r (R.r ((v + row.ref : Int) : ℚ) / R.ten row.scale))

/-- Lines 137-142. -/
def encode (R : Real4) (manque : ℚ) (row : Row) (x : ℚ) : Int :=
  if x = manque then -1
  else
    let c := nint (R.r (x * R.ten row.scale)) - row.ref
    if c < 0 then c - 1 else c

/-- `MRBCVT` with `MODE = 0`, for the values of one element. -/
def cvt0 (R : Real4) (manque : ℚ) (t : List Row) (elem : Int) (tbl : List Int) (rval : List ℚ) :
    Option (List Int × List ℚ) :=
  match rowOf elem t with
  | none => none
  | some none => some (tbl, rval)
  | some (some row) => some ((tbl.map fun v => (decode R manque row v).1), tbl.map fun v => (decode R manque row v).2)

/-- `MRBCVT` with `MODE = 1`, for the values of one element. -/
def cvt1 (R : Real4) (manque : ℚ) (t : List Row) (elem : Int) (tbl : List Int) (rval : List ℚ) :
    Option (List Int × List ℚ) :=
  match rowOf elem t with
  | none => none
  | some none => some (tbl, rval)
  | some (some row) => some (rval.map (encode R manque row), rval)

end Verif.Bufr
