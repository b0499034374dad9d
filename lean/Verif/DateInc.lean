import Mathlib.Data.Rat.Floor
import Verif.Date
/-!
# Adding hours to stamps and subtracting stamps (src/base/moduledate.f90)

`incdatr`, `incdati`, `difdatr`, `difdati` with the three calendar options.  A `real*8` is a
rational number; the result of each inexact operation goes through a rounding function of which
only the relative error and exactness on integers are known, so the theorems hold for every such
arithmetic, IEEE double precision in particular (overflow and underflow do not occur for the
magnitudes at hand).  Error messages are left out.
-/
namespace Verif.Date

/-- Rounding to `p` significant bits. -/
structure Rounding (p : Nat) where
  fl : ℚ → ℚ
  int : ∀ n : ℤ, |n| ≤ 2 ^ p → fl n = n
  err : ∀ x, |fl x - x| ≤ |x| / 2 ^ p

/-- Fortran `nint`: to the nearest integer, halves away from zero. -/
def nint (x : ℚ) : ℤ := if 0 ≤ x then ⌊x + 1 / 2⌋ else -⌊-x + 1 / 2⌋

/-- Fortran `int` of a non-negative number. -/
def truncNonneg (x : ℚ) : ℤ := ⌊x⌋

/-- The calendar chosen with `NewDate_Options` (src/base/moduledate.f90:722-848): `gregorian`,
`365_day` or `360_day`. -/
inductive Calendar where
  | gregorian
  | noLeap
  | days360
deriving DecidableEq, Repr

/-- Basic (five seconds since 1980) or extended (hours since year 0) true dates. -/
inductive Mode where
  | basic
  | extended
deriving DecidableEq, Repr

/-- Call of `naetwed` with `true2print` (-2 or -7). -/
def true2print : Mode → Int → Option (Int × Int)
  | .basic, td => tdToPrint td
  | .extended, td => extTdToPrint td

/-- Call of `naetwed` with `print2true` (2 or 7). -/
def print2true : Mode → Int → Int → Option Int
  | .basic, d, t => printToTd d t
  | .extended, d, t => printToExtTd d t

/-- A day in units of true dates. -/
def dayUnits : Mode → Int
  | .basic => 17280
  | .extended => 24

/-- The values of a Fortran loop `do annee = a,b,inc` with `inc` = 1 or -1. -/
def doYears (a b inc : Int) : List Int :=
  if inc > 0 then (List.range (b - a + 1).toNat).map (fun i : Nat => a + (i : Int))
  else (List.range (a - b + 1).toNat).map (fun i : Nat => a - (i : Int))

/-- The local variables of `LeapYear_Adjust_int` that its loops change. -/
structure LeapState where
  tdate28f : Int
  tdate29f : Int
  ndays : Int
  tdate1L : Int

/-- One round of the loops over years (src/base/moduledate.f90:930-953 and 957-976, the same text).
A call of `naetwed` that fails leaves the variable as it was. -/
def leapYear (mode : Mode) (adding : Bool) (inc tdate2 : Int) (v : LeapState) (annee : Int) : LeapState :=
  if bissextile annee then
    let addit := if adding then dayUnits mode else 0
    let t28 := (print2true mode (annee * 10000 + 0228) 23595500).getD v.tdate28f
    if inc > 0 then
      let t29 := (print2true mode (annee * 10000 + 0229) 0).getD v.tdate29f
      if tdate2 ≤ t28 ∧ v.tdate1L ≥ t29 then ⟨t28, t29, v.ndays + inc, v.tdate1L + addit * inc⟩
      else ⟨t28, t29, v.ndays, v.tdate1L⟩
    else
      let t29 := (print2true mode (annee * 10000 + 0229) 23595500).getD v.tdate29f
      if tdate2 ≥ t28 ∧ v.tdate1L ≤ t29 then ⟨t28, t29, v.ndays + inc, v.tdate1L + addit * inc⟩
      else ⟨t28, t29, v.ndays, v.tdate1L⟩
  else v

/-- `LeapYear_Adjust_int` (src/base/moduledate.f90:884-980): the number of leap days between two
true dates.  `junk` is what the uninitialised variables hold. -/
def leapYearAdjust (mode : Mode) (adding : Bool) (junk : Int) (tdate1 tdate2 : Int) : Int :=
  let p1 := ((true2print mode tdate1).map (·.1)).getD junk
  let y1 := p1 ÷ 10000
  let m1 := p1 ÷ 100 mod 100
  let p2 := ((true2print mode tdate2).map (·.1)).getD junk
  let y2 := p2 ÷ 10000
  let m2 := p2 ÷ 100 mod 100
  let inc : Int := if y2 > y1 ∨ (y1 = y2 ∧ m2 > m1) then -1 else 1
  let v := (doYears y2 y1 inc).foldl (leapYear mode adding inc tdate2) ⟨junk, junk, 0, tdate1⟩
  let y1L := ((true2print mode v.tdate1L).map (·.1)).getD p1 ÷ 10000
  ((doYears (y1 + inc) y1L inc).foldl (leapYear mode adding inc tdate2) v).ndays

/-- A day of the 360-day calendar from a Gregorian one (src/base/moduledate.f90:1039-1049 and
1170-1180): month and day. -/
def to360 (mo da : Int) : Int × Int :=
  if mo = 1 ∧ da = 31 then (2, 1)
  else if mo = 2 then (mo, da + 1)
  else if mo = 3 then (if da = 1 then (2, 30) else (mo, da - 1))
  else (mo, da)

/-- The reverse (src/base/moduledate.f90:1127-1137). -/
def from360 (mo da : Int) : Int × Int :=
  if mo = 2 ∧ da = 1 then (1, 31)
  else if mo = 2 then (if da = 30 then (3, 1) else (mo, da - 1))
  else if mo = 3 then (mo, da + 1)
  else (mo, da)

/-- The number of true date units in an hour (`td2h`). -/
def hourUnits : Mode → Int
  | .basic => 720
  | .extended => 1

/-- Year, day of the year, hour, minute and second. -/
abbrev Parts := Int × Int × Int × Int × Int

/-- Subtracting an interval (src/base/moduledate.f90:1073-1095). -/
def sub360 : Parts → Parts → Parts
  | (ye2, da2, ho2, mi2, se2), (ye1, da1, ho1, mi1, se1) =>
    let se1 := se2 - se1
    let (se1, mi2) := if se1 < 0 then (se1 + 60, mi2 - 1) else (se1, mi2)
    let mi1 := mi2 - mi1
    let (mi1, ho2) := if mi1 < 0 then (mi1 + 60, ho2 - 1) else (mi1, ho2)
    let ho1 := ho2 - ho1
    let (ho1, da2) := if ho1 < 0 then (ho1 + 24, da2 - 1) else (ho1, da2)
    let da1 := da2 - da1
    let (da1, ye2) := if da1 < 1 then (da1 + 360, ye2 - 1) else (da1, ye2)
    (ye2 - ye1, da1, ho1, mi1, se1)

/-- Adding an interval (src/base/moduledate.f90:1097-1119). -/
def add360 : Parts → Parts → Parts
  | (ye2, da2, ho2, mi2, se2), (ye1, da1, ho1, mi1, se1) =>
    let se1 := se2 + se1
    let (se1, mi2) := if se1 > 59 then (se1 - 60, mi2 + 1) else (se1, mi2)
    let mi1 := mi2 + mi1
    let (mi1, ho2) := if mi1 > 59 then (mi1 - 60, ho2 + 1) else (mi1, ho2)
    let ho1 := ho2 + ho1
    let (ho1, da2) := if ho1 > 23 then (ho1 - 24, da2 + 1) else (ho1, da2)
    let da1 := da2 + da1
    let (da1, ye2) := if da1 > 360 then (da1 - 360, ye2 + 1) else (da1, ye2)
    (ye2 + ye1, da1, ho1, mi1, se1)

/-- `CcclxDays_Adjust_int` when adding (src/base/moduledate.f90:1022-1150). -/
def ccclxAdd (R : Rounding 53) (mode : Mode) (junk : Int) (tdate1 tdate2 : Int) : Int :=
  let (p2a, p2b) := (true2print mode tdate2).getD (junk, junk)
  let ye2 := p2a ÷ 10000
  let mo2 := p2a ÷ 100 mod 100
  let da2 := p2a mod 100
  if (da2 > 28 ∧ mo2 = 2) ∨ (da2 > 30 ∧ mo2 > 4) then 89478485 else
  let (mo2, da2) := to360 mo2 da2
  let da2 := (mo2 - 1) * 30 + da2
  let ho2 := p2b ÷ 1000000
  let mi2 := p2b ÷ 10000 mod 100
  let se2 := p2b ÷ 100 mod 100
  let nhours := R.fl ((tdate1 - tdate2 : Int) / (hourUnits mode : ℚ))
  let ho1 := truncNonneg |nhours|
  let se1 := nint (R.fl (R.fl (|nhours| - ho1) * 3600))
  let mi1 := se1 ÷ 60
  let se1 := se1 mod 60
  let ye1 := ho1 ÷ (360 * 24)
  let ho1 := ho1 mod (360 * 24)
  let da1 := ho1 ÷ 24
  let ho1 := ho1 mod 24
  let (ye1, da1, ho1, mi1, se1) :=
    if nhours < 0 then sub360 (ye2, da2, ho2, mi2, se2) (ye1, da1, ho1, mi1, se1)
    else add360 (ye2, da2, ho2, mi2, se2) (ye1, da1, ho1, mi1, se1)
  let mo1 := (da1 - 1) ÷ 30 + 1
  let da1 := da1 - (mo1 - 1) * 30
  let (mo1, da1) := from360 mo1 da1
  let p1a := (ye1 * 100 + mo1) * 100 + da1
  let p1b := ((ho1 * 100 + mi1) * 100 + se1) * 100
  let tdateL := (print2true mode p1a p1b).getD junk
  (tdateL - tdate1) ÷ dayUnits mode

/-- `CcclxDays_Adjust_int` when subtracting (src/base/moduledate.f90:1022-1055 and 1152-1203). -/
def ccclxDiff (R : Rounding 53) (mode : Mode) (junk : Int) (tdate1 tdate2 : Int) : Int :=
  let (p2a, p2b) := (true2print mode tdate2).getD (junk, junk)
  let ye2 := p2a ÷ 10000
  let mo2 := p2a ÷ 100 mod 100
  let da2 := p2a mod 100
  if (da2 > 28 ∧ mo2 = 2) ∨ (da2 > 30 ∧ mo2 > 4) then -89478485 else
  let (mo2, da2) := to360 mo2 da2
  let da2 := (mo2 - 1) * 30 + da2
  let ho2 := p2b ÷ 1000000
  let mi2 := p2b ÷ 10000 mod 100
  let se2 := p2b ÷ 100 mod 100
  let (p1a, p1b) := (true2print mode tdate1).getD (junk, junk)
  let ye1 := p1a ÷ 10000
  let mo1 := p1a ÷ 100 mod 100
  let da1 := p1a mod 100
  if (da1 > 28 ∧ mo1 = 2) ∨ (da1 > 30 ∧ mo1 > 4) then 89478485 else
  let (mo1, da1) := to360 mo1 da1
  let da1 := (mo1 - 1) * 30 + da1
  let ho1 := p1b ÷ 1000000
  let mi1 := p1b ÷ 10000 mod 100
  let se1 := p1b ÷ 100 mod 100
  let nhours := R.fl ((se1 - se2 : Int) / 3600)
  let nhours := R.fl (nhours + R.fl ((mi1 - mi2 : Int) / 60))
  let nhours := R.fl (nhours + (ho1 - ho2 : Int))
  let nhours := R.fl (nhours + R.fl ((da1 - da2 : Int) * 24))
  let nhours := R.fl (nhours + R.fl ((ye1 - ye2 : Int) * 8640))
  let nhoursi := R.fl ((tdate1 - tdate2 : Int) / (hourUnits mode : ℚ))
  nint (R.fl (R.fl (nhoursi - nhours) / 24))

/-- `Calendar_Adjust_int` (src/base/moduledate.f90:851-882). -/
def calendarAdjust (R : Rounding 53) (cal : Calendar) (mode : Mode) (adding : Bool) (junk : Int)
    (tdate1 tdate2 : Int) : Int :=
  match cal with
  | .gregorian => 0
  | .noLeap => leapYearAdjust mode adding junk tdate1 tdate2
  | .days360 =>
    if adding then ccclxAdd R mode junk tdate1 tdate2 else ccclxDiff R mode junk tdate1 tdate2

/-- What the routines give back for bad dates (src/base/moduledate.f90:531-535). -/
def badStamp : Int := 101010101

/-- `(tdate+sign(360,tdate))/720*720`: to the nearest hour (lines 471, 516-517). -/
def toHour (tdate : Int) : Int := (tdate + (if tdate ≥ 0 then 360 else -360)) ÷ 720 * 720

/-- The part of `IDNACTr` that works in extended true dates, from `tdate2` on (lines 441-453 and
501-506). -/
def incExtended (R : Rounding 53) (cal : Calendar) (junk : Int) (tdate2 : Int) (nhours : ℚ) : Option Int :=
  let tdate1 := tdate2 + nint nhours
  let tdate1 := tdate1 + calendarAdjust R cal .extended true junk tdate1 tdate2 * 24
  extTdToStamp tdate1

/-- `IDNACTr` (`rounding` false) and `IDNACTi` (`rounding` true), i.e. `incdatr` and `incdati`: the
stamp `nhours` after the stamp `idate2` (src/base/moduledate.f90:369-375, 417-513, 531-535). -/
def incdat (R : Rounding 53) (cal : Calendar) (junk : Int) (rounding : Bool) (idate2 : Int) (nhours : ℚ) : Int :=
  if idate2 < -1 then
    match stampToExtTd idate2 with
    | none => badStamp
    | some (tdate2, _) => (incExtended R cal junk tdate2 nhours).getD badStamp
  else
    match stampToTd idate2 with
    | none => badStamp
    | some (tdate2, runnum) =>
      let rounding := rounding || decide (tdate2 < 0)
      let tdate2 := if rounding then toHour tdate2 else tdate2
      let addit := if rounding then 720 * nint nhours else nint (R.fl (720 * nhours))
      let tdate1 := tdate2 + addit
      let tdate1 := tdate1 + calendarAdjust R cal .basic true junk tdate1 tdate2 * 24 * 720
      if td1900 - tdate2 ≤ addit ∧ td2235 - tdate2 ≥ addit ∧ ¬ (tdate1 > td2235 ∨ tdate1 < td1900) then
        (tdToStamp tdate1 runnum).getD badStamp
      else
        match stampToPrint idate2 with
        | none => badStamp
        | some (pd, pt) =>
          match printToExtTd pd pt with
          | none => badStamp
          | some tdate2 => (incExtended R cal junk tdate2 nhours).getD badStamp

/-- The true date in hours of a stamp when one of the two stamps is an extended one
(src/base/moduledate.f90:389-403 and 419-434). -/
def hoursOf (idate : Int) : Option Int :=
  if idate > -1 then
    match stampToPrint idate with
    | none => none
    | some (pd, pt) => printToExtTd pd pt
  else (stampToExtTd idate).map (·.1)

/-- `DDIAFTr` and `DDIAFTi`, i.e. `difdatr` and `difdati`: the hours from the stamp `idate2` to the
stamp `idate1` (src/base/moduledate.f90:381-433, 454-458, 515-535).  `S` is single precision:
`nint((tdate1-tdate2)/720.0)` is evaluated in it. -/
def difdat (R : Rounding 53) (S : Rounding 24) (cal : Calendar) (junk : Int) (rounding : Bool)
    (idate1 idate2 : Int) : ℚ :=
  if idate2 < -1 ∨ idate1 < -1 then
    match hoursOf idate1, hoursOf idate2 with
    | some tdate1, some tdate2 =>
      let nhours : ℚ := (tdate1 - tdate2 : Int)
      if cal = .gregorian then nhours
      else R.fl (nhours - (calendarAdjust R cal .extended false junk tdate1 tdate2 * 24 : Int))
    | _, _ => 2 ^ 30
  else
    match stampToTd idate1, stampToTd idate2 with
    | some (tdate1, _), some (tdate2, _) =>
      let tdate1 := if rounding then toHour tdate1 else tdate1
      let tdate2 := if rounding then toHour tdate2 else tdate2
      let nhours : ℚ := if rounding then (nint (S.fl (S.fl (tdate1 - tdate2 : Int) / 720)) : Int)
        else R.fl ((tdate1 - tdate2 : Int) / 720)
      if cal = .gregorian then nhours
      else R.fl (nhours - (calendarAdjust R cal .basic false junk tdate1 tdate2 * 24 : Int))
    | _, _ => 2 ^ 30

end Verif.Date
