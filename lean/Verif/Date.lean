/-!
# Date stamps (src/base/moduledate.f90, datec.f, jdatec.f)

Fortran `integer` variables are modelled by `Int` and Fortran's `/` and `mod` by
`Int.tdiv` and `Int.tmod` (rounding towards zero).  That nothing overflows 32 bits for the
dates in question is proved separately (`Verif.Props.Date`).  A routine that returns an error
code is a function into `Option`.  The calendar options and the `OpenMP` lock around the
public entry points are treated where `incdatr`/`difdatr` are modelled.
-/
namespace Verif.Date

/-- Fortran integer division. -/
scoped infixl:70 " ÷ " => Int.tdiv
/-- Fortran `mod`. -/
scoped infixl:70 " mod " => Int.tmod

/-- The Julian day of a date: `JDATEC` (src/base/jdatec.f:52-54) and the statement function
`jd` of `naetwed` (src/base/moduledate.f90:1281-1283). -/
def jd (year month day : Int) : Int :=
  day - 32075 + (1461 * (year + 4800 + (month - 14) ÷ 12)) ÷ 4
    + (367 * (month - 2 - (month - 14) ÷ 12 * 12)) ÷ 12
    - (3 * ((year + 4900 + (month - 14) ÷ 12) ÷ 100)) ÷ 4

/-- `DATEC` (src/base/datec.f:58-67): year, month and day of a Julian day. -/
def datec (JD : Int) : Int × Int × Int :=
  let L := JD + 68569
  let N := (4 * L) ÷ 146097
  let L := L - (146097 * N + 3) ÷ 4
  let I := (4000 * (L + 1)) ÷ 1461001
  let L := L - (1461 * I) ÷ 4 + 31
  let J := (80 * L) ÷ 2447
  let K := L - (2447 * J) ÷ 80
  let L := J ÷ 11
  let J := J + 2 - 12 * L
  let I := 100 * (N - 49) + I + L
  (I, J, K)

/-! Constants of `naetwed` (src/base/moduledate.f90:1264-1269). -/
abbrev tdstart : Int := 123200000
abbrev jd1980 : Int := 2444240
abbrev jd1900 : Int := 2415021
abbrev jd2236 : Int := 2537742
abbrev jd0 : Int := 1721060
abbrev jd10k : Int := 5373485
abbrev max_offset : Int := 109572750
abbrev exception : Int := 16663825
abbrev td2000 : Int := 126230400
abbrev td1900 : Int := -504904320
/-- src/base/moduledate.f90:367 -/
abbrev td2235 : Int := 1615714548
abbrev troisg : Int := 3000000000

/-- src/base/moduledate.f90:1270.  (Out of range months never matter: every use is in a
conjunction that also tests the month.) -/
def mdays (month : Int) : Int :=
  if month = 2 then 29 else if month = 4 ∨ month = 6 ∨ month = 9 ∨ month = 11 then 30 else 31

/-- src/base/moduledate.f90:1287-1288 -/
def validtd (tdate : Int) : Prop :=
  tdate ≥ 0 ∨ (tdate < 0 ∧ tdate ≥ td1900 ∧ (tdate - td1900) mod 720 = 0)

/-- src/base/moduledate.f90:1292-1296 -/
def validtm (year month day zulu : Int) : Prop :=
  year ≥ 1900 ∧ year < 2236 ∧ month ≤ 12 ∧ day ≤ mdays month ∧ zulu ≤ 23 ∧ month > 0 ∧ day > 0 ∧
    zulu ≥ 0

/-- src/base/moduledate.f90:1298-1302 -/
def validtme (year month day zulu : Int) : Prop :=
  year ≥ 0 ∧ year < 10000 ∧ month > 0 ∧ month ≤ 12 ∧ day > 0 ∧ day ≤ mdays month ∧ zulu ≥ 0 ∧
    zulu ≤ 23

/-- src/base/moduledate.f90:1304-1306 -/
def bissextile (year : Int) : Prop :=
  (year mod 4 = 0 ∧ year mod 100 ≠ 0) ∨ year mod 400 = 0

instance (t : Int) : Decidable (validtd t) := by unfold validtd; infer_instance
instance (a b c d : Int) : Decidable (validtm a b c d) := by unfold validtm; infer_instance
instance (a b c d : Int) : Decidable (validtme a b c d) := by unfold validtme; infer_instance
instance (a : Int) : Decidable (bissextile a) := by unfold bissextile; infer_instance

/-- A 29 February in a year that has none (lines 1339-1341 and the same test in every mode). -/
def badFeb (year month day : Int) : Prop := month = 2 ∧ day = 29 ∧ ¬ bissextile year

instance (a b c : Int) : Decidable (badFeb a b c) := by unfold badFeb; infer_instance

/-- Conversion of a 64-bit integer to a 32-bit one (`dat1=date_unsigned`). -/
def toInt32 (x : Int) : Int := (x + 2 ^ 31) % 2 ^ 32 - 2 ^ 31

/-- `and(masque32,stamp8)`: the 32 bits of a stamp as an unsigned number. -/
def unsigned32 (x : Int) : Int := x % 2 ^ 32

/-- The stamp body of a true date, `(tdate/8)*10+mod(tdate,8)`. -/
def stampOf (tdate : Int) : Int := (tdate ÷ 8) * 10 + tdate mod 8

/-- The true date in a stamp body, `stamp/10*8+mod(stamp,10)`. -/
def tdOf (body : Int) : Int := body ÷ 10 * 8 + body mod 10

/-- Time part of a printable date from seconds within the hour. -/
def printTime (zulu second : Int) : Int :=
  zulu * 1000000 + second ÷ 60 * 10000 + second mod 60 * 100

/-- Mode -5, extended stamp to printable (src/base/moduledate.f90:1503-1524). -/
def extStampToPrint (dat1 : Int) : Option (Int × Int) :=
  let u := unsigned32 dat1
  if u < troisg ∨ u ≥ troisg + max_offset then none else
  let tdate := tdOf (u - troisg)
  let (year, month, day) := datec (jd0 + tdate ÷ 24)
  let zulu := tdate mod 24
  if ¬ validtme year month day zulu then none
  else if badFeb year month day then none
  else some (year * 10000 + month * 100 + day, zulu * 1000000)

/-- Mode -3, stamp to printable (src/base/moduledate.f90:1316-1344). -/
def stampToPrint (stamp : Int) : Option (Int × Int) :=
  if stamp < -1 then extStampToPrint stamp
  else if stamp ≥ tdstart then
    let tdate := tdOf (stamp - tdstart)
    let (year, month, day) := datec (jd1900 + (tdate - td1900) ÷ 17280)
    let zulu := (tdate - td1900) mod 17280 ÷ 720
    let second := ((tdate - td1900) mod 17280 - zulu * 720) * 5
    if ¬ validtm year month day zulu then none
    else if badFeb year month day then none
    else some (year * 10000 + month * 100 + day, printTime zulu second)
  else
    let zulu := stamp ÷ 10 mod 100
    let year := stamp ÷ 1000 mod 100 + 1900
    let day := stamp ÷ 100000 mod 100
    let month := stamp ÷ 10000000 mod 100
    if ¬ validtm year month day zulu then none
    else if badFeb year month day then none
    else some (year * 10000 + month * 100 + day, zulu * 1000000)

/-- Mode 5, printable to extended stamp (src/base/moduledate.f90:1474-1498). -/
def printToExtStamp (dtpr tmpr : Int) : Option Int :=
  let year := dtpr ÷ 10000 mod 10000
  let month := dtpr ÷ 100 mod 100
  let day := dtpr mod 100
  let zulu := tmpr ÷ 1000000 mod 100
  let minute := tmpr ÷ 10000 mod 100
  if ¬ validtme year month day zulu then none
  else if badFeb year month day then none else
  let j := jd year month day
  if j < jd0 ∨ j ≥ jd10k then none else
  let tdate := (j - jd0) * 24 + zulu + minute ÷ 60
  some (toInt32 (stampOf tdate + troisg))

/-- The old style stamp of lines 1376 and 1430-1431: `month*10000000+day*100000+(year-1900)*1000+zulu*10`. -/
def oldStamp (year month day zulu : Int) : Int :=
  month * 10000000 + day * 100000 + (year - 1900) * 1000 + zulu * 10

/-- Mode 3, printable to stamp (src/base/moduledate.f90:1349-1379). -/
def printToStamp (dtpr tmpr : Int) : Option Int :=
  let year := dtpr ÷ 10000 mod 10000
  if dtpr = 19010101 ∧ tmpr = 01000000 then printToExtStamp dtpr tmpr
  else if year < 1900 ∨ year > 2235 then printToExtStamp dtpr tmpr else
  let month := dtpr ÷ 100 mod 100
  let day := dtpr mod 100
  let zulu := tmpr ÷ 1000000 mod 100
  let second := tmpr ÷ 10000 mod 100 * 60 + tmpr ÷ 100 mod 100
  if ¬ validtm year month day zulu then none
  else if badFeb year month day then none else
  let tdate := (jd year month day - jd1980) * 17280 + zulu * 720 + second ÷ 5
  if year ≥ 2000 ∨ (year ≥ 1980 ∧ second ≠ 0) then
    some (tdstart + stampOf tdate)
  else
    let tdate := (tdate - td1900) ÷ 720 * 720 + td1900
    let (year, month, day) := datec (jd1900 + (tdate - td1900) ÷ 17280)
    let zulu := (tdate - td1900) mod 17280 ÷ 720
    some (oldStamp year month day zulu)

/-- Mode -2, true date to printable (src/base/moduledate.f90:1384-1391). -/
def tdToPrint (tdate : Int) : Option (Int × Int) :=
  if ¬ validtd tdate then none else
  let (year, month, day) := datec (jd1900 + (tdate - td1900) ÷ 17280)
  let zulu := (tdate - td1900) mod 17280 ÷ 720
  let second := ((tdate - td1900) mod 17280 - zulu * 720) * 5
  some (year * 10000 + month * 100 + day, printTime zulu second)

/-- Mode 7, printable to extended true date in hours (src/base/moduledate.f90:1609-1627). -/
def printToExtTd (dtpr tmpr : Int) : Option Int :=
  let year := dtpr ÷ 10000 mod 10000
  if year < 0 ∨ year ≥ 10000 then none else
  let month := dtpr ÷ 100 mod 100
  let day := dtpr mod 100
  let zulu := tmpr ÷ 1000000 mod 100
  if ¬ validtme year month day zulu then none
  else if badFeb year month day then none
  else some ((jd year month day - jd0) * 24 + zulu)

/-- Mode 2, printable to true date (src/base/moduledate.f90:1396-1412). -/
def printToTd (dtpr tmpr : Int) : Option Int :=
  if dtpr = 19010101 ∧ tmpr = 01000000 then printToExtTd dtpr tmpr else
  let year := dtpr ÷ 10000 mod 10000
  let month := dtpr ÷ 100 mod 100
  let day := dtpr mod 100
  let zulu := tmpr ÷ 1000000 mod 100
  let second := tmpr ÷ 10000 mod 100 * 60 + tmpr ÷ 100 mod 100
  if ¬ validtm year month day zulu then none
  else if badFeb year month day then none
  else some ((jd year month day - jd1980) * 17280 + zulu * 720 + second ÷ 5)

/-- Mode -1, true date and run number to stamp (src/base/moduledate.f90:1417-1433). -/
def tdToStamp (tdate runnb : Int) : Option Int :=
  if runnb > 9 ∨ ¬ validtd tdate then none
  else if tdate ≥ td2000 ∨ tdate mod 720 ≠ 0 then some (tdstart + stampOf tdate)
  else
    let (year, month, day) := datec (jd1900 + (tdate - td1900) ÷ 17280)
    let tdate := (tdate - td1900) ÷ 720 * 720 + td1900
    let zulu := (tdate - td1900) mod 17280 ÷ 720
    some (oldStamp year month day zulu + runnb)

/-- Mode 1, stamp to true date and run number (src/base/moduledate.f90:1438-1458). -/
def stampToTd (stamp : Int) : Option (Int × Int) :=
  if stamp ≥ tdstart then
    let tdate := tdOf (stamp - tdstart)
    if ¬ validtd tdate then none else some (tdate, 0)
  else if stamp < -1 then none
  else
    let runnb := stamp mod 10
    let zulu := stamp ÷ 10 mod 100
    let year := stamp ÷ 1000 mod 100 + 1900
    let day := stamp ÷ 100000 mod 100
    let month := stamp ÷ 10000000 mod 100
    let tdate := (jd year month day - jd1980) * 17280 + zulu * 720
    if ¬ validtd tdate then none else some (tdate, runnb)

/-- Mode -6, extended true date to stamp (src/base/moduledate.f90:1529-1543). -/
def extTdToStamp (tdate : Int) : Option Int :=
  if tdate = exception ∨ tdate ÷ 24 + jd0 < jd1900 ∨ tdate ÷ 24 + jd0 ≥ jd2236 then
    some (toInt32 (stampOf tdate + troisg))
  else
    let zulu := tdate mod 24
    tdToStamp ((tdate ÷ 24 + jd0 - jd1980) * 17280 + zulu * 720) 0

/-- Mode 6, stamp to extended true date (src/base/moduledate.f90:1548-1589). -/
def stampToExtTd (stamp : Int) : Option (Int × Int) :=
  if stamp < -1 then
    let u := unsigned32 stamp
    if u < troisg ∨ u > troisg + max_offset then none
    else some (tdOf (u - troisg), 0)
  else if stamp ≥ tdstart then
    let tdate := tdOf (stamp - tdstart)
    let (year, month, day) := datec (jd1900 + (tdate - td1900) ÷ 17280)
    let zulu := (tdate - td1900) mod 17280 ÷ 720
    let tdate := (jd year month day - jd0) * 24 + zulu
    if ¬ validtd tdate then none else some (tdate, 0)
  else
    let runnb := stamp mod 10
    let zulu := stamp ÷ 10 mod 100
    let year := stamp ÷ 1000 mod 100 + 1900
    let day := stamp ÷ 100000 mod 100
    let month := stamp ÷ 10000000 mod 100
    let tdate := (jd year month day - jd0) * 24 + zulu
    if ¬ validtd tdate then none else some (tdate, runnb)

/-- Mode -7, extended true date to printable (src/base/moduledate.f90:1594-1605). -/
def extTdToPrint (tdate : Int) : Option (Int × Int) :=
  if ¬ validtd tdate then none else
  let (year, month, day) := datec (jd0 + tdate ÷ 24)
  let zulu := tdate mod 24
  if ¬ validtme year month day zulu then none
  else if badFeb year month day then none
  else some (year * 10000 + month * 100 + day, zulu * 1000000)

/-- Words 2 to 6 of the operational date-time group. -/
structure Group where
  month : Int
  day : Int
  year : Int
  zulu : Int
  hundredths : Int
deriving Repr, DecidableEq

/-- `itdmag2` (src/base/moduledate.f90:577-593), mode 4: stamp of a 14-word date array. -/
def itdmag2 (g : Group) : Int :=
  let year := if g.year ≥ 0 ∧ g.year ≤ 99 then g.year + 1900 else g.year
  let dtpr := year * 10000 + g.month * 100 + g.day
  let tmpr := g.zulu * 1000000 + (g.hundredths ÷ 6000) * 10000 + g.hundredths ÷ 100 mod 60 * 100
  match printToStamp dtpr tmpr with
  | none => 101010101
  | some s => s

/-- `dmagtp2` (src/base/moduledate.f90:660-686), mode -4: day of the week and words 2 to 6 of
the date array of a stamp.  The character words 7 to 13 are not modelled. -/
def dmagtp2 (stamp : Int) : Int × Group :=
  let (dtpr, tmpr) := (stampToPrint stamp).getD (19101010, 10000000)
  let month := dtpr ÷ 100 mod 100
  let day := dtpr mod 100
  let year := dtpr ÷ 10000 mod 10000
  let zulu := tmpr ÷ 1000000 mod 100
  let hundredths := tmpr ÷ 10000 mod 100 * 6000 + tmpr ÷ 100 mod 100 * 100 + tmpr mod 100
  (1 + (jd year month day + 1) mod 7, ⟨month, day, year, zulu, hundredths⟩)

end Verif.Date
