import Verif.Convip
import Verif.XdfSearch

/-! # Searching levels in either coding

Model of the tables of ip values of src/fstd98/fstd98.c (`init_ip_vals`, `ip_is_equal`, `c_ip1_all` …, `c_ip1_val` …) and
of the part of `c_fstinfx` that uses them, on random files.  Messages are left out, kinds are not negative, and the
functions for ip1, ip2 and ip3, which differ only by the table, are one function here. -/

namespace Verif.FstIp

open Verif.FstKeys (W Keys Query)
open Verif.Xdf (Table Criteria Cursor Found Entry)
open Verif.Grid (Rounding)

/-- `Max_Ipvals` (fstd98.c:57). -/
abbrev maxIpvals : Nat := 50

/-- `ip1s_flag` and the first `ip_nb[0]` elements of `ips_tab[0]` (fstd98.c:67-74), and likewise for ip2 and ip3. -/
structure Tab where
  flag : Bool
  row : List Int
deriving DecidableEq, Repr

structure Ips where
  t1 : Tab
  t2 : Tab
  t3 : Tab
deriving DecidableEq, Repr

/-- `init_ip_vals` (fstd98.c:147-164), `c_fstreset_ip_flags` (2964-2967), and the state at the start. -/
def cleared : Ips := ⟨⟨false, []⟩, ⟨false, []⟩, ⟨false, []⟩⟩

/-- `ips_tab[0][ip_nb[0]++] = code`; `none`: outside of the row. -/
def push (row : List Int) (code : Int) : Option (List Int) :=
  if row.length < maxIpvals then some (row ++ [code]) else none

/-- `c_ip1_val` (fstd98.c:3558-3583), `new` being what `ConvertIp` gives: the table and the value returned. -/
def ipVal (new : Int) (t : Tab) : Option (Tab × Int) :=
  (push t.row new).map fun row => (⟨true, row⟩, if row.length ≥ maxIpvals then -1 else new)

/-- `c_ip1_all` (fstd98.c:3428-3467). -/
def ipAll (new old : Int) (t : Tab) : Option (Tab × Int) :=
  match push t.row new with
  | none => none
  | some row =>
    if row.length ≥ maxIpvals then some (⟨true, row⟩, -1)
    else (push row old).map fun row => (⟨true, row⟩, if row.length > maxIpvals then -1 else new)

/-- The old code of `c_ip1_all` (fstd98.c:3452-3458). -/
def oldCode (R : Rounding) (kind : Nat) (level : ℚ) : Int :=
  if kind < 4 then Convip.encodeOld R kind level else -9999

/-- `ipold_0_9` (fstd98.c:180). -/
def ipOld : List Int := [0, 1820, 1840, 1860, 1880, 1900, 1920, 1940, 1960, 1980]

/-- Lines 205-208: mantissas above a million are those of negative values. -/
def mantissa (ip : Nat) : Int :=
  let m : Nat := ip % 2 ^ 20
  if m > 1000000 then -((m : Int) - 1000000) else m

def expo (ip : Nat) : Nat := ip / 2 ^ 20 % 16

def kindOf (ip : Nat) : Nat := ip / 2 ^ 24 % 16

/-- `mantis *= 10`, `n` times (lines 212-222); `none`: overflow of `long long`. -/
def scaled (m : Int) (n : Nat) : Option Int :=
  let x := m * 10 ^ n
  if -(2 ^ 63) ≤ x ∧ x < 2 ^ 63 then some x else none

/-- Lines 198-224 for codes above 32767. -/
def sameNew (ip target : Nat) : Option Bool :=
  if kindOf ip ≠ kindOf target then some false
  else
    let m1 := mantissa ip
    let m2 := mantissa target
    if (m1 < 0 ∧ ¬ m2 < 0) ∨ (¬ m1 < 0 ∧ m2 < 0) then some false
    else
      match scaled m1 (expo target - expo ip), scaled m2 (expo ip - expo target) with
      | some x, some y => some (decide (|x - y| ≤ 1))
      | _, _ => none

/-- One round of the loop of `ip_is_equal` (fstd98.c:192-226).  `ip` comes from a field of 28 bits. -/
def matchOne (ip : Nat) (target : Int) : Option Bool :=
  if (ip : Int) = target then some true
  else if ip < 10 ∧ ipOld.getD ip 0 = target then some true
  else if ip > 32767 ∧ target > 32767 then sameNew ip target.toNat
  else some false

/-- The loop of `ip_is_equal` (fstd98.c:192-227). -/
def anyMatch (ip : Nat) : List Int → Option Bool
  | [] => some false
  | c :: row =>
    match matchOne ip c with
    | none => none
    | some true => some true
    | some false => anyMatch ip row

/-- `ip_is_equal` (fstd98.c:168-229).  A table with its flag set has a first element. -/
def ipIsEqual (t : Tab) (target : Int) (ip : Nat) : Option Bool :=
  if target ≠ t.row.headD (-1) then some false else anyMatch ip t.row

/-- The test on the ip values of a record found (fstd98.c:1831-1844), `false` being `nomatch`. -/
def ipsOk (s : Ips) (q : Query) (k : Keys) : Option Bool :=
  if s.t1.flag ∧ q.ip1.toInt ≥ 0 then
    match ipIsEqual s.t1 q.ip1.toInt k.ip1.toNat with
    | none => none
    | some false => some false
    | some true =>
      if s.t2.flag ∧ q.ip2.toInt ≥ 0 then
        match ipIsEqual s.t2 q.ip2.toInt k.ip2.toNat with
        | none => none
        | some false => some false
        | some true =>
          if s.t3.flag ∧ q.ip3.toInt ≥ 0 then ipIsEqual s.t3 q.ip3.toInt k.ip3.toNat else some true
      else some true
  else some true

def anyFlag (s : Ips) : Bool := s.t1.flag || s.t2.flag || s.t3.flag

/-- The mask (fstd98.c:1726-1789) when flags may be set. -/
def maskIp (s : Ips) (q : Query) : Keys :=
  { FstKeys.mask q with
    ip1 := if s.t1.flag then 0 else (FstKeys.mask q).ip1
    ip2 := if s.t2.flag then 0 else (FstKeys.mask q).ip2
    ip3 := if s.t3.flag then 0 else (FstKeys.mask q).ip3 }

/-- The mask arranged for `fstsui` (fstd98.c:1852-1856). -/
def maskSui (s : Ips) (q : Query) : Keys :=
  { FstKeys.mask q with
    ip1 := if s.t1.flag then BitVec.allOnes 28 else (FstKeys.mask q).ip1
    ip2 := if s.t2.flag then BitVec.allOnes 28 else (FstKeys.mask q).ip2
    ip3 := if s.t3.flag then BitVec.allOnes 28 else (FstKeys.mask q).ip3 }

/-- The target and mask of a file after `build_primary` (xdf98.c:223-262): the two first words are not used.
`srch` is the mask of `c_fstmsq`. -/
def criteria (words mask srch : List W) (filter : Nat → Nat → Bool) : Criteria :=
  ⟨0#32 :: 0#32 :: words.drop 2, List.zipWith (· &&& ·) (0#32 :: 0#32 :: mask.drop 2) srch, filter⟩

/-- `c_xdfprm` (xdf98.c): the entry a handle leads to. -/
def entryAt (T : Table) (f : Nat) (p r : Nat) : Option Entry :=
  ((Xdf.pageOf T f p).bind fun l => Xdf.pageAt T l).bind fun pg => pg.entries[r]?

/-- The loop of lines 1829-1849: a record was found, the first word of whose keys is in `pkeys` and becomes the target of the
next search.  `n` bounds the rounds.  The result is the answer of the last search, the position, and the words of the
last record looked at. -/
def ipLoop (T : Table) (f : Nat) (s : Ips) (q : Query) (mask srch : List W) (filter : Nat → Nat → Bool) (fuel : Nat) :
    Nat → List W → Found × Cursor → Option (Found × Cursor × List W)
  | 0, _, _ => none
  | n + 1, _, (.hit p r, c) =>
    match entryAt T f p r with
    | none => none
    | some e =>
      match ipsOk s q (FstKeys.ofWords e.words) with
      | none => none
      | some true => some (.hit p r, c, e.words)
      | some false =>
        match Xdf.locNext T (criteria e.words mask srch filter) fuel c with
        | none => none
        | some x => ipLoop T f s q mask srch filter fuel n e.words x
  | _ + 1, last, (x, c) => some (x, c, last)

/-- What `c_fstinfx` leaves behind: its answer, the position and the target of the file, and the tables. -/
structure Result where
  found : Found
  cursor : Cursor
  crit : Criteria
  ips : Ips

/-- `c_fstinfx` (fstd98.c:1662-1868) with handle -2 on an open random file `f`. -/
def fstinfx (T : Table) (f : Nat) (s : Ips) (srch : List W) (filter : Nat → Nat → Bool) (fuel n : Nat) (q : Query) :
    Option Result :=
  let t0 := criteria (FstKeys.target q).words (maskIp s q).words srch filter
  match Xdf.locFirst T f t0 fuel with
  | none => none
  | some (.hit p r, c) =>
    if anyFlag s then
      (ipLoop T f s q (maskIp s q).words srch filter fuel n (FstKeys.target q).words (.hit p r, c)).map fun x =>
        -- lines 1852-1859: the mask of c_fstmsq is not applied here
        ⟨x.1, x.2.1, ⟨0#32 :: 0#32 :: x.2.2.drop 2, 0#32 :: 0#32 :: (maskSui s q).words.drop 2, filter⟩, cleared⟩
    else some ⟨.hit p r, c, t0, s⟩
  | some (x, c) => some ⟨x, c, t0, if anyFlag s then cleared else s⟩

/-- `c_fstinfx` on a unit, `none` being one that is not connected or not open (lines 1704-1714): the call returns an error
and the tables stay as they are. -/
def fstinfxOn (T : Table) (unit : Option Nat) (s : Ips) (srch : List W) (filter : Nat → Nat → Bool) (fuel n : Nat) (q : Query) :
    Option (Option Found × Ips) :=
  match unit with
  | none => some (none, s)
  | some f => (fstinfx T f s srch filter fuel n q).map fun r => (some r.found, r.ips)

end Verif.FstIp
