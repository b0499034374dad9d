import Mathlib.Data.Rat.Floor

/-!
Model of the record filter, src/fstd98/excdes_new.c: the request table, the functions that fill it
(`Xc_Select_*`, `C_select_groupset`, `C_requetes_reset`) and the decision (`C_fstmatch_parm`).

Arrays of the table are functions of the index; indices stay below MAX_Nlist because the lengths are
checked.  An access outside of the table of requests is `none`.  Real numbers are rationals and their
quotients and differences are not rounded.  What is computed by other files is a parameter (`Env`).
The hit counts, the messages and the reading of directive files are not modelled.
-/
namespace Verif.Excdes

/-- MAX_requetes and MAX_Nlist, src/PUBLIC_INCLUDES/rmn/excdes_new.h lines 5, 9. -/
def maxSets : Int := 50
def maxList : Nat := 50

/-- Lines 86-89. -/
abbrev UNUSED : Nat := 0
abbrev VALUE : Nat := 1
abbrev RANGE : Nat := 2
abbrev DELTA : Nat := 3

/-- `DE_int`, lines 99-104. -/
structure IntC where
  inUse : Nat
  nelm : Nat
  delta : Int
  data : Nat → Int

/-- `DE_char`, lines 106-110. -/
structure StrC where
  inUse : Nat
  nelm : Nat
  pdata : Nat → List Char

/-- Supplementary criteria, lines 123-130. -/
structure Suppl where
  ni : Int
  nj : Int
  nk : Int
  ig1 : Int
  ig2 : Int
  ig3 : Int
  ig4 : Int
  grtyp : Char

/-- `DesireExclure`, lines 111-131 (`exdes` is 1 for desire, -1 for exclure). -/
structure Req where
  inUse : Nat
  inUseSupp : Nat
  exdes : Int
  etiquettes : StrC
  nomvars : StrC
  typvars : StrC
  dates : IntC
  ip1s : IntC
  ip2s : IntC
  ip3s : IntC
  supp : Suppl

/-- The table and the bounds of the active group, lines 93-94, 133. -/
structure State where
  reqs : Nat → Req
  first : Int
  last : Int

def put {β : Type} (f : Nat → β) (i : Nat) (v : β) : Nat → β := fun j => if j = i then v else f j

/-- `C_requetes_reset` for one set with all arguments 0, lines 1531-1598. -/
def blankReq : Req :=
  { inUse := 0, inUseSupp := 0, exdes := -1
    etiquettes := ⟨0, 0, fun _ => List.replicate 12 ' '⟩
    nomvars := ⟨0, 0, fun _ => List.replicate 4 ' '⟩
    typvars := ⟨0, 0, fun _ => List.replicate 2 ' '⟩
    dates := ⟨0, 0, 0, fun _ => 0⟩, ip1s := ⟨0, 0, 0, fun _ => 0⟩
    ip2s := ⟨0, 0, 0, fun _ => 0⟩, ip3s := ⟨0, 0, 0, fun _ => 0⟩
    supp := ⟨0, 0, 0, 0, 0, 0, 0, ' '⟩ }

/-- `C_requetes_init`, lines 1606-1624. -/
def init : State := ⟨fun _ => blankReq, 0, maxSets - 1⟩

/-- What other files compute: `conv` is `ConvertIp` (value and kind), `real` the float with a given bit
pattern, `secs` that float plus 0.5 truncated, `hours` is difdatr, `translatable` is
`FstCanTranslateName`. -/
structure Env where
  conv : Int → ℚ × Int
  real : Int → ℚ
  secs : Int → Int
  hours : Int → Int → ℚ
  translatable : List Char → Bool

def desire (desExc : Int) : Int := if desExc = 1 then 1 else -1

/-- `ValidateRequestForSet`, lines 285-313 (`nelm_lt` is always 1), for a set in the table. -/
def valid (r : Req) (desExc : Int) (nelm : Nat) : Bool :=
  if nelm > maxList then false
  else if nelm = 0 then false
  else !(decide (r.inUse ≠ 0) && decide (desire desExc ≠ r.exdes))

/-- Filling of an `ip` criterion, lines 337-370, 404-428, 462-486. -/
def fillIp (c : IntC) (l : List Int) : IntC :=
  let at' := fun i => l.getD i 0
  let n := if at' 0 = -1 then 1 else l.length
  let c : IntC := ⟨VALUE, n, 0, put c.data 0 (at' 0)⟩
  if n = 1 then c
  else if at' 1 = -2 ∧ at' 3 = -3 ∧ n = 5 then
    { c with data := put (put c.data 1 (at' 2)) 2 (at' 4), inUse := DELTA }
  else
    let c := { c with data := put c.data 2 (-2) }
    let c := { c with data := fun j => if 1 ≤ j ∧ j < n then at' j else c.data j }
    let c := if at' 0 = -2 ∨ at' 1 = -2 then { c with inUse := RANGE, nelm := 2 } else c
    if at' 1 = -2 then { c with data := put c.data 1 (c.data 2) } else c

/-- Loop of `Xc_Select_date`, lines 531-559, from element `i`; `none` is the error exit. -/
def fillDate (env : Env) (l : List Int) (n : Nat) : Nat → Nat → Nat → Nat → IntC → Option IntC
  | 0, _, _, _, c => some c
  | fuel + 1, i, range, delta, c =>
    if i < n then
      let x := l.getD i 0
      let c := { c with data := put c.data i x }
      let afterDelta : Option (IntC × Nat) :=
        if x = -3 then
          if delta + 1 > 1 ∨ range = 0 then none
          else if i + 1 ≥ n then none
          else if i ≠ 3 then none
          else
            let h := l.getD (i + 1) 0
            let s := if h / 2 ^ 23 % 256 ≠ 0 then env.secs h else h * 3600
            some (⟨DELTA, 3, s, put c.data 2 s⟩, delta + 1)
        else some (c, delta)
      match afterDelta with
      | none => none
      | some (c, delta) =>
        if x = -2 then
          if range + 1 > 1 ∨ i > 1 then none
          else
            let d := if i = 1 ∧ n > 2 then put c.data 1 (l.getD 2 0) else c.data
            fillDate env l n fuel (i + 1) (range + 1) delta { c with inUse := RANGE, nelm := 2, data := d }
        else fillDate env l n fuel (i + 1) range delta c
    else some c

/-- `Xc_Select_date` after validation, lines 520-560: the criterion and the return value.  (In the error
case only the use of the criterion is cleared; what is in it then does not matter.) -/
def fillDates (env : Env) (c : IntC) (l : List Int) : IntC × Int :=
  let n := if l.getD 0 0 = -1 then 1 else l.length
  let c : IntC := ⟨VALUE, n, 0, put c.data 0 (l.getD 0 0)⟩
  if n = 1 then (c, 0)
  else
    match fillDate env l n n 0 0 0 c with
    | some c => (c, 0)
    | none => ({ c with inUse := UNUSED }, -1)

/-- Filling of a name criterion, lines 588-597, 625-634, 704-713; `cut` characters are copied. -/
def fillStr (cut : Nat) (c : StrC) (l : List (List Char)) : StrC :=
  ⟨1, l.length, fun j => if j < l.length then (l.getD j []).take cut else c.pdata j⟩

/-- The calls. -/
inductive Call
  | ip1 (set des : Int) (l : List Int)
  | ip2 (set des : Int) (l : List Int)
  | ip3 (set des : Int) (l : List Int)
  | date (set des : Int) (l : List Int)
  | etiquette (set des : Int) (l : List (List Char))
  | nomvar (set des : Int) (l : List (List Char))
  | typvar (set des : Int) (l : List (List Char))
  | suppl (set des : Int) (x : Suppl)
  | reset (set : Int)
  | group (first last : Int)

/-- A set selected: the error path of all functions switches off the dates of the set, lines 333, 400,
458, 562, 599, 636, 678, 715. -/
def select (s : State) (set des : Int) (nelm : Nat) (f : Req → Req × Int) : Option (State × Int) :=
  if set < 0 ∨ set > maxSets - 1 then none
  else
    let r := s.reqs set.toNat
    if valid r des nelm then
      let (r', st) := f { r with inUse := 255, exdes := desire des }
      some ({ s with reqs := put s.reqs set.toNat r' }, st)
    else some ({ s with reqs := put s.reqs set.toNat { r with dates := { r.dates with inUse := UNUSED } } }, -1)

/-- One call, with its return value. -/
def step (env : Env) (s : State) : Call → Option (State × Int)
  | .ip1 set des l => select s set des l.length fun r => ({ r with ip1s := fillIp r.ip1s l }, 0)
  | .ip2 set des l => select s set des l.length fun r => ({ r with ip2s := fillIp r.ip2s l }, 0)
  | .ip3 set des l => select s set des l.length fun r => ({ r with ip3s := fillIp r.ip3s l }, 0)
  | .date set des l => select s set des l.length fun r =>
      ({ r with dates := (fillDates env r.dates l).1 }, (fillDates env r.dates l).2)
  | .etiquette set des l => select s set des l.length fun r => ({ r with etiquettes := fillStr 13 r.etiquettes l }, 0)
  | .nomvar set des l => select s set des l.length fun r => ({ r with nomvars := fillStr 5 r.nomvars l }, 0)
  | .typvar set des l => select s set des l.length fun r => ({ r with typvars := fillStr 3 r.typvars l }, 0)
  | .suppl set des x => select s set des 1 fun r => ({ r with supp := x, inUseSupp := 1 }, 0)
  | .reset set =>
    if set > maxSets - 1 then some (s, -1)
    else if set < 0 then none
    else some ({ s with reqs := put s.reqs set.toNat blankReq }, 0)
  | .group first last =>
    if first > maxSets - 1 ∨ last > maxSets - 1 ∨ first > last then some (s, -1)
    else some ({ s with first := first, last := last }, 0)

def run (env : Env) (s : State) : List Call → Option State
  | [] => some s
  | c :: cs =>
    match step env s c with
    | none => none
    | some (s, _) => run env s cs

/-- Descriptors of a record, arguments of `C_fstmatch_parm`, lines 1046-1048. -/
structure Rec where
  date : Int
  ni : Int
  nj : Int
  nk : Int
  ip1 : Int
  ip2 : Int
  ip3 : Int
  typvar : List Char
  nomvar : List Char
  etiket : List Char
  grtyp : Char
  ig1 : Int
  ig2 : Int
  ig3 : Int
  ig4 : Int

/-- fmod for a dividend that is not negative and a positive divisor. -/
def fmod (x d : ℚ) : ℚ := x - d * ⌊x / d⌋

/-- `match_ip`, lines 954-1027. -/
def matchIp (env : Env) (c : IntC) (ip : Int) (translatable : Bool) : Bool :=
  if c.inUse = 0 then false
  else if c.inUse = RANGE ∨ c.inUse = DELTA then
    if !translatable then false
    else
      let p1 := env.conv ip
      let p2 := if c.data 0 ≥ 0 then env.conv (c.data 0) else p1
      let p3 := if c.data 1 ≥ 0 then env.conv (c.data 1) else p1
      let lo := if p2.1 > p3.1 then p3.1 else p2.1
      let hi := if p2.1 > p3.1 then p2.1 else p3.1
      if p1.2 ≠ p2.2 ∨ p1.2 ≠ p3.2 then false
      else if p1.1 < lo ∨ p1.1 > hi then false
      else if c.inUse = RANGE then true
      else if c.data 2 ≤ 0 then false
      else if p1.1 = lo then true
      else
        let delta := if c.data 2 < 0xFFFFF then (c.data 2 : ℚ) else env.real (c.data 2)
        if delta ≤ 0 then false
        else
          let error := fmod (p1.1 - lo) delta / delta
          decide (error < 1 / 100000) || decide (error > 99999 / 100000)
  else if c.inUse = VALUE then
    if (List.range c.nelm).any fun i => ip == c.data i || c.data i == -1 then true
    else if !translatable then false
    else
      (List.range c.nelm).any fun i =>
        let p1 := env.conv ip
        let p2 := env.conv (c.data i)
        if p1.2 ≠ p2.2 then false
        else if p2.1 = 0 then false  -- 0/0 is not a number, which compares false
        else decide (|1 - p1.1 / p2.1| < 1 / 1000000)
  else false

/-- Name criterion, lines 1097-1110 and the copies in lines 1112-1138: `width` characters count. -/
def matchStr (c : StrC) (width : Nat) (name : List Char) : Bool :=
  if c.inUse ≠ 0 then
    (c.pdata 0).head? == some ' ' ||
      (List.range c.nelm).any fun i => ((c.pdata i).take width).isPrefixOf name
  else true

/-- Supplementary criteria, lines 1085-1096. -/
def matchSuppl (r : Req) (x : Rec) : Bool :=
  if r.inUseSupp ≠ 0 then
    !((r.supp.ig1 != x.ig1 && r.supp.ig1 != -1) || (r.supp.ig2 != x.ig2 && r.supp.ig2 != -1)
      || (r.supp.ig3 != x.ig3 && r.supp.ig3 != -1) || (r.supp.ig4 != x.ig2 && r.supp.ig4 != -1)
      || (r.supp.ni != x.ni && r.supp.ni != -1) || (r.supp.nj != x.nj && r.supp.nj != -1)
      || (r.supp.nk != x.nk && r.supp.nk != -1)
      || (r.supp.grtyp != x.grtyp && r.supp.grtyp != ' '))
  else true

/-- Dates, lines 1140-1212.  (The value 4 and above of `in_use` does not occur.) -/
def matchDate (env : Env) (c : IntC) (date : Int) : Bool :=
  if c.inUse = 0 then true
  else if c.inUse = VALUE then
    c.data 0 == -1 || (List.range c.nelm).any fun i => c.data i == date
  else
    let debut := if c.data 0 ≤ 0 then date else c.data 0
    let fin := if c.data 1 ≤ 0 then date else c.data 1
    let d1 := env.hours date debut
    let d2 := env.hours date fin
    if c.inUse = RANGE then decide (d1 ≥ 0) && decide (d2 ≤ 0)
    else
      let delta : ℚ := c.delta / 3600
      decide (d1 ≥ 0) && decide (d2 ≤ 0) && decide (delta ≠ 0) && decide (fmod d1 |delta| ≤ 5 / 3600)

/-- ip criterion, lines 1214-1245. -/
def matchIpC (env : Env) (c : IntC) (ip : Int) (tr : Bool) : Bool :=
  if c.inUse ≠ 0 then c.data 0 == -1 || matchIp env c ip tr else true

/-- One request, lines 1080-1245. -/
def satisfied (env : Env) (r : Req) (x : Rec) : Bool :=
  let tr := env.translatable x.nomvar
  matchSuppl r x && matchStr r.etiquettes 12 x.etiket && matchStr r.nomvars 4 x.nomvar
    && matchStr r.typvars 2 x.typvar && matchDate env r.dates x.date
    && matchIpC env r.ip1s x.ip1 tr && matchIpC env r.ip2s x.ip2 tr && matchIpC env r.ip3s x.ip3 tr

/-- The loop, lines 1077-1255: value returned from inside, or the number of desire requests seen. -/
def scan (env : Env) (s : State) (x : Rec) : List Nat → Nat → Int ⊕ Nat
  | [], nb => .inr nb
  | n :: ns, nb =>
    let r := s.reqs n
    if r.inUse = 0 then scan env s x ns nb
    else
      let nb := if r.exdes = 1 then nb + 1 else nb
      if satisfied env r x then .inl (if r.exdes = 1 then (n : Int) + 1 else 0)
      else scan env s x ns nb

/-- Lines 1257-1259. -/
def lastInUse (s : State) (first : Nat) : Nat → Nat
  | 0 => 0
  | n + 1 => if n + 1 > first ∧ (s.reqs (n + 1)).inUse = 0 then lastInUse s first n else n + 1

/-- `C_fstmatch_parm`, lines 1046-1267; `none` when the group starts below 0. -/
def matchParm (env : Env) (s : State) (x : Rec) : Option Int :=
  if s.first < 0 ∨ s.last < 0 then none
  else
    let first := s.first.toNat
    let last := s.last.toNat
    match scan env s x (List.range' first (last + 1 - first)) 0 with
    | .inl v => some v
    | .inr nb =>
      let r := s.reqs (lastInUse s first last)
      if r.exdes = 1 ∧ r.inUse ≠ 0 then some 0
      else some (if nb = 0 then 1 else 0)

end Verif.Excdes
