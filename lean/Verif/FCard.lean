import Verif.CCard

/-! # Arguments of a program by keys, in Fortran (`src/primitives/ccard.F90`)

`ccard` and `qqqobm`.  Strings are lists of characters without the blanks that fill them up.  The arguments
come from the command line (not from the variable `CCARD_ARGS`), this is the first call (the second one finds
the arguments used up), and the names of keys have from 1 to 50 characters.  Messages, application variables
and the printing of help are left out. -/

namespace Verif.FCard

open Verif.CCard (Str Stop upper)

/-- `trim`. -/
def rtrim (s : Str) : Str := (s.reverse.dropWhile (· = ' ')).reverse

/-- A key: its name, its `cltype` and its `def`. -/
structure Key where
  name : Str
  typ : Int
  dflt : Str

/-- The table of keys (ccard.F90:106-134). -/
def mkKey (k : Str × Str) : Option Key :=
  if 50 < k.1.length then none
  else
    let u := upper k.1
    match u.getLast? with
    | none => none
    | some '.' => some ⟨u.dropLast, 0, k.2⟩
    | some '_' => some ⟨u.dropLast, -1, k.2⟩
    | some ':' => some ⟨u.dropLast, 2, k.2⟩
    | some _ => some ⟨u, 1, k.2⟩

/-- `qqqtrns` (ccard.F90:466-483). -/
def trns (typ : Int) (s : Str) : Str :=
  if typ = 1 then s.map Char.toUpper else if typ = -1 then s.map Char.toLower else s

/-- The variables `qqqobm` keeps: no key yet, no more keys, the current argument, the place in it, the
arguments left. -/
structure T where
  pasd : Bool := true
  pud : Bool := false
  cur : Str := []
  ix : Nat := 0
  rest : List Str

/-- `INDEX(s, p) /= 0`. -/
def has : Str → Str → Bool
  | [], p => p.isPrefixOf []
  | c :: t, p => p.isPrefixOf (c :: t) || has t p

/-- The request for help (ccard.F90:303-304); the argument is followed by blanks. -/
def help (s : Str) : Bool :=
  has (s ++ [' ']) "-H ".toList || has (s ++ [' ']) "-h ".toList || has s "-HELP".toList || has s "-help".toList

/-- Going to the next argument (ccard.F90:293-313): `none` at the end. -/
def fetch (t : T) : Option (T × Bool) :=
  if t.cur.length ≤ t.ix then
    match t.rest with
    | [] => none
    | a :: r => some ({ t with cur := rtrim (a.take 8192), ix := 1, rest := r }, true)
  else some (t, false)

/-- Text up to a separator (ccard.F90:344-354), and the place after it. -/
def extract (delim : Char) (ix : Nat) (cur : Str) : Str × Nat :=
  let p := (cur.drop (ix - 1)).takeWhile fun c => c ≠ '=' ∧ c ≠ delim
  (p, ix + p.length)

/-- `qqqobm` (ccard.F90:249-355). -/
def qqqobm (narg : Nat) (typ : Int) (t : T) : Nat × Str × T :=
  let delim := if typ = 2 then '=' else ':'
  match fetch t with
  | none => (0, [], t)
  | some (t, fresh) =>
    if fresh ∧ narg = 1 ∧ help t.cur then (5, [], t)
    else if t.ix = 1 ∧ t.cur[0]? = some '-' ∧ t.pud = false then
      let r := extract delim 2 t.cur
      (1, r.1, { t with pasd := false, pud := t.cur[1]? = some '-', ix := r.2 })
    else if t.pud ∨ t.pasd then (3, t.cur, { t with ix := t.cur.length })
    else
      let ix := if t.cur[t.ix - 1]? = some delim ∨ t.cur[t.ix - 1]? = some '=' then t.ix + 1 else t.ix
      let r := extract delim ix t.cur
      (2, r.1, { t with ix := r.2 })

/-- The variables of `ccard`: places of keys count from 0. -/
structure S where
  val : List Str
  pos : Nat := 0
  posc : Nat := 0
  posmoin : Nat
  posmoinc : Nat
  interne : Nat := 0

/-- An error: the program stops with `plante`. -/
def fail (plante : Bool) (code : Int) (s : S) : Except Stop S := if plante then .error (.exit code) else .ok s

/-- What is done with a key, a value or a positional argument (ccard.F90:159-230).  `vlen` is the length of
the strings `val`.  Keys after the last one were never set. -/
def step (ks : List Key) (vlen : Nat) (plante : Bool) (status : Nat) (arg : Str) (s : S) : Except Stop S :=
  if status = 1 then
    match ks.findIdx? (fun k => rtrim (upper arg) = rtrim k.name) with
    | some j =>
      match ks[j]? with
      | some k => .ok { s with val := s.val.set j ((trns k.typ k.dflt).take vlen), pos := j, posc := j }
      | none => .error .ub
    | none => fail plante 22 s
  else if status = 2 then
    match ks[s.pos]?, ks[s.posc]? with
    | some k, some kc =>
      if k.name = kc.name then
        .ok { s with val := s.val.set s.posc ((trns kc.typ arg).take vlen), posc := s.posc + 1 }
      else fail plante 23 s
    | _, _ => .error .ub
  else if status = 3 then
    match ks[s.posmoin]?, ks[s.posmoinc]? with
    | some k, some kc =>
      if k.name = kc.name then
        .ok { s with val := s.val.set s.posmoinc ((trns kc.typ arg).take vlen), posmoinc := s.posmoinc + 1,
                     interne := s.interne + 1 }
      else fail plante 24 { s with posmoinc := s.posmoinc + 1, interne := s.interne + 1 }
    | _, _ => .error .ub
  else .error (.exit 0)

/-- The loop of ccard.F90:152-231, at most `fuel` times. -/
def run (ks : List Key) (vlen : Nat) (plante : Bool) (narg : Nat) : Nat → T → S → Except Stop S
  | 0, _, _ => .error .loop
  | f + 1, t, s =>
    match ks[s.pos]? with
    | none => .error .ub
    | some k =>
      let r := qqqobm narg k.typ t
      if r.1 = 0 then .ok s
      else do
        let s ← step ks vlen plante r.1 r.2.1 s
        run ks vlen plante narg f r.2.2 s

/-- `ccard` (ccard.F90:62-237) with keys given as name and `def`: the values and `ii`.  `abort` tells whether
`CCARD_OPT` is `ABORT`. -/
def ccard (fuel vlen : Nat) (abort : Bool) (keys : List (Str × Str)) (val : List Str) (ii : Int)
    (argv : List Str) : Except Stop (List Str × Int) :=
  match (if keys.length ≤ 1024 then keys.mapM mkKey else none) with
  | none => .error .ub
  | some ks => do
    let m := (ks.findIdx? (fun k => k.name = ['-'])).getD 0
    let s ← run ks vlen (abort || ii.natAbs = 111) argv.length fuel { rest := argv }
      { val := val, posmoin := m, posmoinc := m }
    return (s.val, if 0 < ii then (s.interne : Int) else ii)

end Verif.FCard
