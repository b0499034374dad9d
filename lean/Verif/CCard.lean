/-! # Arguments of a program by keys (`src/primitives/c_ccard.c`)

`c_ccard` and its helpers.  Strings are lists of characters, one character is one byte.  A program that
stops, one that never ends and undefined behaviour are told apart.  Messages are left out.  There are at
most `NKLEMAX` = 100 keys (more overflow `les_clefs`). -/

namespace Verif.CCard

/-- A C string. -/
abbrev Str := List Char

/-- Ways not to return. -/
inductive Stop
  | exit (code : Int)
  | loop
  | ub
deriving DecidableEq

/-- How the value of a key is converted (c_ccard.c:27-29). -/
inductive Typ
  | majus
  | minus
  | pareil
deriving DecidableEq

/-- One key: the name as given, the name and type `c_ccard` keeps, the value without argument (`def`)
and the value when the key is absent (`val`). -/
structure Key where
  cle : Str
  name : Str
  typ : Typ
  dflt : Str
  val : Str

/-- `toupper` on a string. -/
def upper (s : Str) : Str := s.map Char.toUpper

/-- `c_jfc_tradup` and `c_jfc_majmin` (c_ccard.c:341-388); the empty name reads before its string. -/
def mkName (cle : Str) : Option (Str × Typ) :=
  let u := upper cle
  match u.getLast? with
  | none => none
  | some '.' => some (u.dropLast, .pareil)
  | some '_' => some (u.dropLast, .minus)
  | some _ => some (u, .majus)

/-- The table of keys (c_ccard.c:89-95 and 107-114). -/
def mkKey (k : Str × Str × Str) : Option Key :=
  (mkName k.1).map fun n => ⟨k.1, n.1, n.2, k.2.1, k.2.2⟩

/-- `c_jfc_cherche_la_clef` (c_ccard.c:247-268): the first key with that name. -/
def find (ks : List Key) (nom : Str) : Option Nat := ks.findIdx? (fun k => k.name = upper nom)

/-- `strcpy` to `clefin`, which has room for 256 characters. -/
def put (fin : List Str) (i : Nat) (v : Str) : Except Stop (List Str) :=
  if v.length ≤ 256 then .ok (fin.set i v) else .error .ub

/-- Leaving out one leading `=` (c_ccard.c:304-311 and 317-324). -/
def strip : Str → Str
  | '=' :: t => t
  | s => s

/-- The pieces between colons. -/
def pieces : Str → List Str
  | [] => [[]]
  | c :: t =>
    if c = ':' then [] :: pieces t
    else
      match pieces t with
      | p :: ps => (c :: p) :: ps
      | [] => [[c]]

/-- `c_jfc_les_valeurs` (c_ccard.c:275-335) on the pieces: with a key of another name the loop never
ends, after the last key it reads keys that were never set. -/
def values (ks : List Key) (name : Str) : List Str → Nat → List Str → Except Stop (List Str × Nat)
  | [], posc, fin => .ok (fin, posc)
  | p :: ps, posc, fin =>
    match ks[posc]? with
    | none => .error .ub
    | some k =>
      if k.name = name then do
        let fin ← put fin posc (strip p)
        values ks name ps (posc + 1) fin
      else .error .loop

/-- The state of `c_ccard`: values, current key, next key, number of positional arguments, errors, and
the static variable of `c_jfc_positionel`. -/
structure St where
  fin : List Str
  pos : Option Nat := none
  posc : Option Nat := none
  npos : Int
  err : Nat := 0
  sposc : Nat
deriving DecidableEq

/-- `c_jfc_positionel` (c_ccard.c:462-511): the arguments left and the state.  Without a key `-` the
name it compares with is outside the table. -/
def positionel (ks : List Key) (pos : Option Nat) (debut : Bool) : List Str → St → Except Stop (List Str × St)
  | [], s => .ok ([], s)
  | a :: rest, s =>
    if debut ∧ a.head? = some '-' then .ok (a :: rest, s)
    else
      match ks[s.sposc]? with
      | none => .ok (rest, { s with err := s.err + 1 })
      | some k =>
        match pos.bind (ks[·]?) with
        | none => .error .ub
        | some kp =>
          if k.name = kp.name then do
            let fin ← put s.fin s.sposc a
            positionel ks pos debut rest { s with fin := fin, sposc := s.sposc + 1, npos := s.npos + 1 }
          else
            positionel ks pos debut rest
              { s with err := s.err + 1, sposc := s.sposc + 1, npos := s.npos + 1 }

/-- The name and the value around the first `=` (c_ccard.c:173-178). -/
def cut : Str → Str × Option Str
  | [] => ([], none)
  | c :: t => if c = '=' then ([], some t) else let r := cut t; (c :: r.1, r.2)

/-- An error is counted; with `plante` the program stops. -/
def fail (plante : Bool) (s : St) : Except Stop St :=
  if plante then .error (.exit (-1)) else .ok { s with err := s.err + 1 }

/-- A key (c_ccard.c:173-199); `t` is the argument after `-`. -/
def oneKey (ks : List Key) (plante : Bool) (t : Str) (s : St) : Except Stop St :=
  let c := cut t
  if 256 ≤ c.1.length then .error .ub
  else
    match find ks c.1 with
    | none => fail plante { s with pos := none }
    | some p =>
      match c.2, ks[p]? with
      | some w, some k => do
        let r ← values ks k.name (pieces w) p s.fin
        return { s with fin := r.1, pos := some p, posc := some r.2 }
      | none, some k => do
        let fin ← put s.fin p k.dflt
        return { s with fin := fin, pos := some p, posc := some p }
      | _, none => .error .ub

/-- A value (c_ccard.c:203-213): the names are compared as they were given. -/
def oneValue (ks : List Key) (plante : Bool) (a : Str) (s : St) : Except Stop St :=
  match s.posc with
  | none => fail plante s
  | some pc =>
    match ks[pc]?, s.pos.bind (ks[·]?) with
    | some k, some kp =>
      if k.cle = kp.cle then do
        let r ← values ks kp.name (pieces a) pc s.fin
        return { s with fin := r.1, posc := some r.2 }
      else fail plante s
    | _, _ => .error .ub

/-- The loop of c_ccard.c:153-217. -/
def args (ks : List Key) (plante : Bool) (posmoin : Option Nat) : List Str → St → Except Stop St
  | [], s => .ok s
  | a :: rest, s =>
    match a with
    | '-' :: '-' :: _ => do
      let r ← positionel ks posmoin false rest s
      if 0 < r.2.err ∧ plante then .error (.exit (-1)) else return r.2
    | '-' :: t => do
      let s ← oneKey ks plante t s
      args ks plante posmoin rest s
    | a => do
      let s ← oneValue ks plante a s
      args ks plante posmoin rest s

/-- `c_jfc_traduire` (c_ccard.c:393-416). -/
def traduire (t : Typ) (s : Str) : Str :=
  match t with
  | .majus => s.map Char.toUpper
  | .minus => s.map Char.toLower
  | .pareil => s

/-- c_ccard.c:222-230: the values returned, in strings of 256 bytes with their end. -/
def finish (ks : List Key) (fin : List Str) : Except Stop (List Str) :=
  (ks.zip fin).mapM fun p =>
    let v := traduire p.1.typ p.2
    if v.length < 256 then .ok v else .error .ub

/-- The positional arguments before the keys (c_ccard.c:140-151). -/
def lead (ks : List Key) (posmoin : Option Nat) (argv : List Str) (s : St) : Except Stop (List Str × St) :=
  if posmoin.isSome then positionel ks posmoin true argv s else .ok (argv, s)

/-- `c_ccard` (c_ccard.c:49-240) on keys given as name, `def`, `val` and the arguments after the name of
the program: the values and the number of positional arguments (if asked for).  `junk` is what
`npos_interne` holds at first, `static0` what earlier calls left in `posc` of `c_jfc_positionel`. -/
def ccard (junk : Int) (static0 : Nat) (keys : List (Str × Str × Str)) (npos : Int) (argv : List Str) :
    Except Stop (List Str × Int) :=
  match (if keys.length ≤ 100 then keys.mapM mkKey else none) with
  | none => .error .ub
  | some ks =>
    let plante : Bool := npos = -111
    if argv = [['-', 'h']] ∨ argv = [['-', 'H']] then .error (.exit 0)
    else do
      let posmoin := find ks ['-']
      let s : St := { fin := ks.map (·.val), npos := junk, sposc := posmoin.getD static0 }
      let r ← lead ks posmoin argv s
      if 0 < r.2.err ∧ plante then .error (.exit (-1))
      else
        let s ← args ks plante posmoin r.1 r.2
        let vals ← finish ks s.fin
        return (vals, if 0 < npos then s.npos else npos)

end Verif.CCard
