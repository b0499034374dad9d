/-! # Options in environment variables

Model of src/primitives/c_env_var_cracker.c: the calls of the user function made for the value of an environment
variable.  `none` is a fault: `strtok` returned NULL where a token is used without a test, a buffer is overrun, or
the quotes of a string of one character are removed. -/

namespace Verif.EnvCrack

/-- `isspace` in the C locale. -/
def isSpace (c : Char) : Bool := c == ' ' || c == '\t' || c == '\n' || c == '\r' || c.toNat == 11 || c.toNat == 12

/-- `toupper` in the C locale (c_env_var_cracker.c:46-51). -/
def upper (c : Char) : Char := if 97 ≤ c.toNat ∧ c.toNat ≤ 122 then Char.ofNat (c.toNat - 32) else c

/-- The tokens which `strtok` returns one after the other for the delimiters `d`; `acc` is the beginning of a token. -/
def tokens (d : Char → Bool) : List Char → List Char → List (List Char)
  | acc, [] => if acc.isEmpty then [] else [acc]
  | acc, c :: cs =>
    if d c then if acc.isEmpty then tokens d [] cs else acc :: tokens d [] cs
    else tokens d (acc ++ [c]) cs

def semi (c : Char) : Bool := c == ';'
def equals (c : Char) : Bool := c == '='
def comma (c : Char) : Bool := c == ',' || c == ' '

/-- trimleft (c_env_var_cracker.c:55-69). -/
def trimLeft (s : List Char) : List Char := s.dropWhile isSpace

/-- trimright (c_env_var_cracker.c:73-82). -/
def trimRight (s : List Char) : List Char := (s.reverse.dropWhile isSpace).reverse

/-- remove_quotes (c_env_var_cracker.c:85-91).  For one character the number `strlen(string) - 2` is the largest one: the
loop runs through the memory. -/
def removeQuotes (s : List Char) : Option (List Char) := if s.length < 2 then none else some s.tail.dropLast

inductive Kind where
  | quotes
  | nonmatching
  | plain
deriving DecidableEq

/-- check_start_end_char (c_env_var_cracker.c:95-189) for a string without blanks at its ends: `a` is its first and
`z` its last character.  Where there are no leading blanks the last `if` returns 0 (184-186). -/
def checkEnds (a z : Char) : Kind :=
  if a == '[' then if z == ']' then .quotes else .nonmatching
  else if z == ']' then if a == '[' then .quotes else .nonmatching
  else if z == '(' then if a == ')' then .quotes else .nonmatching
  else if a == '(' then if z == ')' then .quotes else .nonmatching
  else if z == '}' then if a == '{' then .quotes else .nonmatching
  else if a == '{' then if z == '}' then .quotes else .nonmatching
  else if z == '\"' then if a == '\"' then .quotes else .nonmatching
  else if a == '\"' then if z == '\"' then .quotes else .nonmatching
  else if z == '\'' then if a == '\'' then .quotes else .nonmatching
  else if a == '\'' then if z == '\'' then .quotes else .nonmatching
  else .plain

/-- A call of the user function: name, index and value. -/
abbrev Call := List Char × Nat × List Char

/-- The values of a list (c_env_var_cracker.c:294-323), counted from `i`. -/
def number (name : List Char) : Nat → List (List Char) → List Call
  | _, [] => []
  | i, v :: vs => (name, i, trimRight (trimLeft v)) :: number name (i + 1) vs

/-- What the loop over the values of a variable does: it goes on, with a new index, or the function returns. -/
inductive Res where
  | go (calls : List Call) (index : Nat)
  | stop (calls : List Call)
  | fault

/-- The loop of c_env_var_cracker.c:255-325 over the tokens between `=`.  A list of values is taken apart by `strtok`,
which forgets the tokens which remain: the loop ends. -/
def values (name : List Char) : List (List Char) → Nat → List Call → Res
  | [], index, out => .go out index
  | t :: ts, index, out =>
    match trimRight (trimLeft t) with
    | [] => values name ts index out
    | a :: s =>
      let v := a :: s
      match checkEnds a (v.getLastD a) with
      | .nonmatching => .stop out
      | .quotes =>
        match removeQuotes v with
        | none => .fault
        | some w =>
          if w.contains ',' then
            match tokens comma [] w with
            | [] => .fault
            | us => .go (out ++ number name 1 us) us.length
          else values name ts (index + 1) (out ++ [(name, index + 1, w)])
      | .plain =>
        match tokens comma [] v with
        | [] => .fault
        | us => .go (out ++ number name 1 us) us.length

/-- The loop of c_env_var_cracker.c:236-326 over the variables. -/
def varLoop : List (List Char) → Nat → List Call → Option (List Call)
  | [], _, out => some out
  | s :: ss, index, out =>
    match tokens equals [] s with
    | [] => none
    | n :: ts =>
      match values (trimRight (trimLeft (n.map upper))) ts index out with
      | .fault => none
      | .stop out => some out
      | .go out index => varLoop ss index out

/-- `c_env_var_cracker` (c_env_var_cracker.c:192-337).  At most 32 variables of less than 255 characters fit (9-10, 201). -/
def cracker (option : List Char) : Option (List Call) :=
  if option = [] then some []
  else
    match tokens semi [] option with
    | [] => none
    | ss => if ss.length ≤ 32 ∧ ss.all (fun s => s.length < 255) then varLoop ss 0 [] else none

/-- What `strtok` leaves of the string of the environment: a NUL is written behind the first token
(c_env_var_cracker.c:208-217). -/
def envAfter (option : List Char) : List Char :=
  option.takeWhile semi ++ (option.dropWhile semi).takeWhile (fun c => !semi c)

end Verif.EnvCrack
