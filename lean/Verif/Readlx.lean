/-! # Expressions in directives (`src/readlx/readlx.F90`)

`qlxpri`, `qlxpril`, `qlxopr`, `qlxrpn` and `qlxxpr`: an expression in infix notation is evaluated with a stack of
operands and a stack of operators.  Operators are their numbers in the table `LISTE` (readlx.F90:1429-1432):
1 `)`, 2 `]`, 3 `U+`, 4 `U-`, 5 `**`, 6 `*`, 7 `/`, 8 `+`, 9 `-`, 10 `<`, 11 `>`, 12 `==`, 13 `<=`, 14 `>=`, 15 `<>`,
16 `><`, 17 `NOT`, 18 `AND`, 19 `OR`, 20 `XOR`, 21 `:=`, 22 `(`, 23 `[`; 0 is `$`.  Operands are constants: the
value of an integer, or the 32 bits of a real.  Names of variables are left out (their addresses are cut to 32 bits in
readlx.F90:1821).  Once `ERR` is set nothing happens until the error is returned. -/

namespace Verif.Readlx

/-- Results: an error, something undefined (overflow, division by zero), or a value. -/
inductive Res (α : Type) where
  | err
  | fault
  | ok (a : α)
deriving DecidableEq, Repr

/-- `PRI` (readlx.F90:1433-1435). -/
def PRI : List Nat :=
  [150, 150, 101, 101, 91, 81, 81, 71, 71, 61, 61, 61, 61, 61, 61, 61, 51, 41, 41, 41, 10, 1, 1]

/-- The priority of an operator of the table. -/
def pri (c : Nat) : Nat := PRI.getD (c - 1) 0

/-- `QLXPRI` (readlx.F90:1420-1450). -/
def qlxpri (c : Nat) : Nat := if 1 ≤ c ∧ c ≤ 23 then c + (pri c - pri c % 2) * 100 else 0

/-- `QLXPRIL` (readlx.F90:1451-1454). -/
def qlxpril (c : Nat) : Nat := if 1 ≤ c ∧ c ≤ 23 then c + pri c * 100 else 0

/-- A 32 bit integer, without the one whose absolute value is not. -/
def fit (r : Int) : Res Int := if -2147483647 ≤ r ∧ r ≤ 2147483647 then .ok r else .fault

/-- `ishft(-1,32-(32))` or 0. -/
def flag (b : Bool) : Res Int := .ok (if b then -1 else 0)

/-- A bit operation on 32 bit integers. -/
def bits (f : BitVec 32 → BitVec 32 → BitVec 32) (x y : Int) : Res Int :=
  fit (f (BitVec.ofInt 32 x) (BitVec.ofInt 32 y)).toInt

/-- `IZ2**IZ1`. -/
def power (x y : Int) : Res Int :=
  if 0 ≤ y then fit (x ^ y.toNat)
  else if x = 0 then .fault
  else if x = 1 then .ok 1
  else if x = -1 then .ok (if y % 2 = 0 then 1 else -1)
  else .ok 0

/-- The binary operators (readlx.F90:1241-1380), with `z2` below `z1` on the stack.  `REALOP` is false for all
32 bit integers (readlx.F90:1199, 1202). -/
def arith (c : Nat) (z2 z1 : Int) : Res Int :=
  match c with
  | 5 => power z2 z1
  | 6 => fit (z2 * z1)
  | 7 => if z1 = 0 then .fault else fit (z2.tdiv z1)
  | 8 => fit (z2 + z1)
  | 9 => fit (z2 - z1)
  | 10 => flag (decide (z2 < z1))
  | 11 => flag (decide (z1 < z2))
  | 12 => flag (decide (z2 = z1))
  | 13 => flag (decide (z2 ≤ z1))
  | 14 => flag (decide (z1 ≤ z2))
  | 15 => flag (decide (z2 ≠ z1))
  | 16 => flag (decide (z2 ≠ z1))
  | 18 => bits (fun a b => a &&& b) z2 z1
  | 19 => bits (fun a b => a ||| b) z2 z1
  | 20 => bits (fun a b => a ^^^ b) z2 z1
  | _ => .err

/-- The result put back on the stack (readlx.F90:1389-1391). -/
def push (st : List Int) : Res Int → Res (List Int)
  | .err => .err
  | .fault => .fault
  | .ok v => .ok (v :: st)

/-- `QLXOPR` (readlx.F90:1163-1392) on a stack of constants, the last one first.  `]` and `:=` want a variable. -/
def qlxopr (c : Nat) (st : List Int) : Res (List Int) :=
  match st with
  | [] => .err
  | z1 :: st1 =>
    if c = 4 then push st1 (fit (-z1))
    else if c = 17 then push st1 (fit (-z1 - 1))
    else
      match st1 with
      | [] => .err
      | z2 :: st2 => if c = 3 then .ok st else push st2 (arith c z2 z1)

/-- Operators applied while `p` (the loops of readlx.F90:1495-1499, 1507-1511, 1520-1524, 1531-1535). -/
def popWhile (p : Nat → Bool) : List Nat → List Int → Res (List Nat × List Int)
  | [], st => .ok ([], st)
  | o :: ops, st =>
    if p o then
      match qlxopr o st with
      | .ok st' => popWhile p ops st'
      | .err => .err
      | .fault => .fault
    else .ok (o :: ops, st)

/-- Not an opening parenthesis, bracket or `$`. -/
def inner (o : Nat) : Bool := o ≠ 22 && o ≠ 23 && o ≠ 0

/-- The end of the treatment of a closing token: the operator that opened must be `want`. -/
def close (want : Nat) (idx : Bool) : Res (List Nat × List Int) → Res (List Nat × List Int)
  | .err => .err
  | .fault => .fault
  | .ok ([], _) => .err
  | .ok (o :: ops, st) =>
    if o = want then
      (if idx then
        match qlxopr 2 st with
        | .ok st' => .ok (ops, st')
        | .err => .err
        | .fault => .fault
      else .ok (ops, st))
    else .err

/-- An operator put on the stack. -/
def open' (c : Nat) : Res (List Nat × List Int) → Res (List Nat × List Int)
  | .err => .err
  | .fault => .fault
  | .ok (ops, st) => .ok (c :: ops, st)

/-- `QLXRPN` (readlx.F90:1477-1543). -/
def qlxrpn (c : Nat) (ops : List Nat) (st : List Int) : Res (List Nat × List Int) :=
  if c = 22 ∨ c = 23 then .ok (c :: ops, st)
  else if c = 1 then close 22 false (popWhile inner ops st)
  else if c = 2 then close 23 true (popWhile inner ops st)
  else if c = 0 then close 0 false (popWhile inner ops st)
  else open' c (popWhile (fun o => decide (qlxpri c < qlxpril o)) ops st)

/-- Tokens: a constant, an operator of the table, the end (`,` or `$`), anything else, or a constant that cannot be
read. -/
inductive Tok where
  | num (v : Int)
  | op (c : Nat)
  | stop
  | bad
  | crash
deriving DecidableEq, Repr

/-- The variables of `QLXXPR` (readlx.F90:1801-1809). -/
structure St where
  st : List Int
  ops : List Nat
  plev : Int
  blev : Int
  unary : Bool

/-- What is wanted at the end (readlx.F90:1889-1895): the value and the tokens left, the last one being put back. -/
def finish (st : List Int) (plev blev : Int) (rest : List Tok) : Res (Int × List Tok) :=
  if 0 < plev ∨ 0 < blev then .err
  else
    match st with
    | [v] => .ok (v, rest)
    | _ => .err

/-- Signs in front of an operand (readlx.F90:1858-1870); 0 is an error. -/
def sign (unary : Bool) (c : Nat) : Nat :=
  if unary then (if c = 8 then 3 else if c = 9 then 4 else if c = 22 ∨ c = 23 then c else 0) else c

/-- The next state after `QLXRPN`. -/
def next (plev blev : Int) (c : Nat) : Res (List Nat × List Int) → Res St
  | .err => .err
  | .fault => .fault
  | .ok (ops, st) => .ok ⟨st, ops, plev, blev, decide (c ≠ 1 ∧ c ≠ 2)⟩

/-- Levels of parentheses and brackets (readlx.F90:1838-1852). -/
def level (up down : Nat) (l : Int) (c : Nat) : Int := if c = up then l + 1 else if c = down then l - 1 else l

/-- One token of the table (readlx.F90:1858-1872). -/
def operator (s : St) (c : Nat) : Res St :=
  if sign s.unary c = 0 then .err
  else next (level 22 1 s.plev c) (level 23 2 s.blev c) c (qlxrpn (sign s.unary c) s.ops s.st)

/-- The end of the expression (readlx.F90:1874-1877). -/
def ending (s : St) (rest : List Tok) : Res (Int × List Tok) :=
  match qlxrpn 0 s.ops s.st with
  | .err => .err
  | .fault => .fault
  | .ok (_, st) => finish st s.plev s.blev rest

/-- The loop of `QLXXPR` (readlx.F90:1810-1888).  Text that ends without `,` or `$` is an error here. -/
def run : List Tok → St → Res (Int × List Tok)
  | [], _ => .err
  | t :: ts, s =>
    if ¬ (s.st.length < 65 ∧ s.ops.length < 30) then .err
    else
      match t with
      | .num v => if s.unary then run ts { s with st := v :: s.st, unary := false } else .err
      | .op c =>
        if level 22 1 s.plev c < 0 ∨ level 23 2 s.blev c < 0 then
          finish s.st (level 22 1 s.plev c) (level 23 2 s.blev c) (t :: ts)
        else
          match operator s c with
          | .err => .err
          | .fault => .fault
          | .ok s' => run ts s'
      | .stop => ending s (t :: ts)
      | .bad => .err
      | .crash => .fault

/-- `QLXXPR` (readlx.F90:1778-1910). -/
def qlxxpr (ts : List Tok) : Res (Int × List Tok) := run ts ⟨[], [0], 0, 0, true⟩

/-- `LISTE` (readlx.F90:1429-1432). -/
def LISTE : List (List Char) :=
  [[')'], [']'], ['U', '+'], ['U', '-'], ['*', '*'], ['*'], ['/'], ['+'], ['-'], ['<'], ['>'], ['=', '='], ['<', '='],
    ['>', '='], ['<', '>'], ['>', '<'], ['N', 'O', 'T'], ['A', 'N', 'D'], ['O', 'R'], ['X', 'O', 'R'], [':', '='],
    ['('], ['[']]

/-- A text without the blanks at its end. -/
def trim (l : List Char) : List Char := (l.reverse.dropWhile (· == ' ')).reverse

/-- What `QLXXPR` takes a token for that is not a number (readlx.F90:1837, 1874): `QLXPRI(TOKEN(1:4))`, or the
first character. -/
def classify (text : List Char) : Tok :=
  if trim (text.take 4) ∈ LISTE then .op (LISTE.idxOf (trim (text.take 4)) + 1)
  else if text.head? = some ',' ∨ text.head? = some '$' then .stop
  else .bad

/-- Letters, without `@` and `_`. -/
def letter (c : Char) : Bool := ('A' ≤ c && c ≤ 'Z') || ('a' ≤ c && c ≤ 'z')

/-- Digits. -/
def digit (c : Char) : Bool := '0' ≤ c && c ≤ '9'

/-- The value of digits in a base. -/
def number (base : Nat) (l : List Char) : Nat := l.foldl (fun a c => base * a + (c.toNat - 48)) 0

/-- What `QLXNUM` and the conversions make of a number: its characters with the point and exponent, whether it is
real, and the characters that follow (readlx.F90:1087-1123, 1708-1719).  `READ` fails on an integer that is too
large; `real` is what it makes of a real number. -/
def convert (real : List Char → Int) (b : List Char) (ilx : Bool) (cs : List Char) : Tok × List Char :=
  if 21 ≤ b.length then (.bad, cs)
  else if ilx = false then
    if cs.head? = some 'B' then
      (if b.any (fun c => decide ('7' < c)) then .bad
        else if number 8 b < 4294967296 then .num (BitVec.ofNat 32 (number 8 b)).toInt else .crash, cs.drop 1)
    else (if number 10 b < 2147483648 then .num (number 10 b) else .crash, cs)
  else if 1 < b.length ∧ (b.getLast? = some '.' ∨ (b.getLast?.map digit) = some true) then (.num (real b), cs)
  else (.bad, cs)

/-- The exponent (readlx.F90:1068-1085). -/
def exponent (b : List Char) (ilx : Bool) (cs : List Char) : List Char × Bool × List Char :=
  if cs.head? = some 'E' then
    let b := b ++ (if ilx then [] else ['.']) ++ ['E']
    match cs.drop 1 with
    | [] => (b, true, [])
    | c :: cs =>
      if digit c || c == '+' || c == '-' then (b ++ c :: cs.takeWhile digit, true, cs.dropWhile digit)
      else (b, true, c :: cs)
  else (b, ilx, cs)

/-- The fraction (readlx.F90:1056-1066). -/
def fraction (b : List Char) (ilx : Bool) (cs : List Char) : List Char × Bool × List Char :=
  if cs.head? = some '.' ∧ ilx = false then
    (b ++ '.' :: (cs.drop 1).takeWhile digit, true, (cs.drop 1).dropWhile digit)
  else (b, ilx, cs)

/-- `QLXNUM` (readlx.F90:1015-1126) from the first character on. -/
def qlxnum (real : List Char → Int) (c : Char) (cs : List Char) : Tok × List Char :=
  let f := fraction (c :: cs.takeWhile digit) (c == '.') (cs.dropWhile digit)
  let e := exponent f.1 f.2.1 f.2.2
  convert real e.1 e.2.1 e.2.2

/-- `QLXTOK` inside an expression (readlx.F90:1616-1723), from the first character that is not a blank on; names are
not those of variables.  A text with quotes is taken for the token it contains. -/
def lexFrom (real : List Char → Int) (c : Char) (cs : List Char) : Tok × List Char :=
  if letter c || c == '@' || c == '_' then
    (classify (c :: cs.takeWhile (fun d => letter d || digit d)), cs.dropWhile (fun d => letter d || digit d))
  else if c == '\'' || c == '"' then
    (classify (cs.takeWhile (· ≠ c)), (cs.dropWhile (· ≠ c)).drop 1)
  else if digit c || c == '.' then qlxnum real c cs
  else if c == '*' then
    (if cs.head? = some '*' then (classify ['*', '*'], cs.drop 1) else (classify ['*'], cs))
  else if c == '<' || c == '>' || c == '=' || c == ':' then
    match cs with
    | d :: ds => if d == '<' || d == '>' || d == '=' then (classify [c, d], ds) else (classify [c], cs)
    | [] => (classify [c], [])
  else (classify [c], cs)

/-- The tokens of a text up to the end of the expression; `n` bounds their number. -/
def tokens (real : List Char → Int) : Nat → List Char → List Tok
  | 0, _ => []
  | n + 1, cs =>
    match cs.dropWhile (· == ' ') with
    | [] => []
    | c :: ds =>
      if (lexFrom real c ds).1 = .stop then [.stop]
      else (lexFrom real c ds).1 :: tokens real n (lexFrom real c ds).2

/-- The value of an expression given as text. -/
def evaluate (real : List Char → Int) (cs : List Char) : Res Int :=
  match qlxxpr (tokens real (cs.length + 1) cs) with
  | .ok (v, _) => .ok v
  | .err => .err
  | .fault => .fault

end Verif.Readlx
