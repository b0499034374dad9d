/-!
# Model of the channel tables of `src/primitives/mgilib2.c` and `src/primitives/client_timeout.c`

Not modelled: the log output, the memory of `intBuffer` (its allocation succeeds), the fields
`msgno_W`, `msgno_R`, `nblks`, `pos`, `fd_data`, `fd_sig`, which nothing reads.
-/

namespace Verif.Mgi

/-- `MAX_CHANNELS` (mgi.h:1). -/
def maxChannels : Nat := 24

/-- `MAX_NAME` (mgi.h:2). -/
def maxName : Nat := 125

/-! ## Time-outs -/

/-- An entry of `ctimeout` (client_timeout.c:32-36). -/
structure Entry where
  chan : Int
  timeout : Int
deriving DecidableEq, Repr, Inhabited

/-- The static variables of client_timeout.c:39-43: the table, and the number of channels. -/
structure Timeouts where
  table : List Entry
  ichan : Nat
deriving DecidableEq, Repr

/-- Static variables start at zero. -/
def Timeouts.start : Timeouts := ⟨List.replicate maxChannels ⟨0, 0⟩, 0⟩

/-- `default_timeout` (client_timeout.c:43). -/
def defaultTimeout : Int := 180

/-- `init_client_table` (client_timeout.c:47-60); `none`: the program exits. -/
def initClient (s : Timeouts) (channel : Int) : Option Timeouts :=
  if s.ichan ≥ maxChannels then none
  else some ⟨s.table.set s.ichan ⟨channel, defaultTimeout⟩, s.ichan + 1⟩

/-- `set_client_timeout` (client_timeout.c:64-86): the first of the `ichan` entries of this
channel is changed; when there is none the entry after the last is written, and not counted.
`none`: that entry lies outside the table. -/
def setClient (s : Timeouts) (fclient timeout : Int) : Option Timeouts :=
  match (s.table.take s.ichan).findIdx? (fun e => e.chan == fclient) with
  | some i => some ⟨s.table.set i ⟨fclient, timeout⟩, s.ichan⟩
  | none =>
    if s.ichan < s.table.length then
      some ⟨s.table.set s.ichan
        ⟨fclient, if timeout > defaultTimeout then defaultTimeout else timeout⟩, s.ichan⟩
    else none

/-- `get_client_timeout` (client_timeout.c:89-102): all the entries are searched, also those not
in use. -/
def getClient (s : Timeouts) (fclient : Int) : Int :=
  match s.table.find? (fun e => e.chan == fclient) with
  | some e => if e.timeout > 3 then e.timeout else -e.timeout
  | none => defaultTimeout

/-- `get_timeout_value` (client_timeout.c:107-118). -/
def getValue (s : Timeouts) (fclient : Int) : Int :=
  match s.table.find? (fun e => e.chan == fclient) with
  | some e => e.timeout
  | none => defaultTimeout

/-! ## Names -/

/-- Loop of `strcopy` (mgilib2.c:176), at position `i`: copy one character; go on unless it is a
blank or `i < charlen` fails.  Result: the characters copied; `none` when a character is read
beyond the `mem` characters in memory after `t`. -/
def copyLoop (mem : List Nat) (charlen : Nat) : Nat → Nat → Option (List Nat)
  | 0, _ => some []
  | fuel + 1, i =>
    match mem[i]? with
    | none => none
    | some c =>
      if c ≠ 32 ∧ i < charlen then (copyLoop mem charlen fuel (i + 1)).map (c :: ·)
      else some [c]

/-- `strcopy` (mgilib2.c:169-182) of the `charlen` characters at `t` into `dest`.  After the
loop `s` is one past the last character copied; both branches of the test that follows step back
and store a zero over that last character.  `none`: a read outside `mem`, or a store outside
`dest`. -/
def strcopy (dest mem : List Nat) (charlen : Nat) : Option (List Nat) :=
  match copyLoop mem charlen (charlen + 1) 0 with
  | none => none
  | some cs =>
    if cs.length ≤ dest.length then
      some (cs.dropLast ++ [0] ++ dest.drop cs.length)
    else none

/-- The C string at the start of an array of characters. -/
def cstr (a : List Nat) : List Nat := a.takeWhile (· ≠ 0)

/-! ## Channels -/

/-- The fields of a `channel` that are used (mgi.h:11-22). -/
structure Chan where
  name : List Nat
  buffer : Bool
  gchannel : Int
deriving DecidableEq, Repr, Inhabited

/-- The static variables of mgilib2.c:59-61. -/
structure Mgi where
  chn : List Chan
  ichan : Nat
deriving DecidableEq, Repr

/-- Static variables start at zero. -/
def Mgi.start : Mgi := ⟨List.replicate maxChannels ⟨List.replicate maxName 0, false, 0⟩, 0⟩

/-- `mgi_init` (mgilib2.c:298-340): the number of the channel, or -1 (`INIT_ERROR`); `none` when
`strcopy` leaves memory.  `mem` is the memory at the name, `lname` the length of the name. -/
def mgiInit (s : Mgi) (mem : List Nat) (lname : Nat) : Option (Mgi × Int) :=
  let s := { s with ichan := s.ichan + 1 }
  if s.ichan ≥ maxChannels then some (s, -1)
  else
    let chan := s.ichan
    if lname < maxName then
      match strcopy (s.chn[chan]?.getD default).name mem lname with
      | none => none
      | some name => some ({ s with chn := s.chn.set chan ⟨name, true, 0⟩ }, (chan : Int))
    else some (s, -1)

/-- Mode in which a channel is connected. -/
inductive Mode where
  | read
  | write
deriving DecidableEq, Repr

/-- `retry_connect` (mgilib2.c:409-423): at most `n` more attempts.  `env` gives the result of
each call of `connect_to_subchannel_by_name`; the modes asked for are recorded. -/
def retryConnect : Nat → List Int → Int → Int × List Mode
  | 0, _, g => (g, [])
  | _ + 1, [], g => (g, [])
  | n + 1, r :: env, g =>
    if g < 0 then
      let x := retryConnect n env r
      (x.1, .write :: x.2)
    else (g, [])

/-- The connection made by `mgi_open` (mgilib2.c:345-387) in mode `R` or `W`: the descriptor and
the modes of all the attempts.  `retries` is `USER_TRY_CONNECT`. -/
def openConnect (retries : Nat) (mode : Mode) : List Int → Int × List Mode
  | [] => (0, [])
  | r :: env =>
    match mode with
    | .write =>
      if r < 0 then
        let x := retryConnect retries env r
        (x.1, .write :: x.2)
      else (r, [.write])
    | .read =>
      if r < 0 then
        let x := retryConnect retries env r
        (x.1, .read :: x.2)
      else (r, [.read])

/-- `mgi_set_retry_connect` (mgilib2.c:391-398). -/
def setRetry (old : Nat) (n : Int) : Nat := if n > 0 ∧ n < 10 then n.toNat else old

/-- `mgi_clos` (mgilib2.c:254-272), without the command sent to the server; `none` when the
channel number is outside the table. -/
def mgiClos (s : Mgi) (chan : Nat) : Option Mgi :=
  match s.chn[chan]? with
  | none => none
  | some c => some { s with chn := s.chn.set chan { c with buffer := false } }

/-- Loop of `mgi_term` (mgilib2.c:278-292) from `chan` to `ichan`; `none` when an entry outside
the table is looked at. -/
def termLoop : Nat → List Chan → Nat → Option (List Chan)
  | 0, chn, _ => some chn
  | n + 1, chn, chan =>
    match chn[chan]? with
    | none => none
    | some c =>
      if cstr c.name ≠ [] ∧ c.gchannel > 0 then
        termLoop n (chn.set chan { c with buffer := false }) (chan + 1)
      else termLoop n chn (chan + 1)

/-- `mgi_term` (mgilib2.c:276-296). -/
def mgiTerm (s : Mgi) : Option Mgi :=
  (termLoop (s.ichan + 1) s.chn 0).map fun chn => { s with chn := chn }

end Verif.Mgi
