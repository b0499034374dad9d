/-!
# Model of the data exchange of `src/primitives/gossip_sock.c`

Two levels.

* The loops that move bytes through a socket (`write_ft_nonblocking_socket`,
  `read_ft_nonblocking_socket`, `read_ft_nonblocking_socket_count`), against any sequence of
  outcomes of the system calls they make.
* The record protocol built on these loops (`write_record`, `read_record`), as two processes
  that exchange single bytes over two FIFO channels.  A system call that moves `k` bytes is `k`
  steps of one byte, so the interleavings of the model include every chunking of the kernel.

Not modelled: the connection sequence (LOGIN, EXEC), name resolution, the log output, the
failure of `malloc`.  Products of `int` lengths are integers (no overflow); the theorems bound
them below 2^31.
-/

namespace Verif.Gossip

abbrev Byte := BitVec 8

/-! ## The loops over system calls -/

/-- Outcome of one iteration of the loops: `xfer k`, the call moved `k` bytes (0: the peer has
closed the connection; the kernel never moves more than it was asked to, so `k` is clamped);
`eintr`; `eagain s`, the call would block and the `select` that follows returns `s`; `error`,
any other error. -/
inductive Call where
  | xfer (k : Nat)
  | eintr
  | eagain (iers : Int)
  | error
deriving DecidableEq, Repr

/-- Result of a loop: the value returned (`none` while the loop still waits for the outcome of
a system call), the bytes moved so far, the outcomes not used. -/
structure Moved where
  ret : Option Int
  bytes : List Byte
  calls : List Call
deriving DecidableEq, Repr

/-- `write_ft_nonblocking_socket` (gossip_sock.c:1327-1428), `data` being the `n` bytes at
`ptr`. -/
def writeFt : List Call → List Byte → Moved
  | cs, [] => ⟨some 0, [], cs⟩
  | [], _ :: _ => ⟨none, [], []⟩
  | .xfer k :: cs, d :: ds =>
    match k with
    | 0 => ⟨some (-1), [], cs⟩
    | k' + 1 =>
      let r := writeFt cs (ds.drop k')
      { r with bytes := (d :: ds.take k') ++ r.bytes }
  | .eintr :: cs, d :: ds => writeFt cs (d :: ds)
  | .eagain iers :: cs, d :: ds =>
    if iers < 0 then ⟨some (-1), [], cs⟩
    else if iers = 0 then ⟨some (-1), [], cs⟩
    else writeFt cs (d :: ds)
  | .error :: cs, _ :: _ => ⟨some (-1), [], cs⟩

/-- The loop common to `read_ft_nonblocking_socket` (gossip_sock.c:1493-1594) and
`read_ft_nonblocking_socket_count` (gossip_sock.c:1598-1702): `remaining` bytes still to read,
`total` bytes read, `s` all that the peer sends.  The result of the `select` made before each
`read` (lines 1519 and 1633) is not used by the code.  `final` is the value returned when
nothing remains. -/
def readLoop (final : Nat → Int) : List Call → Nat → Nat → List Byte → Moved
  | cs, 0, total, _ => ⟨some (final total), [], cs⟩
  | [], _ + 1, _, _ => ⟨none, [], []⟩
  | .xfer k :: cs, remaining + 1, total, s =>
    let got := s.take (min k (remaining + 1))
    if got.length = 0 then ⟨some (-1), [], cs⟩
    else
      let r := readLoop final cs (remaining + 1 - got.length) (total + got.length)
        (s.drop got.length)
      { r with bytes := got ++ r.bytes }
  | .eintr :: cs, remaining + 1, total, s => readLoop final cs (remaining + 1) total s
  | .eagain iers :: cs, remaining + 1, total, s =>
    if iers < 0 then ⟨some (-1), [], cs⟩
    else if iers = 0 then ⟨some (-1), [], cs⟩
    else readLoop final cs (remaining + 1) total s
  | .error :: cs, _ + 1, _, _ => ⟨some (-1), [], cs⟩

/-- `read_ft_nonblocking_socket` (gossip_sock.c:1493-1594) for `n >= 0`: returns `remaining`,
which is 0 at the end of the loop. -/
def readFt (cs : List Call) (n : Nat) (s : List Byte) : Moved := readLoop (fun _ => 0) cs n 0 s

/-- `read_ft_nonblocking_socket_count` (gossip_sock.c:1598-1702) for `n >= 0`: returns
`total`. -/
def readFtCount (cs : List Call) (n : Nat) (s : List Byte) : Moved :=
  readLoop (fun t => (t : Int)) cs n 0 s

/-! ## Byte order -/

/-- `swap_2` (gossip.h:7-8) on an `int16_t`. -/
def swap2 (tmp : BitVec 16) : BitVec 16 := (tmp >>> 8) ||| (tmp <<< 8)

/-- `swap_4` (gossip.h:10-11) on an `int32_t`. -/
def swap4 (tmp : BitVec 32) : BitVec 32 :=
  (tmp >>> 24) ||| (tmp <<< 24) ||| ((tmp >>> 8) &&& 0xFF00#32) ||| ((tmp &&& 0xFF00#32) <<< 8)

/-- `swap_8` (gossip.h:13-18) on an `int64_t`. -/
def swap8 (mot : BitVec 64) : BitVec 64 :=
  let tmp1 : BitVec 64 := (mot <<< 32) >>> 32
  let tmp2 : BitVec 64 := mot >>> 32
  let hi : BitVec 64 := ((tmp1 >>> 24) ||| (tmp1 <<< 24) ||| ((tmp1 >>> 8) &&& 0xFF00#64) |||
    ((tmp1 &&& 0xFF00#64) <<< 8)) <<< 32
  let mot1 : BitVec 32 := ((tmp2 >>> 24) ||| (tmp2 <<< 24) ||| ((tmp2 >>> 8) &&& 0xFF00#64) |||
    ((tmp2 &&& 0xFF00#64) <<< 8)).setWidth 32
  hi ||| mot1.setWidth 64

/-- A 2-byte load on a little-endian machine. -/
def load2 (a b : Byte) : BitVec 16 := a.setWidth 16 ||| b.setWidth 16 <<< 8

/-- A 4-byte load on a little-endian machine. -/
def load4 (a b c d : Byte) : BitVec 32 :=
  a.setWidth 32 ||| b.setWidth 32 <<< 8 ||| c.setWidth 32 <<< 16 ||| d.setWidth 32 <<< 24

/-- An 8-byte load on a little-endian machine. -/
def load8 (a b c d e f g h : Byte) : BitVec 64 :=
  (load4 a b c d).setWidth 64 ||| (load4 e f g h).setWidth 64 <<< 32

/-- The bytes in memory, on a little-endian machine, of a value of `n` bytes. -/
def store {w : Nat} (n : Nat) (v : BitVec w) : List Byte :=
  (List.range n).map fun i => v.extractLsb' (8 * i) 8

/-- Loop of `check_swap_records` on `int16_t` elements (gossip_sock.c:1785-1796): `size`
elements at most; bytes that do not make an element stay. -/
def swapAll2 : Nat → List Byte → List Byte
  | n + 1, a :: b :: t => store 2 (swap2 (load2 a b)) ++ swapAll2 n t
  | _, l => l

/-- Loop on `int32_t` elements (gossip_sock.c:1798-1808). -/
def swapAll4 : Nat → List Byte → List Byte
  | n + 1, a :: b :: c :: d :: t => store 4 (swap4 (load4 a b c d)) ++ swapAll4 n t
  | _, l => l

/-- Loop on `int64_t` elements (gossip_sock.c:1809-1815). -/
def swapAll8 : Nat → List Byte → List Byte
  | n + 1, a :: b :: c :: d :: e :: f :: g :: h :: t =>
    store 8 (swap8 (load8 a b c d e f g h)) ++ swapAll8 n t
  | _, l => l

/-- `check_swap_records` (gossip_sock.c:1774-1823); `le` tells a little-endian machine. -/
def checkSwap (le : Bool) (record : List Byte) (size tokensize : Nat) : List Byte :=
  if !le || tokensize == 1 then record
  else
    let record := if tokensize == 2 then swapAll2 size record else record
    if tokensize == 4 then swapAll4 size record
    else if tokensize == 8 then swapAll8 size record
    else record

/-- The four bytes sent by `put_int32_to_channel` (gossip_sock.c:1107-1128): the value,
swapped first on a little-endian machine, as it lies in memory. -/
def tagBytes (le : Bool) (v : BitVec 32) : List Byte :=
  if le then store 4 (swap4 v) else (store 4 v).reverse

/-- The value of `get_int32_from_channel` (gossip_sock.c:1064-1103) from the four bytes read;
when fewer bytes came (time-out, closed connection) the variable is not initialised, the error
is not reported, and the value is `junk`. -/
def tagValue (le : Bool) (junk : BitVec 32) : List Byte → BitVec 32
  | [a, b, c, d] => if le then swap4 (load4 a b c d) else load4 d c b a
  | _ => junk

/-! ## Processes -/

/-- A process that sends and receives bytes.  Each operation has two continuations: the byte
went through, or the socket loop gave up (error, time-out, closed connection). -/
inductive Proc (α : Type) where
  | ret (a : α)
  | put (b : Byte) (ok fail : Proc α)
  | get (ok : Byte → Proc α) (fail : Proc α)

/-- `write_ft_nonblocking_socket` in a process; the continuation learns whether all went. -/
def putBytes {α : Type} : List Byte → (Bool → Proc α) → Proc α
  | [], k => k true
  | b :: bs, k => .put b (putBytes bs k) (k false)

/-- `read_ft_nonblocking_socket` of `n` bytes in a process; the continuation gets the bytes
stored and whether all `n` came. -/
def getBytes {α : Type} : Nat → (List Byte → Bool → Proc α) → Proc α
  | 0, k => k [] true
  | n + 1, k => .get (fun b => getBytes n fun bs ok => k (b :: bs) ok) (k [] false)

/-- `send_ack_nack` (gossip_sock.c:956-977): five bytes, errors only logged. -/
def sendAckNack {α : Type} (status : Bool) (k : Proc α) : Proc α :=
  putBytes (if status then [0x4E#8, 0x41#8, 0x43#8, 0x4B#8, 0#8] else
    [0x41#8, 0x43#8, 0x4B#8, 0#8, 0#8]) fun _ => k

/-- `get_ack_nack` (gossip_sock.c:981-1021): 0 when the first three bytes are `ACK`, -1
otherwise. -/
def getAckNack {α : Type} (k : Int → Proc α) : Proc α :=
  getBytes 5 fun bs ok =>
    if !ok then k (-1)
    else if bs.take 3 = [0x41#8, 0x43#8, 0x4B#8] then k 0 else k (-1)

/-- What `write_record` leaves: its return value, the caller's record, the time-out flag. -/
structure WriteOut where
  ret : Int
  record : List Byte
  timeout : Bool
deriving DecidableEq, Repr

/-- `write_record` (gossip_sock.c:1827-2014) on a machine of byte order `le`.  The four bytes of
the request are read and not compared; the failures of the tags and the final reply are not
looked at. -/
def writeRecord (le : Bool) (record : List Byte) (size tokensize : Nat) (timeout : Bool) :
    Proc WriteOut :=
  getBytes 4 fun _ ok =>
    if !ok then .ret ⟨-1, record, timeout⟩
    else
      let tag := tagBytes le (BitVec.ofNat 32 (size * tokensize))
      putBytes tag fun _ =>
        let swapped := checkSwap le record size tokensize
        putBytes (swapped.take (size * tokensize)) fun ok =>
          if !ok then sendAckNack true (.ret ⟨-1, swapped, true⟩)
          else
            let record := checkSwap le swapped size tokensize
            putBytes tag fun _ => getAckNack fun _ => .ret ⟨0, record, false⟩

/-- `swallow_data` (gossip_sock.c:2018-2032). -/
def swallow {α : Type} (n : Int) (k : Proc α) : Proc α := getBytes n.toNat fun _ _ => k

/-- The pointer returned by `read_record`: `null`; `data buf`, the content of the buffer;
`overflow`, bytes were stored beyond the caller's buffer. -/
inductive Ptr where
  | null
  | data (buf : List Byte)
  | overflow
deriving DecidableEq, Repr

/-- What `read_record` leaves: the pointer, `*length`, the time-out flag, and whether it has
called `free` on the buffer of the caller. -/
structure ReadOut where
  ptr : Ptr
  length : Int
  timeout : Bool
  freed : Bool
deriving DecidableEq, Repr

/-- End of `read_record`, after the second tag `length3` (gossip_sock.c:2132-2191).  `buf` is
the content of the buffer. -/
def readEnd (le : Bool) (records : Option (List Byte)) (length : Int) (tokensize : Nat)
    (length1 length2 length3 : Int) (buf : List Byte) : Proc ReadOut :=
  if length1 ≠ length2 then
    sendAckNack true (.ret ⟨.null, length, false, false⟩)
  else if 0 < length ∧ length * tokensize ≠ length2 then
    sendAckNack true (.ret ⟨.null, length, true, false⟩)
  else if length1 ≠ length3 then
    sendAckNack true (.ret ⟨.null, length, true, records.isSome⟩)
  else
    let buf := checkSwap le buf (length1.toNat / tokensize) tokensize
    sendAckNack false (.ret ⟨.data buf, length2 / tokensize, false, false⟩)

/-- `read_record` (gossip_sock.c:2036-2192) on a machine of byte order `le`.  `records` is the
caller's buffer, `none` for NULL; the part of an allocated buffer beyond the record is left out.
`junk1` and `junk3` are the values of `get_int32_from_channel` when it fails. -/
def readRecord (le : Bool) (records : Option (List Byte)) (length maxlength : Int)
    (tokensize : Nat) (junk1 junk3 : BitVec 32) : Proc ReadOut :=
  let tokensize := if 1 < tokensize then tokensize else 1
  putBytes [0x53#8, 0x45#8, 0x4E#8, 0x44#8] fun _ =>
    getBytes 4 fun t1 _ =>
      let length1 := (tagValue le junk1 t1).toInt
      if length1 = 0 then
        swallow length1 (sendAckNack true (.ret ⟨.null, length, true, false⟩))
      else if maxlength * tokensize < length1 ∧ 0 < maxlength then
        swallow length1 (sendAckNack true (.ret ⟨.null, length, false, false⟩))
      else
        getBytes length1.toNat fun bs ok =>
          let old := records.getD []
          if records.isSome ∧ old.length < bs.length then .ret ⟨.overflow, length, false, false⟩
          else if !ok then
            swallow length1 (sendAckNack true (.ret ⟨.null, length, true, false⟩))
          else
            getBytes 4 fun t3 _ =>
              readEnd le records length tokensize length1 (bs.length : Int)
                (tagValue le junk3 t3).toInt (bs ++ old.drop bs.length)

/-! ## Two processes and two channels -/

/-- The two ends of a connection: `a` sends on `ab` and receives from `ba`, `b` the other way
round. -/
structure Cfg (α β : Type) where
  a : Proc α
  b : Proc β
  ab : List Byte
  ba : List Byte

/-- One byte goes through. -/
inductive Step {α β : Type} : Cfg α β → Cfg α β → Prop where
  | aPut (x ok fail b ab ba) : Step ⟨.put x ok fail, b, ab, ba⟩ ⟨ok, b, ab ++ [x], ba⟩
  | aGet (ok fail b ab x ba) : Step ⟨.get ok fail, b, ab, x :: ba⟩ ⟨ok x, b, ab, ba⟩
  | bPut (a x ok fail ab ba) : Step ⟨a, .put x ok fail, ab, ba⟩ ⟨a, ok, ab, ba ++ [x]⟩
  | bGet (a ok fail x ab ba) : Step ⟨a, .get ok fail, x :: ab, ba⟩ ⟨a, ok x, ab, ba⟩

/-- `n` steps. -/
inductive Steps {α β : Type} : Nat → Cfg α β → Cfg α β → Prop where
  | refl (c) : Steps 0 c c
  | step {n c d e} : Step c d → Steps n d e → Steps (n + 1) c e

/-- Every outcome of a process, whatever it receives and whichever operations fail. -/
inductive Outcome {α : Type} : Proc α → α → Prop where
  | ret (a) : Outcome (.ret a) a
  | putOk {b ok fail a} : Outcome ok a → Outcome (.put b ok fail) a
  | putFail {b ok fail a} : Outcome fail a → Outcome (.put b ok fail) a
  | getOk {ok fail a} (b) : Outcome (ok b) a → Outcome (.get ok fail) a
  | getFail {ok fail a} : Outcome fail a → Outcome (.get ok fail) a

end Verif.Gossip
