/-!
Model of sequential streams: `c_sqrew`, `c_sqeoi`, `c_sqgetw`, `c_sqputw`, `c_sqgets` and `c_sqputs`,
src/primitives/c_baseio.c lines 1413-1582.

One local file, open with attribute STREAM on a descriptor above 0 (`c_getfdsc`, lines 1325-1342, returns it).
The system may move fewer bytes than asked, or fail, at each call.
-/
namespace Verif.Sq

abbrev Byte := UInt8

/-- The file and the position of its descriptor. -/
structure File where
  disk : List Byte
  pos : Nat
deriving DecidableEq, Repr

/-- The answers of the system to the successive transfers of one call: a failure, or the number of bytes that it is ready to move. -/
abbrev Sys := Nat → Option Nat

/-- Overwriting a part of a list of bytes. -/
def put (m : List Byte) (k : Nat) (bs : List Byte) : List Byte := m.take k ++ bs ++ m.drop (k + bs.length)

/-- `read` of at most `n` bytes: at least one if there is one. -/
def File.read (f : File) (k n : Nat) : File × List Byte :=
  let bs := (f.disk.drop f.pos).take (Nat.min (Nat.max k 1) n)
  ({ f with pos := f.pos + bs.length }, bs)

/-- `write`; a gap after the end of the file reads as zeros. -/
def File.write (f : File) (bs : List Byte) : File :=
  { disk := put (f.disk ++ List.replicate (f.pos - f.disk.length) 0) f.pos bs, pos := f.pos + bs.length }

/-- The loop of `c_sqgetw`, lines 1478-1483: call number `i` of the system, `w` words from the beginning of the buffer, `left` bytes
to read.  Returns the bytes left (a failure counts as one more). -/
def getLoop (sys : Sys) : Nat → Nat → File → List Byte → Nat → Nat → File × List Byte × Nat
  | 0, _, f, m, _, left => (f, m, left)
  | fuel + 1, i, f, m, w, left =>
    if left = 0 then (f, m, 0)
    else
      match sys i with
      | none => (f, m, left + 1)
      | some k =>
        let r := f.read k left
        if r.2.length = 0 then (f, m, left)
        else getLoop sys fuel (i + 1) r.1 (put m (4 * w) r.2) (w + r.2.length / 4) (left - r.2.length)

/-- `c_sqgetw`, lines 1462-1485. -/
def getw (sys : Sys) (f : File) (m : List Byte) (n : Nat) : File × List Byte × Int :=
  let r := getLoop sys (4 * n) 0 f m 0 (4 * n)
  (r.1, r.2.1, if r.2.2 = 0 then (n : Int) else -1)

/-- The loop of `c_sqputw`, lines 1513-1518, for the bytes in memory at `buf`; the last transfer is returned as well. -/
def putLoop (sys : Sys) (buf : List Byte) : Nat → Nat → File → Nat → Nat → Nat → File × Nat × Nat
  | 0, _, f, _, left, last => (f, left, last)
  | fuel + 1, i, f, w, left, last =>
    if left = 0 then (f, 0, last)
    else
      match sys i with
      | none => (f, left + 1, last)
      | some k =>
        let bs := (buf.drop (4 * w)).take (Nat.min k left)
        if bs.length = 0 then (f, left, 0)
        else putLoop sys buf fuel (i + 1) (f.write bs) (w + bs.length / 4) (left - bs.length) bs.length

/-- `c_sqputw`, lines 1498-1520. -/
def putw (sys : Sys) (f : File) (buf : List Byte) (n : Nat) : File × Int :=
  let r := putLoop sys buf (4 * n) 0 f 0 (4 * n) 1
  (r.1, if r.2.1 = 0 then ((r.2.2 / 4 : Nat) : Int) else -1)

/-- `c_sqgets`, lines 1535-1547. -/
def gets (sys : Sys) (f : File) (m : List Byte) (n : Nat) : File × List Byte × Int :=
  match sys 0 with
  | none => (f, m, -1)
  | some k =>
    let r := f.read k n
    (r.1, put m 0 r.2, if 0 < r.2.length then (r.2.length : Int) else -1)

/-- `c_sqputs`, lines 1571-1583. -/
def puts (sys : Sys) (f : File) (buf : List Byte) (n : Nat) : File × Int :=
  match sys 0 with
  | none => (f, -1)
  | some k =>
    let bs := buf.take (Nat.min k n)
    (if bs.length = 0 then f else f.write bs, if 0 < bs.length then (bs.length : Int) else -1)

/-- `c_sqrew`, lines 1413-1425. -/
def rew (f : File) : File := { f with pos := 0 }
/-- `c_sqeoi`, lines 1437-1449. -/
def eoi (f : File) : File := { f with pos := f.disk.length }

end Verif.Sq
