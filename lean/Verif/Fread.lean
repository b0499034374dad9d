/-! # Files of big-endian numbers

Model of src/primitives/fread32.c on a machine with the low byte first.  A buffer and a file are lists of bytes; the exchange
of the bytes of a number by shifts (lines 59 and 94) is written as the reversal of its bytes, which Verif.SwapBuffer shows for
the same expression. -/

namespace Verif.Fread

variable {α : Type}

/-- The bytes of `n` numbers of `k` bytes exchanged in place (fread32.c:58-61, 93-96). -/
def swapN (k : Nat) : Nat → List α → List α
  | 0, l => l
  | n + 1, l => (l.take k).reverse ++ swapN k n (l.drop k)

/-- `n` pairs of words exchanged (fread32.c:136-142). -/
def exch : Nat → List α → List α
  | 0, l => l
  | n + 1, l => (l.drop 4).take 4 ++ l.take 4 ++ exch n (l.drop 8)

/-- `int n4 = (size * nitems) / 4` (fread32.c:47, 82, 118) as the number of passes of the loop: none if it is negative. -/
def cnt (size nitems d : Nat) : Nat :=
  let n := size * nitems % 2 ^ 64 / d % 2 ^ 32
  if n < 2 ^ 31 then n else 0

inductive Width where
  | w16
  | w32
  | w64

/-- What is done to a buffer (fread32.c:58-61, 93-96, 130-142). -/
def swap (w : Width) (size nitems : Nat) (l : List α) : List α :=
  match w with
  | .w16 => swapN 2 (cnt size nitems 2) l
  | .w32 => swapN 4 (cnt size nitems 4) l
  | .w64 => exch (cnt size nitems 4 / 2) (swapN 4 (cnt size nitems 4) l)

/-- The test of the size (fread32.c:51, 86, 122). -/
def badSize (w : Width) (size : Nat) : Bool :=
  match w with
  | .w16 => size % 2 != 0
  | .w32 => size % 4 != 0
  | .w64 => size % 4 != 0

/-- `fread16`, `fread32` and `fread64` (fread32.c:35-148): the buffer, the count (`none` for -1) and what is left of the file. -/
def fread (w : Width) (buf : List α) (size nitems : Nat) (file : List α) : List α × Option Nat × List α :=
  if badSize w size then (buf, none, file)
  else
    let got := file.take (size * nitems)
    (swap w size nitems (got ++ buf.drop got.length), some (got.length / size), file.drop (size * nitems))

/-- `fwrite16`, `fwrite32` and `fwrite64` (fread32.c:152-293) at the end of a file: the buffer, the count and the file. -/
def fwrite (w : Width) (buf : List α) (size nitems : Nat) (file : List α) : List α × Option Nat × List α :=
  if badSize w size then (buf, none, file)
  else
    let out := swap w size nitems buf
    (swap w size nitems out, some nitems, file ++ out.take (size * nitems))

end Verif.Fread
