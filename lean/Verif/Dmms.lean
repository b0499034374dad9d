/-!
# Dynamic memory blocks (src/primitives/dmms.c)

A block (dmms.c:40-44) begins with a forward and a backward pointer and holds `nitem + 4` further words; the word
`data[0]` points to the word `data[nitem + 1]` and back.  Addresses are counted in words of 8 bytes, so that the block at
`p` has `fwd` at `p`, `bwd` at `p + 1` and `data[i]` at `p + 2 + i`.  `hf` and `hl` are the addresses of the static blocks
`heap_first` and `heap_last` (dmms.c:48-49).

Simplifications: the memory is a function from word addresses to words; the address of a new block is given by the
caller, as malloc decides on it.  The variable BAD_POINTER, the stack (used by OLD_32BIT_CODE only) and the messages are
left out.  A block of which `malloc` fails is an outcome of its own (`refuse`).
-/
namespace Verif.Dmms

/-- The words of the memory, and `dejala` (dmms.c:59): set while a routine is running. -/
structure St where
  mem : Nat → Nat
  busy : Bool

/-- An assignment. -/
def put (m : Nat → Nat) (a v : Nat) : Nat → Nat := fun b => if b = a then v else m b

/-- dmms.c:127-131 and 138-141: the list is made empty.  The variable `init` (53) is set nowhere, so that this happens
in each call. -/
def reset (hf hl : Nat) (m : Nat → Nat) : Nat → Nat :=
  let m := put (put (put (put m (hf + 1) 0) hf hl) (hl + 1) hf) hl 0
  put (put (put (put m (hf + 2) (hf + 3)) (hf + 3) (hf + 2)) (hl + 2) (hl + 3)) (hl + 3) (hl + 2)

/-- dmms.c:179-183: the block is put at the end of the list. -/
def link (hl : Nat) (m : Nat → Nat) (p : Nat) : Nat → Nat :=
  let m := put m (p + 1) (m (hl + 1))
  let m := put m p hl
  let m := put m (hl + 1) p
  put m (m (p + 1)) p

/-- dmms.c:191-192: the two words which point to each other. -/
def guards (m : Nat → Nat) (p nitem : Nat) : Nat → Nat :=
  put (put m (p + 2) (p + 3 + nitem)) (p + 3 + nitem) (p + 2)

/-- dmms.c:203-208 (INITMEM): `con` is written into `data[2 + i]` for `i` below `(nitem - 2) * 8 / 4`.  The division is one
of unsigned numbers; the result for `nitem` below 2 becomes negative in the `int` `lng`. -/
def initmem (m : Nat → Nat) (p nitem con : Nat) : Nat → Nat :=
  fun a => if p + 4 ≤ a ∧ a < p + 4 + (nitem - 2) * 2 then con else m a

/-- dmms.c:104-212 for a heap block which malloc puts at `p`; `none` is the exit of `single` (63-71). -/
def alloc (hf hl : Nat) (con : Option Nat) (s : St) (p nitem : Nat) : Option St :=
  if s.busy then none
  else
    let m := guards (link hl (reset hf hl s.mem) p) p nitem
    some ⟨match con with | none => m | some c => initmem m p nitem c, false⟩

/-- dmms.c:116-119: `malloc` fails and aborts are disabled; the result is NULL and `dejala` stays set. -/
def refuse (s : St) : Option St := if s.busy then none else some ⟨s.mem, true⟩

/-- dmms.c:216-245. -/
def check (m : Nat → Nat) (p : Nat) : Int :=
  if m (p + 1) = 0 then -1
  else if m p = 0 then -2
  else if m (m (p + 2)) ≠ p + 2 then -3
  else 0

/-- dmms.c:249-267 for the heap; `none` is the exit of `single` or the one after a failed check (257-261). -/
def dealloc (s : St) (p : Nat) : Option St :=
  if s.busy then none
  else if check s.mem p < 0 then none
  else
    let m := put s.mem (s.mem (p + 1)) (s.mem p)
    some ⟨put m (m p + 1) (m (p + 1)), false⟩

/-- The loop of mem_check (dmms.c:295-301), at most `fuel` turns; `none` is a loop without end. -/
def walk (m : Nat → Nat) : Nat → Nat → Option Int
  | 0, _ => none
  | fuel + 1, p => if m p = 0 then some 0 else if check m p < 0 then some (check m p) else walk m fuel (m p)

/-- hpcheck (dmms.c:481-487) by mem_check (288-304); the first block is NULL before the first allocation, which is a
fault (`none`). -/
def hpcheck (hf : Nat) (m : Nat → Nat) (fuel : Nat) : Option Int := if m hf = 0 then none else walk m fuel (m hf)

/-- A conversion to a 32-bit `int`. -/
def i32 (x : Int) : Int := (x + 2147483648) % 4294967296 - 2147483648

/-- dmms.c:351: the bytes asked for by hpalloc, converted to `int`. -/
def hpBytes (length : Int) (words8 : Bool) : Int := i32 (8 + length * 4 * (if words8 then 2 else 1))

/-- dmms.c:113. -/
def items (nbytes : Int) : Int := (nbytes + 7).tdiv 8

/-- dmms.c:385-396: the alignment in bytes and the exponent; `none` is the exit of line 391. -/
def caAlign (fpw2 : Int) : Option (Nat × Nat) :=
  if fpw2 < 0 then
    if 1 ≤ -fpw2 ∧ -fpw2 ≤ 3 then some (32, (-fpw2).toNat) else none
  else some (2 ^ fpw2.toNat, fpw2.toNat)

/-- dmms.c:399-401: the address given to the caller, in words; before the division it is an address in bytes. -/
def caPlace (p nbytes pw2 : Nat) : Nat := 8 * (p + 4 + nbytes / 8) / 2 ^ pw2 * 2 ^ pw2 / 8

/-- dmms.c:402-406: the address of the block is written into the words from `data[1]` to the address given. -/
def caFill (m : Nat → Nat) (p q : Nat) : Nat → Nat := fun a => if p + 3 ≤ a ∧ a ≤ q then p else m a

/-- ca_deallc (dmms.c:412-416): `*addr` points to 4-byte words, so that `sizeof(addr)` of them are 32 bytes. -/
def caTarget (m : Nat → Nat) (q : Nat) : Nat := m (q - 4)

/-- bkcheck (dmms.c:476-478): `(*addr) - 4` goes back by 16 bytes. -/
def bkcheck (m : Nat → Nat) (addr : Nat) : Int := check m (addr - 2)

/-- hpdeallc (dmms.c:358-368): 32 bytes back. -/
def hpdeallc (s : St) (addr : Nat) : Option St := dealloc s (addr - 4)

end Verif.Dmms
