import Verif.BitStream

/-! # Model of `compact_integer`, `compact_short`, `compact_char`

Code: `/repo/src/packers/compact_integer.c`.  The three functions share the macros `Pack`, `Unpack`,
`constructHeader`; they differ in the element type, modelled by the element width `k` (32, 16, 8).
Element counts, strides and offsets are natural numbers (the `int` product `intCount*stride` is
assumed not to overflow).  The packed and unpacked arrays are distinct objects.  Token widths above
32 (macro `discard`) are outside the model (`none`). -/

namespace Verif

/-- How a token is made from an element (`compact_integer.c` 76, 85, 109, 119).
`raw`: no header, element plus `positiveMask`; `rel`: header, distance to the minimum, shifted;
for signed elements the shift of line 109 is arithmetic. -/
inductive TokKind where
  | raw (positiveMask : W)
  | rel (signed : Bool) (min : W) (shift : Nat)
deriving Repr, DecidableEq

def TokKind.tok : TokKind → W → W
  | .raw m, x => x + m
  | .rel true min sh, x => (x - min).sshiftRight sh
  | .rel false min sh, x => (x - min) >>> sh

/-- `compact_integer.c` 103-125, macro `packBit` (both loops). `i` is the loop index divided by the stride. -/
def packLoop {k : Nat} (src : List (BitVec k)) (stride bits : Nat) (kind : TokKind) (mask : W) :
    Nat → Nat → Writer → Option Writer
  | 0, _, s => some s
  | n+1, i, s =>
    match src[i * stride]? with
    | none => none
    | some x =>
      match stuff (kind.tok (x.setWidth 32) &&& mask) bits s with
      | none => none
      | some s' => packLoop src stride bits kind mask n (i+1) s'

/-- `compact_integer.c` 69-90, macro `pack32Bit`: whole words, no mask. -/
def pack32Loop {k : Nat} (src : List (BitVec k)) (stride : Nat) (kind : TokKind) :
    Nat → Nat → Writer → Option Writer
  | 0, _, s => some s
  | n+1, i, s =>
    match src[i * stride]? with
    | none => none
    | some x =>
      match store s.mem s.ptr (kind.tok (x.setWidth 32)) with
      | none => none
      | some m => pack32Loop src stride kind n (i+1) { s with mem := m, ptr := s.ptr + 1 }

/-- `compact_integer.c` 166-170: final partial word. -/
def finish (s : Writer) : Option (List W) :=
  if s.space < 32 then
    match s.mem[s.ptr]? with
    | none => none
    | some w => store s.mem s.ptr ((s.last <<< s.space) ||| (w &&& ~~~((-1#32) <<< s.space)))
  else some s.mem

/-- `compact_integer.c` 140-153: registers at the start of packing at bit position `off`. -/
def startWriter (dst : List W) (off : Nat) : Option Writer :=
  let space := 32 - off % 32
  if space = 32 then some { mem := dst, ptr := off / 32, last := 0, space := space }
  else match dst[off / 32]? with
    | none => none
    | some w => some { mem := dst, ptr := off / 32, last := w >>> space, space := space }

/-- `compact_integer.c` 136-174, macro `Pack`. -/
def pack {k : Nat} (src : List (BitVec k)) (n stride bits off : Nat) (kind : TokKind) (mask : W)
    (dst : List W) : Option (List W) :=
  match startWriter dst off with
  | none => none
  | some s =>
    match (if s.space = 32 ∧ bits = 32 then pack32Loop src stride kind n 0 s
           else packLoop src stride bits kind mask n 0 s) with
    | none => none
    | some s' => finish s'

/-- How an element is rebuilt from a token (`compact_integer.c` 281, 298). -/
inductive UntokKind where
  | raw (positiveMask : W)
  | rel (min : W) (shift : Nat)
deriving Repr, DecidableEq

def UntokKind.val : UntokKind → W → W
  | .raw m, t => t + -m
  | .rel min sh, t => (t <<< sh) + min

/-- `compact_integer.c` 266-300: the loops of macro `Unpack`; `out` is the unpacked array. -/
def unpackLoop {k : Nat} (u : W) (mem : List W) (stride size : Nat) (kind : UntokKind) :
    Nat → Nat → Reader → List (BitVec k) → Option (List (BitVec k))
  | 0, _, _, out => some out
  | n+1, i, s, out =>
    match extract u mem size s with
    | none => none
    | some (tok, s') =>
      if i * stride < out.length then
        unpackLoop u mem stride size kind n (i+1) s' (out.set (i * stride) ((kind.val tok).setWidth k))
      else none

/-- `compact_integer.c` 249-252, 267: registers at the start of unpacking at bit position `off`. -/
def startReader (mem : List W) (off : Nat) : Option Reader :=
  match mem[off / 32]? with
  | none => none
  | some w => some { ptr := off / 32, word := w <<< (off % 32), avail := 32 - off % 32 }

/-- `compact_integer.c` 245-303, macro `Unpack`. -/
def unpack {k : Nat} (u : W) (mem : List W) (n stride size off : Nat) (kind : UntokKind)
    (out : List (BitVec k)) : Option (List (BitVec k)) :=
  match startReader mem off with
  | none => none
  | some s => unpackLoop u mem stride size kind n 0 s out

/-! ## The entry points -/

/-- `compact_integer.c` 205-209 and 478-483: number of bits of an unsigned value (the halving loop). -/
def bitLen (x : Nat) : Nat := if x = 0 then 0 else bitLen (x / 2) + 1
decreasing_by omega

/-- Comparison used by `FindMinMax` (39-56): elements are `int` or unsigned. -/
def elemLt (signed : Bool) (x y : W) : Bool := if signed then x.slt y else x.ult y

/-- `compact_integer.c` 39-56, macro `FindMinMax` (elements after the first). -/
def findMinMax (signed : Bool) : List W → W × W → W × W
  | [], mm => mm
  | x :: xs, (mn, mx) =>
    findMinMax signed xs (if elemLt signed x mn then (x, mx) else if elemLt signed mx x then (mn, x) else (mn, mx))

/-- The strided elements as words; `none` if one is out of bounds. -/
def gather {k : Nat} (src : List (BitVec k)) (stride : Nat) : Nat → Nat → Option (List W)
  | 0, _ => some []
  | n+1, i =>
    match src[i * stride]?, gather src stride n (i+1) with
    | some x, some r => some (x.setWidth 32 :: r)
    | _, _ => none

/-- `compact_integer.c` 411, 488: `(uint32_t)(~0) >> (wordSize - bits)`; `u` is what the machine gives
for a shift count of 32 or more (undefined in C). -/
def cleanup (u : W) (bits : Int) : W :=
  if 1 ≤ bits ∧ bits ≤ 32 then (BitVec.allOnes 32) >>> (32 - bits).toNat else u

/-- The four header words (226-229). -/
structure CIHeader where
  word0 : W
  count : W
  min : W
  max : W
deriving Repr, DecidableEq

/-- header fields `numOfBitsPerToken` and `SHIFT` (bit fields of 333-335) -/
def CIHeader.tokenSize (h : CIHeader) : Nat := h.word0.toNat % 64
def CIHeader.shift (h : CIHeader) : Nat := h.word0.toNat / 64 % 64

/-- `compact_integer.c` 186-231, macro `constructHeader`: returns the header, the token width and the
shift.  `bits` is `-1` for automatic width.  The two ways of computing `maxRange` (193-201) agree modulo 2^32. -/
def constructHeader (signed : Bool) (xs : List W) (bits : Int) : Option (CIHeader × Nat × Nat) :=
  match xs with
  | [] => none
  | x :: rest =>
    let (mn, mx) := findMinMax signed rest (x, x)
    let need := bitLen (mx - mn).toNat
    let (b, sh) := if bits = -1 then (need, 0) else (bits.toNat, need - bits.toNat)
    some ({ word0 := 0xFD000000#32 ||| (BitVec.ofNat 32 sh <<< 6) ||| BitVec.ofNat 32 b,
            count := BitVec.ofNat 32 xs.length, min := mn, max := mx }, b, sh)

/-- `compact_integer.c` 317-570, opCode 1 (`signed = false`) or 3 (`signed = true`): packing.
`u` is the value of the out-of-range shift at line 411.  Result: returned width, header, packed array.
Automatic width without header of a signed array is not modelled (`none`). -/
def compactIntegerPack (u : W) (signed header : Bool) (src : List W) (dst : List W)
    (n : Nat) (bits : Int) (off stride : Nat) : Option (Int × Option CIHeader × List W) :=
  if bits = 0 then some (0, none, dst)
  else if ¬ (-1 ≤ bits ∧ bits ≤ 32) then none
  else
    match gather src stride n 0 with
    | none => none
    | some xs =>
      if header then
        match constructHeader signed xs bits with
        | none => none
        | some (h, b, sh) =>
          (pack src n stride b off (.rel signed h.min sh) (cleanup u bits) dst).map fun d => (b, some h, d)
      else if bits = -1 then
        if signed then none
        else match xs with
          | [] => none
          | x :: rest =>
            let b := bitLen (rest.foldl (· ||| ·) x).toNat
            (pack src n stride b off (.raw 0) (cleanup u b) dst).map fun d => (b, none, d)
      else
        let pm : W := if signed then 1#32 <<< (bits.toNat - 1) else 0
        (pack src n stride bits.toNat off (.raw pm) (cleanup u bits) dst).map fun d => (bits, none, d)

/-- `compact_integer.c` 317-570, opCode 2 or 4: unpacking. -/
def compactIntegerUnpack (u : W) (signed : Bool) (out : List W) (header : Option CIHeader)
    (mem : List W) (n : Nat) (bits : Int) (off stride : Nat) : Option (Int × List W) :=
  if bits = 0 then some (0, out)
  else match header with
    | some h =>
      (unpack u mem h.count.toNat stride h.tokenSize off (.rel h.min h.shift) out).map fun o => (bits, o)
    | none =>
      if ¬ (1 ≤ bits ∧ bits ≤ 32) then none
      else
        let pm : W := if signed then 1#32 <<< (bits.toNat - 1) else 0
        (unpack u mem n stride bits.toNat off (.raw pm) out).map fun o => (bits, o)

/-- `compact_integer.c` 592-810 (`compact_short`, opCode 5, `k = 16`) and 830-1048 (`compact_char`,
opCode 9, `k = 8`), headerless packing with a given width. -/
def compactNarrowPack {k : Nat} (u : W) (src : List (BitVec k)) (dst : List W)
    (n : Nat) (bits : Nat) (off stride : Nat) : Option (Int × List W) :=
  if bits = 0 then some (0, dst)
  else if 32 < bits then none
  else (pack src n stride bits off (.raw 0) (cleanup u bits) dst).map fun d => (bits, d)

/-- Same functions, opCode 6 and 10: headerless unpacking. -/
def compactNarrowUnpack {k : Nat} (u : W) (out : List (BitVec k)) (mem : List W)
    (n : Nat) (bits : Nat) (off stride : Nat) : Option (Int × List (BitVec k)) :=
  if bits = 0 then some (0, out)
  else (unpack u mem n stride bits off (.raw 0) out).map fun o => (bits, o)

end Verif
