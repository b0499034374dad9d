import Verif.ArmnCompress

/-! # Model of the compressor of IEEE fields (`c_armn_compress32`, `c_armn_uncompress32`)

Code: `/repo/src/compresseur/armn_compress_32.c`; caller `/repo/src/fstd98/fstd98.c` 1307-1323, 2433-2438 (data type 133).

Simplifications.
* A field of floats is the function that gives the bits of its elements; the stream is a list of words.  All lengths
  of the code are multiples of four bytes from the start of the stream, so positions are counted in words.
* As in `ArmnCompress`, tokens that do not depend on the writer are listed first and written afterwards.
* `nbits_needed` is computed by the code from the exponent of a float (157, 534) or from a table of logarithms (662);
  the model takes the bit length, which both equal below `2^24`.
* Products of dimensions do not overflow `int`. -/

namespace Verif.Armn32

open Verif

/-! ## Runs of signs -/

/-- A sign as a token of one bit. -/
def bitTok (b : BitVec 8) : Tok := (1, b.setWidth 32)

/-- Lines 843-845: end of the run that begins at `last`; `k` steps are left to the end of the field. -/
def runEnd (f : Nat → BitVec 8) (last : Nat) : Nat → Nat → Nat
  | 0, indx => indx
  | k + 1, indx => if f indx = f last then runEnd f last k (indx + 1) else indx

/-- Lines 848-852 and 861-865: seven signs one by one, fewer at the end. -/
def seqToks (f : Nat → BitVec 8) (npts last : Nat) : List Tok :=
  (1, 0) :: (List.range (if last + 7 > npts then npts - last else 7)).map fun i => bitTok (f (last + i))

/-- Lines 876-878 and 884-886: a count of equal signs. -/
def cntToks (f : Nat → BitVec 8) (last n : Nat) : List Tok :=
  [(1, 1), bitTok (f last), (6, BitVec.ofNat 32 n)]

/-- Lines 856-892: a run of `count` equal signs, `i` of which are done; the tokens and the new `last_indx`. -/
def runToks (f : Nat → BitVec 8) (npts count : Nat) : Nat → Nat → Bool → Nat → Option (List Tok × Nat)
  | 0, _, _, _ => none
  | fuel + 1, i, rep, last =>
    if i < count then
      let lcl := if count - i ≥ 63 then 62 else count - i
      if lcl < 8 then
        (runToks f npts count fuel (i + lcl) rep (last + 7)).map fun r => (seqToks f npts last ++ r.1, r.2)
      else if lcl = 62 then
        if count - i > 256 ∧ rep then
          (runToks f npts count fuel (i + 255) rep (last + 255)).map fun r => ((8, 0xFF#32) :: r.1, r.2)
        else
          (runToks f npts count fuel (i + lcl) true (last + lcl)).map fun r => (cntToks f last lcl ++ r.1, r.2)
      else
        (runToks f npts count fuel (i + lcl) rep (last + lcl)).map fun r => (cntToks f last lcl ++ r.1, r.2)
    else some ([], last)

/-- Lines 842-894: the loop over runs; `indx` is `last_indx + 1` at each turn. -/
def rleToks (f : Nat → BitVec 8) (npts : Nat) : Nat → Nat → Option (List Tok)
  | 0, _ => none
  | fuel + 1, last =>
    if last + 1 ≤ npts then
      let count := runEnd f last (npts - (last + 1)) (last + 1) - last
      if count < 8 then (rleToks f npts fuel (last + 7)).map fun r => seqToks f npts last ++ r
      else
        match runToks f npts count (count + 1) 0 false last with
        | none => none
        | some (ts, last') => (rleToks f npts fuel last').map fun r => ts ++ r
    else some []

/-- The registers at the start of a stream at word `base` (line 839, 504, 690: the first word is cleared). -/
def startWrite (mem : List W) (base : Nat) : Option Writer :=
  (store mem base 0).map fun m => { mem := m, ptr := base, last := 0, space := 32 }

/-- Lines 827-901, `pack1bitRLE`: memory and number of complete words. -/
def pack1bitRLE (f : Nat → BitVec 8) (npts : Nat) (mem : List W) (base : Nat) : Option (List W × Nat) :=
  match rleToks f npts (npts + 1) 0 with
  | none => none
  | some ts =>
    match startWrite mem base with
    | none => none
    | some s => (stuffAll (ts ++ trailer) s).map fun s' => (s'.mem, s'.ptr - base)

/-- `ufld[i + j] = v` for `j < n` (940-943, 948-950). -/
def fill8 (v : BitVec 8) (g : Nat → BitVec 8) (i n : Nat) : Nat → BitVec 8 :=
  fun k => if i ≤ k ∧ k < i + n then v else g k

/-- Lines 924-957: the loop of `unpack1bitRLE`. -/
def unRle (u : W) (mem : List W) (npts : Nat) : Nat → Nat → W → Reader → (Nat → BitVec 8) → Option (Nat → BitVec 8)
  | 0, _, _, _, _ => none
  | fuel + 1, i, lastVal, s, g =>
    if i < npts then
      match extract u mem 1 s with
      | none => none
      | some (seqType, s1) =>
        if seqType = 0 then
          let lim := if i + 7 > npts then npts - i else 7
          match readCells u mem 1 (fun t => t.setWidth 8) ((List.range lim).map (i + ·)) s1 g with
          | none => none
          | some (s2, g2) => unRle u mem npts fuel (i + lim) lastVal s2 g2
        else
          match extract u mem 1 s1 with
          | none => none
          | some (val, s2) =>
            match extract u mem 6 s2 with
            | none => none
            | some (count, s3) =>
              if count = 63 then unRle u mem npts fuel (i + 255) lastVal s3 (fill8 (lastVal.setWidth 8) g i 255)
              else unRle u mem npts fuel (i + count.toNat) val s3 (fill8 (val.setWidth 8) g i count.toNat)
    else some g

/-- The registers at the start of reading at word `base`. -/
def startRead (mem : List W) (base : Nat) : Option Reader :=
  match mem[base]? with
  | none => none
  | some w => some { ptr := base, word := w, avail := 32 }

/-- Lines 904-958, `unpack1bitRLE`. -/
def unpack1bitRLE (u : W) (mem : List W) (base npts : Nat) (g : Nat → BitVec 8) : Option (Nat → BitVec 8) :=
  match startRead mem base with
  | none => none
  | some s => unRle u mem npts (npts + 1) 0 0xFFFFFFFF#32 s g

/-! ## Parallelogram coder for bytes and for words

`packTokensParallelogram_8` (642-750) and `packTokensParallelogram32` (456-565) differ in the element type, in the
width of the container (4 and 5 bits) and in the check of the remaining space (only the second).  Elements are words
here; those of the first are below 256. -/

/-- Lines 496, 682: difference to the prediction. -/
def pDiff (f : Nat → W) (ni k : Nat) : Int := (f k - (f (k - ni) + f (k - 1) - f (k - 1 - ni))).toInt

/-- Lines 521-529, 707-715. -/
def pMax (d : Nat → Int) (cells : List Nat) : Int :=
  match cells with
  | [] => 0
  | c :: _ => cells.foldl (fun m k => if m < (d k).natAbs then (d k).natAbs else m) (d c)

/-- Lines 530-549, 716-738: tokens of a tile. -/
def pTile (d : Nat → Int) (cont : Nat) (cells : List Nat) : List Tok :=
  let nd := bitLen (pMax d cells).toNat
  (cont, BitVec.ofNat 32 nd) :: (if nd = 0 then [] else cells.map fun k => (nd + 1, lowBits (nd + 1) (d k)))

/-- Lines 518-557, 704-742.  `full s nd` is the test of line 550 after a tile that is not constant; the result
`some none` is the early return of line 552. -/
def pTiles (full : Nat → Nat → Bool) (d : Nat → Int) (cont : Nat) : List (List Nat) → Writer → Option (Option Writer)
  | [], s => some (some s)
  | c :: cs, s =>
    match stuffAll (pTile d cont c) s with
    | none => none
    | some s' =>
      if bitLen (pMax d c).toNat ≠ 0 ∧ full s'.ptr (bitLen (pMax d c).toNat) then some none
      else pTiles full d cont cs s'

/-- Lines 506-516, 692-702: container, first row, first column. -/
def pEdge (f : Nat → W) (ni nj nbits cont : Nat) : List Tok :=
  (3, BitVec.ofNat 32 cont) ::
    (((steps 1 ni 1).map fun i => (nbits, f (ftn2c i 1 ni))) ++ ((steps 2 nj 1).map fun j => (nbits, f (ftn2c 1 j ni))))

/-- Lines 456-565, 642-750 with `istep = 3`: memory and number of complete words, or `some none` for no space left. -/
def packPar (full : Nat → Nat → Bool) (f : Nat → W) (ni nj nbits cont : Nat) (mem : List W) (base : Nat) :
    Option (Option (List W × Nat)) :=
  match startWrite mem base with
  | none => none
  | some s =>
    match stuffAll (pEdge f ni nj nbits cont) s with
    | none => none
    | some s1 =>
      match pTiles full (pDiff f ni) cont (tiles ni nj 3 2) s1 with
      | none => none
      | some none => some none
      | some (some s2) => (stuffAll trailer s2).map fun s3 => some (s3.mem, s3.ptr - base)

/-- Line 550. -/
def noSpace (base : Nat) (remaining : Int) (nbits : Nat) (ptr nd : Nat) : Bool :=
  decide (remaining < ((ptr - base) + (1 + (nd + 9 * nbits) / 32) : Nat))

/-- Lines 601-625, 786-810: a tile. -/
def unPTile (u : W) (mem : List W) (cont : Nat) (cells : List Nat) (s : Reader) (d : Nat → Int) :
    Option (Reader × (Nat → Int)) :=
  match extract u mem cont s with
  | none => none
  | some (nd, s1) =>
    if nd = 0 then some (s1, fillCells 0 cells d)
    else readCells u mem (nd.toNat + 1) (signExt (nd.toNat + 1)) cells s1 d

def unPTiles (u : W) (mem : List W) (cont : Nat) :
    List (List Nat) → Reader → (Nat → Int) → Option (Reader × (Nat → Int))
  | [], s, d => some (s, d)
  | c :: cs, s, d =>
    match unPTile u mem cont c s d with
    | none => none
    | some (s', d') => unPTiles u mem cont cs s' d'

/-- Lines 628-636, 813-821; `trunc` is the conversion to the element type. -/
def rebuildW (trunc : W → W) (d : Nat → Int) (ni : Nat) : List Nat → (Nat → W) → (Nat → W)
  | [], g => g
  | k :: ks, g =>
    rebuildW trunc d ni ks (upd g k (trunc (BitVec.ofInt 32 (d k) + (g (k - ni) + g (k - 1) - g (k - 1 - ni)))))

/-- Lines 568-639, 753-824; `g` and `d0` are uninitialised arrays. -/
def unpackPar (trunc : W → W) (u : W) (mem : List W) (base ni nj nbits : Nat) (g : Nat → W) (d0 : Nat → Int) :
    Option (Nat → W) :=
  match startRead mem base with
  | none => none
  | some s =>
    match extract u mem 3 s with
    | none => none
    | some (cont, s1) =>
      match readCells u mem nbits trunc ((steps 1 ni 1).map fun i => ftn2c i 1 ni) s1 g with
      | none => none
      | some (s2, g2) =>
        match readCells u mem nbits trunc ((steps 2 nj 1).map fun j => ftn2c 1 j ni) s2 g2 with
        | none => none
        | some (s3, g3) =>
          match unPTiles u mem cont.toNat (tiles ni nj 3 2) s3 d0 with
          | none => none
          | some (_, d) => some (rebuildW trunc d ni (interior ni nj) g3)

/-- Conversion to `unsigned char`. -/
def trunc8 (w : W) : W := (w.setWidth 8).setWidth 32

/-! ## Compression -/

/-- Line 118. -/
def signOf (w : W) : BitVec 8 := (w >>> 31).setWidth 8
/-- Line 121. -/
def expOf (w : W) : W := (w >>> 23) &&& 0xff#32
/-- Lines 123, 127-131: the leading `nbits` bits of the mantissa (`nbits` at most 23). -/
def manOf (nbits : Nat) (w : W) : W := (w &&& 0x7fffff#32) >>> (23 - nbits)

/-- Lines 119, 133-135. -/
def orAll (fld : Nat → W) (n : Nat) : W := (List.range n).foldl (fun a k => a ||| fld k) 0
def andAll (fld : Nat → W) (n : Nat) : W := (List.range n).foldl (fun a k => a &&& fld k) 0xFFFFFFFF#32

/-- Lines 137-142. -/
def expMin (fld : Nat → W) (n : Nat) : Nat :=
  (List.range n).foldl (fun m k => if (expOf (fld k)).toNat < m then (expOf (fld k)).toNat else m) (expOf (fld 0)).toNat
def expMax (fld : Nat → W) (n : Nat) : Nat :=
  (List.range n).foldl (fun m k => if (expOf (fld k)).toNat > m then (expOf (fld k)).toNat else m) (expOf (fld 0)).toNat

/-- Lines 961-977, `compact_mask_char`: bit `i % 32` of word `i / 32`, `1 + npts / 32` words. -/
def maskWord (f : Nat → BitVec 8) (npts i : Nat) : W :=
  (List.range 32).foldl (fun a b => if 32 * i + b < npts then a ||| ((f (32 * i + b)).setWidth 32 <<< b) else a) 0

def writeMask (f : Nat → BitVec 8) (npts : Nat) (mem : List W) (base : Nat) : Option (List W) :=
  if base + (1 + npts / 32) ≤ mem.length then
    some (mem.take base ++ ((List.range (1 + npts / 32)).map (maskWord f npts)) ++ mem.drop (base + (1 + npts / 32)))
  else none

/-- A length in bytes rounded up to words (184-186, 210-212, 240-242). -/
def toWords (bytes : Nat) : Nat := (bytes + 3) / 4

/-- What the sign part leaves: memory, position behind it, `lng_signe`, code. -/
structure SignOut where
  mem : List W
  pos : Nat
  lng : W
  code : W

/-- Lines 162-192. -/
def signPart (fld : Nat → W) (npts : Nat) (mem : List W) : Option SignOut :=
  if orAll fld npts >>> 31 = andAll fld npts >>> 31 then
    some ⟨mem, 2, 0, if orAll fld npts >>> 31 = 1 then 0x10 else 0⟩
  else
    match pack1bitRLE (fun k => signOf (fld k)) npts mem 3 with
    | none => none
    | some (m1, n) =>
      if 1 + 4 * n > npts / 4 then
        match writeMask (fun k => signOf (fld k)) npts m1 3 with
        | none => none
        | some m2 =>
          (store m2 2 (BitVec.ofNat 32 (4 * toWords (1 + npts / 32)))).map fun m =>
            ⟨m, 3 + toWords (1 + npts / 32), BitVec.ofNat 32 (4 * toWords (1 + npts / 32)), 0x30⟩
      else
        (store m1 2 (BitVec.ofNat 32 (4 * toWords (1 + 4 * n)))).map fun m =>
          ⟨m, 3 + toWords (1 + 4 * n), BitVec.ofNat 32 (4 * toWords (1 + 4 * n)), 0x20⟩

/-- Outcome of the exponent part: refusal (204-208) or memory, position, code. -/
inductive ExpOut where
  | refused
  | ok (mem : List W) (pos : Nat) (code : W)

/-- Lines 152-158. -/
def expBits (fld : Nat → W) (npts : Nat) : Nat := bitLen (expMax fld npts - expMin fld npts)

/-- Lines 144-150: the exponents less their minimum. -/
def expRel (fld : Nat → W) (npts : Nat) (k : Nat) : W := trunc8 (expOf (fld k) - BitVec.ofNat 32 (expMin fld npts))

/-- Lines 196-215. -/
def expPart (fld : Nat → W) (ni nj : Nat) (mem : List W) (pos : Nat) : Option ExpOut :=
  if expBits fld (ni * nj) = 0 then some (.ok mem pos 0)
  else
    match packPar (fun _ _ => false) (expRel fld (ni * nj)) ni nj (expBits fld (ni * nj)) 4 mem (pos + 1) with
    | none => none
    | some none => none
    | some (some (m1, n)) =>
      if 1 + 4 * n > ni * nj then some .refused
      else
        (store m1 pos (BitVec.ofNat 32 (4 * toWords (1 + 4 * n)))).map fun m => .ok m (pos + 1 + toWords (1 + 4 * n)) 8

/-- Lines 94-99 with `zfstlib.h` 50-56. -/
def header32 (nbits : Nat) : W :=
  5#32 ||| (1#32 <<< 4) ||| (3#32 <<< 7) ||| (BitVec.ofNat 32 (nbits % 32) <<< 10) ||| (1#32 <<< 15) ||| (2#32 <<< 18)

/-- Lines 254-257. -/
def ieeeInfo (expBase nbitsNeeded : Nat) (codes : W) : W :=
  (BitVec.ofNat 32 (expBase % 256) <<< 16) ||| (BitVec.ofNat 32 (nbitsNeeded % 256) <<< 8) ||| codes

/-- Outcome of `c_armn_compress32`: -1, or the stream and its length in words. -/
inductive Zip32 where
  | refused
  | ok (mem : List W) (words : Nat)
deriving Repr, DecidableEq

/-- Lines 218-258: mantissas, then the two words in front. -/
def manPart (fld : Nat → W) (ni nj znbits : Nat) (sg : SignOut) (mem : List W) (pos : Nat) (codeE : W) : Option Zip32 :=
  match packPar (noSpace (pos + 1) ((ni * nj * znbits / 32 : Nat) - (pos + 1 : Nat)) (znbits - 9))
      (fun k => manOf (znbits - 9) (fld k)) ni nj (znbits - 9) 5 mem (pos + 1) with
  | none => none
  | some none => some .refused
  | some (some (m1, n)) =>
    match store m1 pos sg.lng with
    | none => none
    | some m2 =>
      match store m2 0 (header32 (znbits - 9)) with
      | none => none
      | some m3 =>
        (store m3 1 (ieeeInfo (expMin fld (ni * nj)) (expBits fld (ni * nj)) (sg.code ||| codeE))).map fun m4 =>
          .ok m4 (pos + 1 + toWords (1 + 4 * n))

/-- Lines 59-275, `c_armn_compress32` for 10 to 32 bits. -/
def compress32 (fld : Nat → W) (ni nj znbits : Nat) (mem : List W) : Option Zip32 :=
  if ni < 16 ∨ nj < 16 then some .refused
  else if znbits < 10 ∨ 32 < znbits then none
  else
    match signPart fld (ni * nj) mem with
    | none => none
    | some sg =>
      match expPart fld ni nj sg.mem sg.pos with
      | none => none
      | some .refused => some .refused
      | some (.ok m p c) => manPart fld ni nj znbits sg m p c

/-! ## Decompression -/

/-- Lines 352-368: signs and the position behind them. -/
def unSigns (u : W) (mem : List W) (npts : Nat) (code : W) (g : Nat → BitVec 8) : Option ((Nat → BitVec 8) × Nat) :=
  if code = 0x20 ∨ code = 0x30 then
    match mem[2]? with
    | none => none
    | some lng => (unpack1bitRLE u mem 3 npts g).map fun g' => (g', 3 + lng.toNat / 4)
  else if code = 0 then some (fun k => if k < npts then 0 else g k, 2)
  else some (fun k => if k < npts then 1 else g k, 2)

/-- Lines 370-384: exponents and the position behind them. -/
def unExps (u : W) (mem : List W) (pos ni nj nb expBase : Nat) (code : W) (g : Nat → W) (d0 : Nat → Int) :
    Option ((Nat → W) × Nat) :=
  if code = 8 ∨ code = 0xC then
    match mem[pos]? with
    | none => none
    | some lng =>
      (unpackPar trunc8 u mem (pos + 1) ni nj nb g d0).map fun g' =>
        (fun k => if k < ni * nj then trunc8 (g' k + BitVec.ofNat 32 expBase) else g' k, pos + 1 + lng.toNat / 4)
  else some (fun k => if k < ni * nj then trunc8 (BitVec.ofNat 32 expBase) else g k, pos)

/-- Lines 395-422: the float from its parts; `23 - nbits` is in range for `nbits` at most 23. -/
def joinParts (codeS : W) (sign : BitVec 8) (exp man : W) (nbits : Nat) : W :=
  (if codeS = 0 then 0 else if codeS = 0x10 then 0x80000000#32 else (sign.setWidth 32) <<< 31) |||
    (exp <<< 23) ||| (man <<< (23 - nbits))

/-- Uninitialised arrays of the decoder. -/
structure Junk where
  sign : Nat → BitVec 8
  exp : Nat → W
  man : Nat → W
  tmpE : Nat → Int
  tmpM : Nat → Int

/-- Lines 285-431, `c_armn_uncompress32`: only the mantissa coder that the compressor uses (`MANTISSE_PACKED`). -/
def uncompress32 (u : W) (j : Junk) (mem : List W) (ni nj : Nat) (out : Nat → W) : Option (Nat → W) :=
  match mem[0]?, mem[1]? with
  | some h, some info =>
    let nbits := bitField h 10 5
    if 23 < nbits ∨ info &&& 3#32 ≠ 0 then none
    else
      match unSigns u mem (ni * nj) (info &&& 0x30#32) j.sign with
      | none => none
      | some (sg, p1) =>
        match unExps u mem p1 ni nj (bitField info 8 8) (info.toNat >>> 16) (info &&& 0xC#32) j.exp j.tmpE with
        | none => none
        | some (ex, p2) =>
          match mem[p2]? with
          | none => none
          | some _ =>
            (unpackPar id u mem (p2 + 1) ni nj nbits j.man j.tmpM).map fun man =>
              fun k => if k < ni * nj then joinParts (info &&& 0x30#32) (sg k) (ex k) (man k) nbits else out k
  | _, _ => none

end Verif.Armn32
