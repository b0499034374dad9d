import Verif.CompactInteger

/-! # Model of the field compressor (`armn_compress`)

Code: `/repo/src/compresseur/c_zfstlib.c`, token macros of `/repo/include/bitPacking.h`.

Simplifications.
* An array of `unsigned short` is a function of its index; `shorts` is the little-endian view of an array
  of words.  Words outside the array are never looked at (the properties say so).
* The packers call `stuff` with arguments that do not depend on the writer registers; the model first
  lists these arguments (width, token) in loop order and then runs `stuff` over the list.
* `fastlog` (83-88) and the `log` of line 748 are computed in floating point by the code; the model uses
  the bit length of the integer, which is what the formula `1 + log2(i + 0.5)` truncates to.
* The first word (`_fstzip` structure) is `hdr`. -/

namespace Verif

/-- A token with its width. -/
abbrev Tok := Nat × W

/-- Successive `stuff` calls. -/
def stuffAll : List Tok → Writer → Option Writer
  | [], s => some s
  | (w, t) :: ts, s =>
    match stuff t w s with
    | none => none
    | some s' => stuffAll ts s'

/-- Values of a loop variable: `for (a = a0; a <= stop; a += step)`. -/
def steps (a stop step : Nat) : List Nat :=
  if step = 0 ∨ stop < a then [] else a :: steps (a + step) stop step
termination_by stop + 1 - a
decreasing_by omega

/-- `lcl_n`, `lcl_m` (lines 500, 506, 731, 735): `(a + istep - 1) >= stop ? stop - a : istep - 1`. -/
def lclCount (a stop istep : Nat) : Nat := if a + istep - 1 ≥ stop then stop - a else istep - 1

/-- `zfstlib.h` 26, macro `FTN2C`. -/
def ftn2c (i j ni : Nat) : Nat := ni * (j - 1) + i - 1

/-- Indices of the cells of the tile at `(i, j)`, in loop order (lines 507-511, 541-545, 553-557, …). -/
def tileCells (ni nj istep i j : Nat) : List Nat :=
  (List.range (lclCount j nj istep + 1)).flatMap fun n =>
    (List.range (lclCount i ni istep + 1)).map fun m => ftn2c (i + m) (j + n) ni

/-- The tiles, in loop order (lines 498-501 with `a0 = 1`, 730-732 with `a0 = 2`). -/
def tiles (ni nj istep a0 : Nat) : List (List Nat) :=
  (steps a0 nj istep).flatMap fun j => (steps a0 ni istep).map fun i => tileCells ni nj istep i j

/-! ## Minimum method -/

/-- lines 504-515: minimum and maximum of a tile. -/
def tileMin (f : Nat → BitVec 16) (cells : List Nat) : Nat :=
  match cells with
  | [] => 0
  | c :: _ => cells.foldl (fun m k => if m > (f k).toNat then (f k).toNat else m) (f c).toNat

def tileMax (f : Nat → BitVec 16) (cells : List Nat) : Nat :=
  match cells with
  | [] => 0
  | c :: _ => cells.foldl (fun m k => if m < (f k).toNat then (f k).toNat else m) (f c).toNat

/-- lines 516-532 (and 742-753): bits needed for a magnitude, 16 being recoded as 15. -/
def needRaw (v : Nat) : Nat :=
  if v = 0 then 0 else if v < 256 then bitLen v else if 65535 < v then bitLen v else 8 + bitLen (v / 256)

def need (v : Nat) : Nat := if needRaw v = 16 then 15 else needRaw v

/-- lines 503-563: tokens of one tile. -/
def minTile (f : Nat → BitVec 16) (nbits : Nat) (cells : List Nat) : List Tok :=
  let mn := tileMin f cells
  let nd := need (tileMax f cells - mn)
  (4, BitVec.ofNat 32 nd) ::
    (if nd = 0 then [(nbits, BitVec.ofNat 32 mn)]
     else if nd = 15 then cells.map fun k => (16, (f k).setWidth 32)
     else (nbits, BitVec.ofNat 32 mn) :: cells.map fun k => (nd, BitVec.ofNat 32 ((f k).toNat - mn)))

/-- lines 568-570 and 783-785. -/
def trailer : List Tok := [(16, 0), (16, 0)]

/-- lines 493-497 / 712-716: header in word 0, word 1 cleared, registers on word 1; then all tokens.
Result: the buffer and the number of complete words (`cur - z`); `*zlng = 1 + 4 * (cur - z)`. -/
def packTokens (hdr : W) (toks : List Tok) (z : List W) : Option (List W × Nat) :=
  match store z 0 hdr with
  | none => none
  | some z1 =>
    match store z1 1 0 with
    | none => none
    | some z2 => (stuffAll (toks ++ trailer) { mem := z2, ptr := 1, last := 0, space := 32 }).map fun s => (s.mem, s.ptr)

/-- lines 469-588, `packTokensMinimum`. -/
def packMinimum (hdr : W) (f : Nat → BitVec 16) (ni nj nbits istep : Nat) (z : List W) : Option (List W × Nat) :=
  packTokens hdr ((tiles ni nj istep 1).flatMap (minTile f nbits)) z

/-- `a[k] = v` -/
def upd {α : Type} (g : Nat → α) (k : Nat) (v : α) : Nat → α := fun x => if x = k then v else g x

/-- read one token per cell and store `val tok` (loops of 622-626, 631-637, 837-844, 849-856) -/
def readCells {α : Type} (u : W) (mem : List W) (w : Nat) (val : W → α) :
    List Nat → Reader → (Nat → α) → Option (Reader × (Nat → α))
  | [], s, g => some (s, g)
  | k :: ks, s, g =>
    match extract u mem w s with
    | none => none
    | some (tok, s') => readCells u mem w val ks s' (upd g k (val tok))

/-- store the same value in every cell (613-617, 828-832) -/
def fillCells {α : Type} (v : α) : List Nat → (Nat → α) → (Nat → α)
  | [], g => g
  | k :: ks, g => fillCells v ks (upd g k v)

/-- lines 608-639: one tile of `unpackTokensMinimum`. -/
def unMinTile (u : W) (mem : List W) (nbits : Nat) (cells : List Nat) (s : Reader) (g : Nat → BitVec 16) :
    Option (Reader × (Nat → BitVec 16)) :=
  match extract u mem 4 s with
  | none => none
  | some (nd, s1) =>
    if nd = 0 then
      match extract u mem nbits s1 with
      | none => none
      | some (mn, s2) => some (s2, fillCells (mn.setWidth 16) cells g)
    else if nd = 15 ∨ nd = 16 then readCells u mem 16 (fun t => t.setWidth 16) cells s1 g
    else
      match extract u mem nbits s1 with
      | none => none
      | some (mn, s2) => readCells u mem nd.toNat (fun t => (t.setWidth 16) + (mn.setWidth 16)) cells s2 g

def unMinTiles (u : W) (mem : List W) (nbits : Nat) :
    List (List Nat) → Reader → (Nat → BitVec 16) → Option (Reader × (Nat → BitVec 16))
  | [], s, g => some (s, g)
  | c :: cs, s, g =>
    match unMinTile u mem nbits c s g with
    | none => none
    | some (s', g') => unMinTiles u mem nbits cs s' g'

/-- lines 599-604, 794-805: registers at the start of decoding. -/
def startDecode (mem : List W) : Option Reader :=
  match mem[1]? with
  | none => none
  | some w => some { ptr := 1, word := w, avail := 32 }

/-- lines 593-642, `unpackTokensMinimum`. -/
def unpackMinimum (u : W) (mem : List W) (ni nj nbits istep : Nat) (g : Nat → BitVec 16) : Option (Nat → BitVec 16) :=
  match startDecode mem with
  | none => none
  | some s => (unMinTiles u mem nbits (tiles ni nj istep 1) s g).map (·.2)

/-! ## Parallelogram method -/

/-- lines 679-696: differences to the parallelogram prediction (zero on the first row and column). -/
def parDiff (f : Nat → BitVec 16) (ni k : Nat) : Int :=
  (f k).toNat - ((f (k - ni)).toNat + (f (k - 1)).toNat - (f (k - 1 - ni)).toNat)

/-- the interior cells `(i, j)`, `i, j ≥ 2`, in loop order (691-693, 861-862) -/
def interior (ni nj : Nat) : List Nat :=
  (steps 2 nj 1).flatMap fun j => (steps 2 ni 1).map fun i => ftn2c i j ni

/-- lines 698-710: width of the field that holds `nbits_needed`. -/
def container (f : Nat → BitVec 16) (ni nj nbits : Nat) : Nat :=
  if 15 ≤ nbits ∧ (interior ni nj).any (fun k => decide (65535 < (parDiff f ni k).natAbs)) then 5 else 4

/-- lines 733-741 -/
def tileAbsMax (f : Nat → BitVec 16) (ni : Nat) (cells : List Nat) : Int :=
  match cells with
  | [] => 0
  | c :: _ => cells.foldl (fun m k => if m < (parDiff f ni k).natAbs then (parDiff f ni k).natAbs else m) (parDiff f ni c)

/-- lines 763, 774: `d & ~((-1) << w)` -/
def lowBits (w : Nat) (d : Int) : W := (BitVec.ofInt 32 d) &&& ~~~((-1#32) <<< w)

/-- lines 733-779: tokens of one tile. -/
def parTile (f : Nat → BitVec 16) (ni cont : Nat) (cells : List Nat) : List Tok :=
  let nd := need (tileAbsMax f ni cells).toNat
  (cont, BitVec.ofNat 32 nd) ::
    (if nd = 0 then []
     else if nd = 15 then cells.map fun k => (17, lowBits 17 (parDiff f ni k))
     else cells.map fun k => (nd + 1, lowBits (nd + 1) (parDiff f ni k)))

/-- lines 718-781 -/
def parTokens (f : Nat → BitVec 16) (ni nj nbits istep : Nat) : List Tok :=
  let cont := container f ni nj nbits
  (3, BitVec.ofNat 32 cont) ::
    ((steps 1 ni 1).map fun i => (nbits, (f (ftn2c i 1 ni)).setWidth 32)) ++
    ((steps 2 nj 1).map fun j => (nbits, (f (ftn2c 1 j ni)).setWidth 32)) ++
    (tiles ni nj istep 2).flatMap (parTile f ni cont)

/-- lines 646-789, `packTokensParallelogram`. -/
def packParallelogram (hdr : W) (f : Nat → BitVec 16) (ni nj nbits istep : Nat) (z : List W) : Option (List W × Nat) :=
  packTokens hdr (parTokens f ni nj nbits istep) z

/-- lines 841-842, 853-854: sign extension of a `w`-bit token (`(int) << (32-w) >> (32-w)`). -/
def signExt (w : Nat) (t : W) : Int := ((t <<< (32 - w)).sshiftRight (32 - w)).toInt

/-- lines 824-857: one tile of `unpackTokensParallelogram`. -/
def unParTile (u : W) (mem : List W) (cont : Nat) (cells : List Nat) (s : Reader) (d : Nat → Int) :
    Option (Reader × (Nat → Int)) :=
  match extract u mem cont s with
  | none => none
  | some (nd, s1) =>
    if nd = 0 then some (s1, fillCells 0 cells d)
    else if nd = 15 ∨ nd = 16 then readCells u mem 17 (signExt 17) cells s1 d
    else readCells u mem (nd.toNat + 1) (signExt (nd.toNat + 1)) cells s1 d

def unParTiles (u : W) (mem : List W) (cont : Nat) :
    List (List Nat) → Reader → (Nat → Int) → Option (Reader × (Nat → Int))
  | [], s, d => some (s, d)
  | c :: cs, s, d =>
    match unParTile u mem cont c s d with
    | none => none
    | some (s', d') => unParTiles u mem cont cs s' d'

/-- line 867: `ufld[k22] = ufld_tmp[k22] + (ufld[k21] + ufld[k12] - ufld[k11])`, stored in 16 bits. -/
def rebuild (d : Nat → Int) (ni : Nat) : List Nat → (Nat → BitVec 16) → (Nat → BitVec 16)
  | [], g => g
  | k :: ks, g =>
    rebuild d ni ks (upd g k (BitVec.ofInt 16 (d k + ((g (k - ni)).toNat + (g (k - 1)).toNat - (g (k - 1 - ni)).toNat))))

/-- lines 792-872, `unpackTokensParallelogram`; `d0` is the uninitialised `ufld_tmp`. -/
def unpackParallelogram (u : W) (mem : List W) (ni nj nbits istep : Nat) (g : Nat → BitVec 16) (d0 : Nat → Int) :
    Option (Nat → BitVec 16) :=
  match startDecode mem with
  | none => none
  | some s =>
    match extract u mem 3 s with
    | none => none
    | some (cont, s1) =>
      match readCells u mem nbits (fun t => t.setWidth 16) ((steps 1 ni 1).map fun i => ftn2c i 1 ni) s1 g with
      | none => none
      | some (s2, g2) =>
        match readCells u mem nbits (fun t => t.setWidth 16) ((steps 2 nj 1).map fun j => ftn2c 1 j ni) s2 g2 with
        | none => none
        | some (s3, g3) =>
          match unParTiles u mem cont.toNat (tiles ni nj istep 2) s3 d0 with
          | none => none
          | some (_, d) => some (rebuild d ni (interior ni nj) g3)

/-! ## Entry point -/

/-- lines 108-110: exchange of the two halves of a word. -/
def swapHalves (w : W) : W := (w >>> 16) ||| (w <<< 16)

/-- lines 105-112: the first `(1 + ni*nj)/2` words are swapped if `swapStream` is 1. -/
def swapField (swap : Bool) (fld : List W) (ni nj : Nat) : List W :=
  if swap = false then fld else
  (fld.take ((1 + ni * nj) / 2)).map swapHalves ++ fld.drop ((1 + ni * nj) / 2)

/-- `(unsigned short *) fld` on a little-endian machine. -/
def shorts (fld : List W) (k : Nat) : BitVec 16 :=
  let w := fld.getD (k / 2) 0
  if k % 2 = 0 then w.setWidth 16 else (w >>> 16).setWidth 16

/-- An array of `unsigned short` read as `n` words (little endian). -/
def wordsOf (g : Nat → BitVec 16) (n : Nat) : List W :=
  (List.range n).map fun i => ((g (2 * i + 1)).setWidth 32 <<< 16) ||| (g (2 * i)).setWidth 32

/-- lines 224-231 with `zfstlib.h` 50-56: the header word (little-endian bit fields). -/
def zipHeader (pred degree step nbits levels : Nat) : W :=
  BitVec.ofNat 32 (pred % 16) ||| (BitVec.ofNat 32 (degree % 8) <<< 4) ||| (BitVec.ofNat 32 (step % 8) <<< 7) |||
    (BitVec.ofNat 32 (nbits % 32) <<< 10) ||| (BitVec.ofNat 32 (levels % 8) <<< 15)

/-- `memcpy(fld, z, 1 + 4*n)`: `n` words and the first byte of the next one. -/
def copyOut (fld z : List W) (n : Nat) : Option (List W) :=
  match fld[n]?, z[n]? with
  | some a, some b => some (z.take n ++ ((a &&& 0xFFFFFF00#32) ||| (b &&& 0xFF#32)) :: fld.drop (n + 1))
  | _, _ => none

/-- Outcome of `armn_compress(…, COMPRESS)`: the returned length (-1 for a refusal) and the field. -/
structure ZipOut where
  ret : Int
  fld : List W
deriving Repr, DecidableEq

/-- lines 116-133, 146-165: keep the result only if it is shorter. -/
def keepIfShorter (swap : Bool) (swapped : List W) (ni nj nk : Nat) (z : List W) (n : Nat) : Option ZipOut :=
  if 1 + 4 * n ≥ 1 + ni * nj * nk * 16 / 8 then some { ret := -1, fld := swapField swap swapped ni nj }
  else (copyOut swapped z n).map fun f => { ret := 1 + 4 * n, fld := f }

/-- lines 67-168, `armn_compress` with `COMPRESS`.  `swap` is `swapStream`,
`level` is `fstcompression_level` (0 = FAST, 1 = BEST);
`z` is the content of a fresh buffer of `ni*nj*nk` words. -/
def armnCompress (swap : Bool) (level : Nat) (fld : List W) (ni nj nk nbits : Nat) (z : List W) : Option ZipOut :=
  if nbits > 16 ∨ ni = 1 ∨ nj = 1 then some { ret := -1, fld := fld }
  else
    let sw := swapField swap fld ni nj
    if level = 0 ∨ ni < 16 ∨ nj < 16 ∨ nbits ≤ 4 then
      match packMinimum (zipHeader 3 0 5 nbits 1) (shorts sw) ni nj nbits 5 z with
      | none => none
      | some (z', n) => keepIfShorter swap sw ni nj nk z' n
    else
      match packParallelogram (zipHeader 4 1 3 nbits 1) (shorts sw) ni nj nbits 3 z with
      | none => none
      | some (z', n) => keepIfShorter swap sw ni nj nk z' n

/-- bit field of the header word -/
def bitField (w : W) (pos len : Nat) : Nat := (w.toNat >>> pos) % 2 ^ len

/-- lines 261-292, `c_fstunzip`; an unknown predictor ends the program (`none`). -/
def fstunzip (u : W) (mem : List W) (ni nj : Nat) (g : Nat → BitVec 16) (d0 : Nat → Int) : Option (Nat → BitVec 16) :=
  match mem[0]? with
  | none => none
  | some h =>
    if bitField h 0 4 = 3 then unpackMinimum u mem ni nj (bitField h 10 5) (bitField h 7 3) g
    else if bitField h 0 4 = 4 then unpackParallelogram u mem ni nj (bitField h 10 5) (bitField h 7 3) g d0
    else none

/-- lines 169-194, `armn_compress` with `UNCOMPRESS`; `g`, `d0` are uninitialised work arrays. -/
def armnUncompress (swap : Bool) (u : W) (fld : List W) (ni nj nbits : Nat) (g : Nat → BitVec 16) (d0 : Nat → Int) : Option (List W) :=
  if nbits > 16 ∨ ni = 1 ∨ nj = 1 then some fld
  else
    match fstunzip u fld ni nj g d0 with
    | none => none
    | some g' =>
      if 1 + ni * nj / 2 ≤ fld.length then
        some (swapField swap (wordsOf g' (1 + ni * nj / 2) ++ fld.drop (1 + ni * nj / 2)) ni nj)
      else none

end Verif
