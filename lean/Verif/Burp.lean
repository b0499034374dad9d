import Verif.CompactInteger

/-! # Model of BURP reports in memory

Code: `/repo/src/fstd98/burp98.c` (`burp_nbit_datyp`, `burp_valid789`, `c_mrbadd`, `c_mrbdel`, `c_mrbrep`,
`c_mrbxtr`, `c_mrbprm`, `c_mrbloc`) and the buffer functions of `/repo/src/fstd98/xdf98.c` they call
(`c_xdfadd`, `c_xdfins`, `c_xdfcut`, `c_xdfrep`, `c_xdfxtr`); block header of
`/repo/src/fstd98/qstdir.h` 661-670, little endian layout.

Simplifications: counts, dimensions and bit positions are natural numbers (no 32-bit overflow of
`nele*nval*nt*nbit`); `xdf_stride` is 1 (its initial value, `qstdir.h` 879); the caller's arrays do not
overlap the report; messages (`Lib_Log`) are left out, whatever their level.  An access outside an array
gives `none`. -/

namespace Verif.Burp

/-- `buffer_interface`, `qstdir.h` 846-871: `nwords`, `nbits`, `data_index`, `buf8` (number of blocks), `buf9`
(bits of block headers) and the words of `data` that exist.  `record_index` is `RECADDR = 0` (`qstdir.h` 197). -/
structure Buf where
  nwords : Nat
  nbits : Nat
  dataIndex : Nat
  nblk : Nat
  hdrBits : Nat
  data : List W
deriving Repr, DecidableEq

/-! ## Word loops -/

/-- `for i < n: dst[idx+i] = g(src[p i])`; `p` is the identity, or exchanges the words of each pair. -/
def fill (src : List W) (p : Nat → Nat) (g : W → W) (idx : Nat) : Nat → List W → Option (List W)
  | 0, m => some m
  | n+1, m =>
    match fill src p g idx n m with
    | none => none
    | some m' =>
      match src[p n]? with
      | none => none
      | some v => store m' (idx + n) (g v)

/-- `xdf98.c` 1436-1440: `for (i = lo+k-1; i >= lo; i--) data[i+nb] = data[i]`. -/
def moveUp (nb lo : Nat) : Nat → List W → Option (List W)
  | 0, m => some m
  | k+1, m =>
    match m[lo + k]? with
    | none => none
    | some v =>
      match store m (lo + k + nb) v with
      | none => none
      | some m' => moveUp nb lo k m'

/-- `xdf98.c` 929-931: `for (i = lo; i < lo+k; i++) data[i] = data[i+nb]`. -/
def moveDown (nb : Nat) : Nat → Nat → List W → Option (List W)
  | _, 0, m => some m
  | lo, k+1, m =>
    match m[lo + nb]? with
    | none => none
    | some v =>
      match store m lo v with
      | none => none
      | some m' => moveDown nb (lo + 1) k m'

/-- `xdf98.c` 932-934, 2423-2425: words set to zero. -/
def zeroFill : Nat → Nat → List W → Option (List W)
  | _, 0, m => some m
  | lo, k+1, m =>
    match store m lo 0 with
    | none => none
    | some m' => zeroFill (lo + 1) k m'

/-- exchange of the words of a pair (`xdf98.c` 687-693, 1455-1461, 2439-2446, 2878-2884) -/
def pairSwap (i : Nat) : Nat := if i % 2 = 0 then i + 1 else i - 1

/-- `qstdir.h` 59, macro `upper_case_word`. -/
def upperWord (w : W) : W := w &&& ~~~((w &&& 0x40404040#32) >>> 1)

/-! ## The buffer functions of `xdf98.c` -/

/-- `nbwords` of all of them: whole 64-bit units, counted in 32-bit words. -/
def nbWords (n nbits : Nat) : Nat := 2 * ((n * nbits + 63) / 64)

/-- The `switch` of `c_xdfadd` (676-720), `c_xdfins` (1444-1490) and `c_xdfrep` (2428-2474): `n` elements stored at
`data[idx]`.  `u`: value of an out-of-range shift in `compact_integer`. -/
def putWords (u : W) (vals : List W) (idx n nbits datyp : Nat) (data : List W) : Option (Int × List W) :=
  if datyp = 0 ∨ datyp = 3 ∨ datyp = 6 ∨ datyp = 8 then
    (fill vals id id idx (nbWords n nbits) data).map fun d => (0, d)
  else if datyp = 7 ∨ datyp = 9 then
    (fill vals pairSwap id idx (nbWords n nbits) data).map fun d => (0, d)
  else if datyp = 5 then
    (fill vals id upperWord idx (nbWords n nbits) data).map fun d => (0, d)
  else if datyp = 2 ∨ datyp = 4 then
    (compactIntegerPack u (datyp = 4) false vals (data.drop idx) n nbits 0 1).map fun r => (0, data.take idx ++ r.2.2)
  else some (-16, data)

/-- `c_xdfadd`, `xdf98.c` 648-726. -/
def xdfadd (u : W) (st : Buf) (vals : List W) (n nbits datyp : Nat) : Option (Int × Buf) :=
  if (datyp = 3 ∨ datyp = 5) ∧ nbits ≠ 8 then some (-16, st)
  else if st.nbits / 32 + nbWords n nbits - 1 > st.nwords then some (-19, st)
  else
    match putWords u vals (st.nbits / 32) n nbits datyp st.data with
    | none => none
    | some (0, d) => some (0, { st with data := d, nbits := st.nbits + 32 * nbWords n nbits })
    | some (e, _) => some (e, st)

/-- `c_xdfins`, `xdf98.c` 1395-1494. -/
def xdfins (u : W) (st : Buf) (vals : List W) (bitpos n nbits datyp : Nat) : Option (Int × Buf) :=
  let idx := st.dataIndex + bitpos / 32
  let last := st.nbits / 32
  if bitpos % 64 ≠ 0 then some (-18, st)
  else if (datyp = 3 ∨ datyp = 5) ∧ nbits ≠ 8 then some (-16, st)
  else if last + nbWords n nbits - 1 > st.nwords then some (-19, st)
  else
    match (if last ≠ idx then moveUp (nbWords n nbits) idx (last + 1 - idx) st.data else some st.data) with
    | none => none
    | some d =>
      match putWords u vals idx n nbits datyp d with
      | none => none
      | some (0, d') => some (0, { st with data := d', nbits := st.nbits + 32 * nbWords n nbits })
      | some (e, d') => some (e, { st with data := d' })

/-- `c_xdfcut`, `xdf98.c` 895-941.  The test of line 915 is `datyp == 3 || (datyp == 5 && nbits != 8)`. -/
def xdfcut (st : Buf) (bitpos n nbits datyp : Nat) : Option (Int × Buf) :=
  let idx := st.dataIndex + bitpos / 32
  let last := st.nbits / 32
  let nb := nbWords n nbits
  if bitpos % 64 ≠ 0 then some (-18, st)
  else if datyp = 3 ∨ (datyp = 5 ∧ nbits ≠ 8) then some (-16, st)
  else
    match (if last ≠ idx then
        match moveDown nb idx (last + 1 - nb - idx) st.data with
        | none => none
        | some d => zeroFill (idx + (last + 1 - nb - idx)) nb d
      else some st.data) with
    | none => none
    | some d => some (0, { st with data := d, nbits := st.nbits - 32 * nb })

/-- `c_xdfrep`, `xdf98.c` 2382-2481; line 2411 has the same test as `c_xdfcut`. -/
def xdfrep (u : W) (st : Buf) (vals : List W) (bitpos n nbits datyp : Nat) : Option (Int × Buf) :=
  let idx := st.dataIndex + bitpos / 32
  let nb := nbWords n nbits
  if bitpos % 64 ≠ 0 then some (-18, st)
  else if datyp = 3 ∨ (datyp = 5 ∧ nbits ≠ 8) then some (-16, st)
  else if idx + nb - 1 > st.nwords then some (-19, st)
  else
    match zeroFill idx nb st.data with
    | none => none
    | some d =>
      match putWords u vals idx n nbits datyp d with
      | none => none
      | some (e, d') => some (e, { st with data := d' })

/-- The `switch` of `c_xdfxtr` (2868-2905): `n` elements read at `data[idx]` into `out`. -/
def getWords (u : W) (data : List W) (idx n nbits datyp : Nat) (out : List W) : Option (Int × List W) :=
  if datyp = 0 ∨ datyp = 3 ∨ datyp = 5 ∨ datyp = 6 ∨ datyp = 8 then
    (fill data (fun i => idx + i) id 0 (nbWords n nbits) out).map fun d => (0, d)
  else if datyp = 7 ∨ datyp = 9 then
    (fill data (fun i => idx + pairSwap i) id 0 (nbWords n nbits) out).map fun d => (0, d)
  else if datyp = 2 ∨ datyp = 4 then
    (compactIntegerUnpack u (datyp = 4) out none (data.drop idx) n nbits 0 1).map fun r => (0, r.2)
  else some (-16, out)

/-- `c_xdfxtr`, `xdf98.c` 2834-2908. -/
def xdfxtr (u : W) (st : Buf) (out : List W) (bitpos n nbits datyp : Nat) : Option (Int × List W) :=
  if bitpos % 64 ≠ 0 then some (-18, out)
  else if (datyp = 3 ∨ datyp = 5) ∧ nbits ≠ 8 then some (-16, out)
  else getWords u st.data (st.dataIndex + bitpos / 32) n nbits datyp out

/-! ## Block headers -/

/-- `burp_block_header`, `qstdir.h` 661-670. -/
structure Hdr where
  nbit : Nat
  btyp : Nat
  bfamdesc : Nat
  bit0 : Nat
  datyp : Nat
  nt : Nat
  elem1 : Nat
  nval : Nat
  nele : Nat
  flag : Nat
  elem3 : Nat
  elem2 : Nat
deriving Repr, DecidableEq

/-- The four words of a header: bit fields from the low end (`qstdir.h` 667-668); each field keeps its low bits. -/
def Hdr.words (h : Hdr) : List W :=
  [BitVec.ofNat 32 (h.nbit % 2^5 + 2^5 * (h.btyp % 2^15) + 2^20 * (h.bfamdesc % 2^12)),
   BitVec.ofNat 32 (h.bit0 % 2^20 + 2^20 * (h.datyp % 2^4) + 2^24 * (h.nt % 2^8)),
   BitVec.ofNat 32 (h.elem1 % 2^16 + 2^16 * (h.nval % 2^8) + 2^24 * (h.nele % 2^7) + 2^31 * (h.flag % 2)),
   BitVec.ofNat 32 (h.elem3 % 2^16 + 2^16 * (h.elem2 % 2^16))]

/-- Header fields read from four words. -/
def Hdr.ofWords (w0 w1 w2 w3 : W) : Hdr :=
  { nbit := w0.toNat % 2^5, btyp := w0.toNat / 2^5 % 2^15, bfamdesc := w0.toNat / 2^20,
    bit0 := w1.toNat % 2^20, datyp := w1.toNat / 2^20 % 2^4, nt := w1.toNat / 2^24,
    elem1 := w2.toNat % 2^16, nval := w2.toNat / 2^16 % 2^8, nele := w2.toNat / 2^24 % 2^7, flag := w2.toNat / 2^31,
    elem3 := w3.toNat % 2^16, elem2 := w3.toNat / 2^16 }

/-- `block[k]` with `block = burprec->data`, i.e. `data + 10` (`qstdir.h` 653-658: 4 + 1 groups of 64 bits). -/
def blockAt (data : List W) (k : Nat) : Option Hdr :=
  match data[10 + 4 * k]?, data[10 + 4 * k + 1]?, data[10 + 4 * k + 2]?, data[10 + 4 * k + 3]? with
  | some a, some b, some c, some d => some (Hdr.ofWords a b c d)
  | _, _, _, _ => none

/-- Assignment to bit fields of `block[k]`: the header is decoded, changed and encoded. -/
def modBlock (k : Nat) (f : Hdr → Hdr) (data : List W) : Option (List W) :=
  match blockAt data k with
  | none => none
  | some h => fill (f h).words id id (10 + 4 * k) 4 data

/-- `for (i = k; i < k+n; i++) block[i].bit0 += d` (`burp98.c` 652-654 with `d = -difbit`, 954-956); 20-bit field. -/
def shiftBit0 (d : Int) : Nat → Nat → List W → Option (List W)
  | _, 0, m => some m
  | k, n+1, m =>
    match modBlock k (fun h => { h with bit0 := ((h.bit0 + d) % 2^20).toNat }) m with
    | none => none
    | some m' => shiftBit0 d (k + 1) n m'

/-- The dimensions recorded in a header (`burp98.c` 612-622, 914-924, 993-1003). -/
def Hdr.dims (h : Hdr) : Nat × Nat × Nat :=
  if h.flag ≠ 0 then (h.elem1, h.elem2, h.elem3) else (h.nele, h.nval, h.nt)

/-- Number of elements listed outside the header (612-622, 932, 993-1010). -/
def Hdr.listed (h : Hdr) : Nat := if h.flag ≠ 0 then h.elem1 else h.nele - 3

/-! ## `burp_nbit_datyp` -/

/-- `burp98.c` 336-341: `while (temp && needed < 32) { needed++; temp >>= 1; }`, `f` iterations left. -/
def bitLoop : Nat → Int → Nat → Nat
  | 0, _, needed => needed
  | f+1, temp, needed => if temp = 0 then needed else bitLoop f (temp / 2) (needed + 1)

/-- 336-342: bits needed for the greatest value, one more when it is all ones. -/
def bitsNeeded (tblmax : Int) : Nat :=
  if tblmax = 2 ^ bitLoop 32 tblmax 0 - 1 then bitLoop 32 tblmax 0 + 1 else bitLoop 32 tblmax 0

/-- 344-355: the final width and type. -/
def chooseBits (inbits datyp : Nat) (tblmax : Int) : Int × Nat × Nat :=
  if datyp = 4 then
    if bitsNeeded tblmax + 1 > 31 then (-41, 32, 2)
    else (0, max inbits (min (bitsNeeded tblmax + 1) 32), 4)
  else (0, max inbits (min (bitsNeeded tblmax) 32), datyp)

/-- 318-324: greatest and least value. -/
def maxVal (v : W) (xs : List W) : Int := xs.foldl (fun m x => max m x.toInt) v.toInt
def minVal (v : W) (xs : List W) : Int := xs.foldl (fun m x => min m x.toInt) v.toInt

/-- `burp_nbit_datyp`, `burp98.c` 284-358: returned code, width and type.  The second test of line 304 compares the
pointer with 0 and never holds.  `-tblmin` overflows for the least 32-bit integer (`none`). -/
def nbitDatyp (nbits datyp : Nat) (vals : List W) (n : Nat) : Option (Int × Nat × Nat) :=
  if datyp = 2 ∧ nbits = 32 then some (0, nbits, datyp)
  else if datyp > 5 then some (0, 32, datyp)
  else if datyp = 3 ∨ datyp = 5 then some (0, 8, datyp)
  else
    match vals with
    | [] => none
    | v :: _ =>
      if vals.length < n then none
      else if minVal v (vals.take n) = maxVal v (vals.take n) ∧ minVal v (vals.take n) = -1 then some (0, nbits, datyp)
      else if minVal v (vals.take n) = -2 ^ 31 then none
      else if minVal v (vals.take n) < -1 then
        some (chooseBits nbits 4 (max (maxVal v (vals.take n)) (-minVal v (vals.take n))))
      else some (chooseBits nbits datyp (maxVal v (vals.take n)))

/-! ## `burp_valid789` -/

/-- One test of lines 413-421 and 434-442: code expected, zero replaced, anything else an error (`BURP_ERR_CODE`). -/
def checkCode (code : W) (i : Nat) (lst : List W) : Option (Int × List W) :=
  match lst[i]? with
  | none => none
  | some e => if e = code then some (0, lst) else if e = 0 then some (0, lst.set i code) else some (-44, lst)

/-- The loops of 412-422 and 432-443: entry `i` is checked unless `i` is a multiple of the group size. -/
def codeLoop (codes : List W) : Nat → Nat → List W → Option (Int × List W)
  | _, 0, lst => some (0, lst)
  | i, n+1, lst =>
    match codes[i % (codes.length + 1) - 1]? with
    | none => none
    | some c =>
      match (if i % (codes.length + 1) = 0 then some (0, lst) else checkCode c i lst) with
      | none => none
      | some (0, lst') => codeLoop codes (i + 1) n lst'
      | some (e, lst') => some (e, lst')

/-- `MRBCOV`, `burp98.c` 30. -/
def mrbcov (f x y : Nat) : W := BitVec.ofNat 32 (f * 2^14 + x * 2^8 + y)

/-- `burp_valid789`, `burp98.c` 390-447. -/
def valid789 (lst : List W) (nele datyp : Nat) : Option (Int × List W) :=
  if datyp = 7 ∨ datyp = 8 then
    if nele % 2 ≠ 0 then some (-16, lst)
    else codeLoop [if datyp = 7 then mrbcov 0 55 204 else mrbcov 0 55 205] 0 nele lst
  else if datyp = 9 then
    if nele % 4 ≠ 0 then some (-16, lst)
    else codeLoop [mrbcov 0 55 204, mrbcov 0 55 206, mrbcov 0 55 207] 0 nele lst
  else some (0, lst)

/-! ## `c_mrbadd` -/

/-- `burp98.c` 551-562: the element list, two 16-bit codes a word; `pos`, `left`, `bits_added` and the words. -/
def listLoop : List W → Nat → Nat → Nat → List W → Option (Nat × Nat × Nat × List W)
  | [], pos, left, added, m => some (pos, left, added, m)
  | e :: es, pos, left, added, m =>
    match m[pos]? with
    | none => none
    | some w =>
      match store m pos ((w <<< (32 - left)) ||| (e &&& 0xffff#32)) with
      | none => none
      | some m1 =>
        if left - 16 = 0 then
          match store m1 (pos + 1) 0 with
          | none => none
          | some m2 => listLoop es (pos + 1) 32 (added + 16) m2
        else listLoop es pos (left - 16) (added + 16) m1

/-- `burp98.c` 544-566: list written at `data[pos]`; `bits_added` and the words. -/
def writeList (els : List W) (pos : Nat) (m : List W) : Option (Nat × List W) :=
  match store m pos 0 with
  | none => none
  | some m0 =>
    match listLoop els pos 32 0 m0 with
    | none => none
    | some (p, left, added, m1) =>
      if left ≠ 32 then
        match m1[p]? with
        | none => none
        | some w => (store m1 p (w <<< 16)).map fun m2 => (added + 16, m2)
      else some (added, m1)

/-- Arguments of `c_mrbadd`.  `past`: what the memory after a list shorter than 3 holds (lines 540-541 read
`lstele[1]` and `lstele[2]` in every case). `junkNt`, `junkNval`: initial contents of the header variable; line 488
(`memset` with size 0) does not clear it. -/
structure AddArgs where
  nele : Nat
  nval : Nat
  nt : Nat
  bfam : Nat
  bdesc : Nat
  btyp : Nat
  nbit : Nat
  datyp : Nat
  lst : List W
  vals : List W
  past : Nat → Nat
  junkNt : Nat
  junkNval : Nat

/-- `burp98.c` 508-520: family and descriptor, 6 bits each. -/
def famDesc (bfam bdesc : Nat) : Nat :=
  if bdesc ≠ 0 then bfam % 64 * 64 + bdesc % 64 else bfam % 64 * 64 + bfam / 64 % 64

/-- `burp98.c` 521-543: the header of the new block; the field `nbit` holds the low 5 bits of `inbit - 1`. -/
def newHdr (a : AddArgs) (lst : List W) (inbit idatyp bit0 : Nat) : Hdr :=
  let el (i : Nat) : Nat := match lst[i]? with | some w => w.toNat | none => a.past i
  if 127 ≤ a.nele ∨ 256 ≤ a.nval ∨ 256 ≤ a.nt then
    { nbit := (inbit + 31) % 32, btyp := a.btyp, bfamdesc := famDesc a.bfam a.bdesc, bit0 := bit0, datyp := idatyp, nt := a.junkNt,
      elem1 := a.nele, nval := a.junkNval, nele := 127, flag := 1, elem3 := a.nt, elem2 := a.nval }
  else
    { nbit := (inbit + 31) % 32, btyp := a.btyp, bfamdesc := famDesc a.bfam a.bdesc, bit0 := bit0, datyp := idatyp, nt := a.nt,
      elem1 := el 0, nval := a.nval, nele := a.nele, flag := 0, elem3 := el 2, elem2 := el 1 }

/-- `burp98.c` 544-578: list, header and values put into the report. -/
def addParts (u : W) (st : Buf) (a : AddArgs) (lst : List W) (inbit idatyp : Nat) : Option (Int × Buf) :=
  let done := if 127 ≤ a.nele ∨ 256 ≤ a.nval ∨ 256 ≤ a.nt then 0 else 3
  if lst.length < a.nele then none
  else
    match writeList ((lst.take a.nele).drop done) (st.nbits / 32) st.data with
    | none => none
    | some (added, d) =>
      match xdfins u { st with data := d, nbits := st.nbits + (added + 63) / 64 * 64 }
          (newHdr a lst inbit idatyp ((st.nbits - 320 - st.hdrBits) / 64)).words st.hdrBits 4 32 0 with
      | none => none
      | some (0, st1) =>
        match xdfadd u st1 a.vals (a.nele * a.nval * a.nt) inbit idatyp with
        | none => none
        | some (0, st2) => some (0, { st2 with nblk := st2.nblk + 1, hdrBits := st2.hdrBits + 128 })
        | some (e, st2) => some (e, st2)
      | some (e, st1) => some (e, st1)

/-- `c_mrbadd`, `burp98.c` 451-587: returned code and report; the block number is the new `nblk`. -/
def mrbadd (u : W) (st : Buf) (a : AddArgs) : Option (Int × Buf) :=
  if (a.datyp = 3 ∨ a.datyp = 5) ∧ a.nbit ≠ 8 then some (-16, st)
  else
    match nbitDatyp a.nbit a.datyp a.vals (a.nele * a.nval * a.nt) with
    | none => none
    | some (err, inbit, idatyp) =>
      if err < 0 then some (err, st)
      else
        match (if 7 ≤ a.datyp then valid789 a.lst a.nele a.datyp else some (0, a.lst)) with
        | none => none
        | some (e, lst) =>
          if e < 0 then some (e, st)
          else if a.bdesc ≠ 0 ∧ a.bfam / 64 % 64 ≠ 0 ∧ a.bfam / 64 % 64 ≠ a.bdesc then some (-43, st)
          else addParts u st a lst inbit idatyp

/-! ## `c_mrbdel`, `c_mrbrep` -/

/-- The header extracted by `c_xdfxtr` at `bitpos = 128 * (number - 1)` (608-610, 865-866, 989-991). -/
def readHdr (u : W) (st : Buf) (number : Nat) : Option Hdr :=
  match xdfxtr u st [0, 0, 0, 0] (128 * (number - 1)) 4 32 0 with
  | some (0, [a, b, c, d]) => some (Hdr.ofWords a b c d)
  | _ => none

/-- `burp98.c` 627-656: cuts and renumbering, from the header `h` of the block. -/
def delParts (st : Buf) (number : Nat) (h : Hdr) : Option (Int × Buf) :=
  match (if 0 < h.listed then xdfcut st (h.bit0 * 64 + st.hdrBits) h.listed 16 2 else some (0, st)) with
  | none => none
  | some (_, st1) =>
    match xdfcut st1 (h.bit0 * 64 + st.hdrBits) (h.dims.1 * h.dims.2.1 * h.dims.2.2) (h.nbit + 1) h.datyp with
    | none => none
    | some (_, st2) =>
      match xdfcut st2 (128 * (number - 1)) 4 32 0 with
      | none => none
      | some (_, st3) =>
        match blockAt st3.data (number - 1) with
        | none => none
        | some b =>
          match shiftBit0 ((h.bit0 : Int) - b.bit0) (number - 1) (st3.nblk - 1 - (number - 1)) st3.data with
          | none => none
          | some d => some (0, { st3 with data := d, nblk := st3.nblk - 1, hdrBits := st3.hdrBits - 128 })

/-- `c_mrbdel`, `burp98.c` 591-657.  The codes returned by the cuts are ignored by the code. -/
def mrbdel (u : W) (st : Buf) (number : Nat) : Option (Int × Buf) :=
  if number < 1 ∨ st.nblk < number then some (-33, st)
  else
    match readHdr u st number with
    | none => none
    | some h => delParts st number h

/-- `burp98.c` 944-958: room made for `diff` more 64-bit units of values, later blocks renumbered. -/
def growBlock (u : W) (st : Buf) (blkno bitpos diff : Nat) (vals : List W) : Option (Int × Buf) :=
  match xdfins u st vals bitpos (diff * 2) 32 0 with
  | none => none
  | some (0, st1) =>
    (shiftBit0 (diff : Int) blkno (st1.nblk - blkno) st1.data).map fun d1 => ((0 : Int), { st1 with data := d1 })
  | some (e, st1) => some (e, st1)

/-- `burp98.c` 928-934 and 941-961: header changed, room made, values replaced. -/
def repParts (u : W) (st : Buf) (blkno : Nat) (h : Hdr) (vals : List W) (newNbit newDatyp : Nat) :
    Option (Int × Buf) :=
  let n := h.dims.1 * h.dims.2.1 * h.dims.2.2
  let bitpos := h.bit0 * 64 + st.hdrBits + (h.listed * 16 + 63) / 64 * 64
  let diff := (newNbit * n + 63) / 64 - ((h.nbit + 1) * n + 63) / 64
  match modBlock (blkno - 1) (fun b => { b with nbit := (newNbit + 31) % 32, datyp := newDatyp }) st.data with
  | none => none
  | some d =>
    match (if newNbit ≠ h.nbit + 1 ∧ 0 < diff then growBlock u { st with data := d } blkno bitpos diff vals
      else some ((0 : Int), { st with data := d })) with
    | none => none
    | some (0, st2) => xdfrep u st2 vals bitpos n newNbit newDatyp
    | some (e, st2) => some (e, st2)

/-- `c_mrbrep`, `burp98.c` 890-962.  `burp_nbit_datyp` never lowers the width, so the number of 64-bit units never
falls (lines 946-949 use a signed difference). -/
def mrbrep (u : W) (st : Buf) (blkno : Nat) (vals : List W) : Option (Int × Buf) :=
  if blkno < 1 ∨ st.nblk < blkno then some (-33, st)
  else
    match blockAt st.data (blkno - 1) with
    | none => none
    | some h =>
      match nbitDatyp (h.nbit + 1) h.datyp vals (h.dims.1 * h.dims.2.1 * h.dims.2.2) with
      | none => none
      | some (err, newNbit, newDatyp) =>
        if err < 0 then some (err, st) else repParts u st blkno h vals newNbit newDatyp

/-! ## `c_mrbxtr`, `c_mrbprm`, `c_mrbloc` -/

/-- `burp98.c` 1031-1039: values whose bits are all ones become missing (all 32 bits set). -/
def restoreMissing (nbit datyp n : Nat) (out : List W) : List W :=
  if datyp = 2 ∨ datyp = 4 ∨ datyp = 6 then
    let rmask : W := if 32 ≤ nbit then BitVec.allOnes 32 else ~~~((-1#32) <<< nbit)
    (out.take n).map (fun x => if x = rmask then BitVec.allOnes 32 else x) ++ out.drop n
  else out

/-- `burp98.c` 1003-1009: up to three elements from the header. -/
def headerElems (h : Hdr) : List W :=
  if h.flag ≠ 0 then [] else [BitVec.ofNat 32 h.elem1, BitVec.ofNat 32 h.elem2, BitVec.ofNat 32 h.elem3].take h.nele

/-- `burp98.c` 1012-1040: list and values extracted, from the header `h`. -/
def xtrParts (u : W) (st : Buf) (h : Hdr) (lst vals : List W) : Option (Int × List W × List W) :=
  let n := h.dims.1 * h.dims.2.1 * h.dims.2.2
  let bitpos := h.bit0 * 64 + st.hdrBits
  let hd := headerElems h
  if lst.length < hd.length then none
  else
    match (if 0 < h.listed then xdfxtr u st (lst.drop hd.length) bitpos h.listed 16 2
      else some ((0 : Int), lst.drop hd.length)) with
    | none => none
    | some (e, more) =>
      if e < 0 then some (e, hd ++ more, vals)
      else
        match xdfxtr u st vals (bitpos + (h.listed * 16 + 63) / 64 * 64) n (h.nbit + 1) h.datyp with
        | none => none
        | some (e, v) =>
          if e < 0 then some (e, hd ++ more, v)
          else some (e, hd ++ more, restoreMissing (h.nbit + 1) h.datyp n v)

/-- `c_mrbxtr`, `burp98.c` 967-1041: returned code, the caller's list and the caller's values. -/
def mrbxtr (u : W) (st : Buf) (bkno : Nat) (lst vals : List W) : Option (Int × List W × List W) :=
  if bkno < 1 ∨ st.nblk < bkno then some (-33, lst, vals)
  else
    match readHdr u st bkno with
    | none => none
    | some h => xtrParts u st h lst vals

/-- What `c_mrbprm` returns. -/
structure Params where
  nele : Nat
  nval : Nat
  nt : Nat
  bfam : Nat
  bdesc : Nat
  btyp : Nat
  nbit : Nat
  bit0 : Nat
  datyp : Nat
deriving Repr, DecidableEq

/-- `c_mrbprm`, `burp98.c` 837-886. -/
def mrbprm (u : W) (st : Buf) (bkno : Nat) : Option Params :=
  match readHdr u st bkno with
  | none => none
  | some h =>
    some { nele := h.dims.1, nval := h.dims.2.1, nt := h.dims.2.2,
           bfam := h.bfamdesc % 64 * 64 + h.bfamdesc / 64 % 64, bdesc := 0, btyp := h.btyp, nbit := h.nbit + 1,
           bit0 := h.bit0, datyp := h.datyp }

/-- `burp98.c` 797-805: bits of the block type that are compared. -/
def btypMask (btyp : W) : W :=
  if btyp = -1 then 0
  else (if 0x10000000#32 &&& btyp ≠ 0 then 0#32 else 0x000f#32) |||
    (if 0x20000000#32 &&& btyp ≠ 0 then 0#32 else 0x07f0#32) |||
    (if 0x40000000#32 &&& btyp ≠ 0 then 0#32 else 0x7800#32)

/-- `burp98.c` 770-789: family and descriptor looked for, `none` for an illegal descriptor. -/
def locFam (bfam bdesc : W) : Option W :=
  if bfam = -1 then (if bdesc = 0 ∨ bdesc = -1 then some (-1) else none)
  else if bdesc ≠ 0 ∧ bdesc ≠ -1 then
    if (bfam >>> 6) &&& 0x3f#32 ≠ 0 ∧ (bfam >>> 6) &&& 0x3f#32 ≠ bdesc then none
    else some (((bfam &&& 0x3f#32) <<< 6) ||| (bdesc &&& 0x3f#32))
  else some (((bfam &&& 0x3f#32) <<< 6) ||| ((bfam >>> 6) &&& 0x3f#32))

/-- `burp98.c` 811-812. -/
def locMatch (fd mfd btyp mbt : W) (h : Hdr) : Bool :=
  (fd ^^^ BitVec.ofNat 32 h.bfamdesc) &&& mfd == 0 && (btyp ^^^ BitVec.ofNat 32 h.btyp) &&& mbt == 0

/-- `burp98.c` 810-829: the loop from block `i`, `n` blocks left. -/
def locLoop (data : List W) (fd mfd btyp mbt : W) : Nat → Nat → Option Int
  | _, 0 => some (-1)
  | i, n+1 =>
    match blockAt data i with
    | none => none
    | some h => if locMatch fd mfd btyp mbt h then some (i + 1) else locLoop data fd mfd btyp mbt (i + 1) n

/-- `c_mrbloc`, `burp98.c` 757-831. -/
def mrbloc (st : Buf) (bfam bdesc btyp : W) (blkno : Nat) : Option Int :=
  match locFam bfam bdesc with
  | none => some (-43)
  | some fd => locLoop st.data fd (if fd = -1 then 0 else -1) btyp (btypMask btyp) blkno (st.nblk - blkno)

/-- `c_mrblen`, `burp98.c` 738-751: bits used and bits left. -/
def mrblen (st : Buf) : Int × Int := (st.nbits, ((st.nwords : Int) - 9) * 32 - st.nbits)

end Verif.Burp
