/-! # Model of record handles (`src/fstd98/qstdir.h` 256-281, `src/fstd98/xdf98.c`)

`int` values are 32-bit vectors, `>>` on them is the arithmetic shift.  Only the `MOREFILES` variant
(the one that is compiled) is modelled. -/

namespace Verif.Handles

abbrev I := BitVec 32

/-- `MAKE_RND_HANDLE` (qstdir.h:262) -/
def makeRndHandle (pageno recno fileIndex : I) : I :=
  (fileIndex &&& 0x3FF#32) ||| ((recno &&& 0x1FF#32) <<< 10) ||| ((pageno &&& 0xFFF#32) <<< 19)

/-- `MAKE_SEQ_HANDLE` (qstdir.h:267) -/
def makeSeqHandleMacro (cluster address fileIndex : I) : I :=
  fileIndex ||| ((address &&& 0x3FFFFF#32) <<< 7) ||| (cluster <<< 29)

/-- `INDEX_FROM_HANDLE` (qstdir.h:270); `stdseqOpened` is the global `STDSEQ_opened == 1`. -/
def indexFromHandle (stdseqOpened : Bool) (h : I) : I :=
  if stdseqOpened then 0x7F#32 &&& h else 0x3FF#32 &&& h

/-- `RECORD_FROM_HANDLE` (qstdir.h:272) -/
def recordFromHandle (h : I) : I := 0x1FF#32 &&& h.sshiftRight 10

/-- `PAGENO_FROM_HANDLE` (qstdir.h:274) -/
def pagenoFromHandle (h : I) : I := 0xFFF#32 &&& h.sshiftRight 19

/-- `ADDRESS_FROM_HNDL` (qstdir.h:277) -/
def addressFromHndl (h : I) : I := 0x3FFFFF#32 &&& h.sshiftRight 7

/-- `CLUSTER_FROM_HANDLE` (qstdir.h:279) -/
def clusterFromHandle (h : I) : I := 0x3#32 &&& h.sshiftRight 29

/-- `address_from_handle` (xdf98.c:191-204) -/
def addressFromHandle (h : I) (vintage89 : Bool) : I :=
  let addr := addressFromHndl h <<< (2 * (clusterFromHandle h).toNat)
  let addr := if vintage89 then addr * 15#32 else addr
  (addr <<< 1) + 1#32

/-- `make_seq_handle` (xdf98.c:3146-3185); addresses are compared as signed integers. -/
def makeSeqHandle (address fileIndex : I) (vintage89 : Bool) : I :=
  let address := (address - 1#32).sshiftRight 1
  if vintage89 then
    makeSeqHandleMacro 0#32 (address.sdiv 15#32) fileIndex
  else if (0x4000000#32).sle address then makeSeqHandleMacro 3#32 (address.sshiftRight 6) fileIndex
  else if (0x1000000#32).sle address then makeSeqHandleMacro 2#32 (address.sshiftRight 4) fileIndex
  else if (0x400000#32).sle address then makeSeqHandleMacro 1#32 (address.sshiftRight 2) fileIndex
  else makeSeqHandleMacro 0#32 address fileIndex

/-- `c_xdfput` on a sequential file, append (xdf98.c:2308-2321, 2327-2329, 2364): the address
after a record of `nwords` words written at word address `curAddr` and its postfix.  Addresses as
natural numbers; they stay below 2^30 (a file of 4 Gb) so that the `int` arithmetic is exact. -/
def nextSeqAddr (curAddr nwords : Nat) : Nat :=
  let next := curAddr - 1 + nwords + 4
  let clusterSize :=
    if next >>> 18 ≥ 512 then 128
    else if next >>> 18 ≥ 128 then 32
    else if next >>> 18 ≥ 32 then 8
    else 2
  let next := ((next + clusterSize - 1) / clusterSize) * clusterSize
  let nwords := next + 1 - curAddr - 4
  curAddr + nwords + 4

/-- Word addresses of the successive records appended from `curAddr` on. -/
def seqAddrs (curAddr : Nat) : List Nat → List Nat
  | [] => []
  | n :: ns => curAddr :: seqAddrs (nextSeqAddr curAddr n) ns

/-! ## Lemmas -/

theorem mask_bit (k i : Nat) (hk : k ≤ 32) : (BitVec.ofNat 32 (2 ^ k - 1)).getLsbD i = decide (i < k) := by
  rw [BitVec.getLsbD_ofNat, Nat.testBit_two_pow_sub_one]
  by_cases h : i < k
  · simp [h]; omega
  · simp [h]

/-- A nonnegative number below `2 ^ k` has no bit from `k` on. -/
theorem bit_of_lt {x : I} {k i : Nat} (h : x.toNat < 2 ^ k) (hi : k ≤ i) : x.getLsbD i = false := by
  rw [← BitVec.testBit_toNat]
  exact Nat.testBit_lt_two_pow (Nat.lt_of_lt_of_le h (Nat.pow_le_pow_right (by omega) hi))

end Verif.Handles
