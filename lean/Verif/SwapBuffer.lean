/-! # Model of `src/primitives/swap_buffer.c` -/

namespace Verif.SwapBuffer

/-- `swap_word_endianness` (swap_buffer.c:29-35). -/
def swapWord (tmp : BitVec 32) : BitVec 32 :=
  (tmp >>> 24) ||| (tmp <<< 24) ||| ((tmp >>> 8) &&& 0xFF00#32) ||| ((tmp &&& 0xFF00#32) <<< 8)

/-- `swap_buffer_endianness` (swap_buffer.c:39-48): the first `nwds` words, in place (none when
`nwds <= 0`); `none` when a word lies outside the buffer. -/
def swapBuffer (buffer : List (BitVec 32)) (nwds : Int) : Option (List (BitVec 32)) :=
  if nwds.toNat ≤ buffer.length then
    some ((buffer.take nwds.toNat).map swapWord ++ buffer.drop nwds.toNat)
  else none

end Verif.SwapBuffer
