import Verif.SwapBuffer

/-! # C51: byte swapping -/

namespace Verif.SwapBuffer

/-- Byte `k` of a word, byte 0 being the least significant. -/
def byte (w : BitVec 32) (k : Nat) : Nat := w.toNat / 256 ^ k % 256

theorem mask_bit : ∀ j : Fin 32, (0xFF00#32).getLsbD j = decide (8 ≤ j.val ∧ j.val < 16) := by decide

theorem swapWord_bit (w : BitVec 32) (i : Nat) (hi : i < 32) :
    (swapWord w).getLsbD i = w.getLsbD (i % 8 + 8 * (3 - i / 8)) := by
  have hm : (0xFF00#32).getLsbD i = decide (8 ≤ i ∧ i < 16) := mask_bit ⟨i, hi⟩
  simp only [swapWord, BitVec.getLsbD_or, BitVec.getLsbD_ushiftRight, BitVec.getLsbD_shiftLeft, BitVec.getLsbD_and, hm]
  by_cases c1 : i < 8
  · have h1 : ¬ (8 ≤ i ∧ i < 16) := by omega
    have h2 : i < 24 := by omega
    have e : i % 8 + 8 * (3 - i / 8) = 24 + i := by omega
    rw [e]
    simp [h1, c1, h2]
  by_cases c2 : i < 16
  · have h1 : 8 ≤ i ∧ i < 16 := by omega
    have h2 : i < 24 := by omega
    have h3 : w.getLsbD (24 + i) = false := BitVec.getLsbD_of_ge _ _ (by omega)
    have h4 : (0xFF00#32).getLsbD (i - 8) = false := by
      have := mask_bit ⟨i - 8, by omega⟩
      simp only at this
      rw [this]; simp; omega
    have e : i % 8 + 8 * (3 - i / 8) = 8 + i := by omega
    rw [e]
    simp only [h3, h2, h1, h4]
    simp
  have h3 : w.getLsbD (24 + i) = false := BitVec.getLsbD_of_ge _ _ (by omega)
  have h1 : ¬ (8 ≤ i ∧ i < 16) := by omega
  by_cases c3 : i < 24
  · have h4 : (0xFF00#32).getLsbD (i - 8) = true := by
      have := mask_bit ⟨i - 8, by omega⟩
      simp only at this
      rw [this]; simp; omega
    have e : i % 8 + 8 * (3 - i / 8) = i - 8 := by omega
    rw [e]
    simp only [h3, h1, h4, c3, c1, hi]
    simp
  · have h4 : (0xFF00#32).getLsbD (i - 8) = false := by
      have := mask_bit ⟨i - 8, by omega⟩
      simp only at this
      rw [this]; simp; omega
    have e : i % 8 + 8 * (3 - i / 8) = i - 24 := by omega
    rw [e]
    simp only [h3, h1, h4, c3, c1, hi]
    simp

theorem swapWord_byte (w : BitVec 32) (k : Nat) (hk : k < 4) : byte (swapWord w) k = byte w (3 - k) := by
  have hb : ∀ (w : BitVec 32) (k : Nat), byte w k = (w.toNat >>> (8 * k)) % 2 ^ 8 := by
    intro w k
    rw [byte, Nat.shiftRight_eq_div_pow, Nat.pow_mul]
  rw [hb, hb]
  apply Nat.eq_of_testBit_eq
  intro i
  simp only [Nat.testBit_mod_two_pow, Nat.testBit_shiftRight, BitVec.testBit_toNat]
  by_cases h : i < 8
  · rw [swapWord_bit w _ (by omega)]
    have : (8 * k + i) % 8 + 8 * (3 - (8 * k + i) / 8) = 8 * (3 - k) + i := by omega
    rw [this]
  · simp [h]

theorem swapWord_twice (w : BitVec 32) : swapWord (swapWord w) = w := by
  apply BitVec.eq_of_getLsbD_eq
  intro i hi
  rw [swapWord_bit _ i hi, swapWord_bit _ _ (by omega)]
  congr 1; omega

/-- **C51**.  Swapping succeeds for every count within the buffer; byte `k` of each of the first `nwds`
words becomes byte `3 - k`; the other words are unchanged; swapping again restores the buffer. -/
theorem C51_swap (buffer : List (BitVec 32)) (nwds : Int) (h : nwds ≤ buffer.length) :
    ∃ r, swapBuffer buffer nwds = some r ∧ r.length = buffer.length ∧
      (∀ i k : Nat, (i : Int) < nwds → k < 4 → (r[i]?).map (byte · k) = (buffer[i]?).map (byte · (3 - k))) ∧
      (∀ i : Nat, nwds ≤ i → r[i]? = buffer[i]?) ∧
      swapBuffer r nwds = some buffer := by
  have hn : nwds.toNat ≤ buffer.length := by omega
  refine ⟨_, by rw [swapBuffer, if_pos hn], by simp; omega, ?_, ?_, ?_⟩
  · intro i k hi hk
    rw [List.getElem?_append_left (by simp; omega), List.getElem?_map, List.getElem?_take, if_pos (by omega)]
    cases buffer[i]? with
    | none => rfl
    | some w => simp [swapWord_byte w k hk]
  · intro i hi
    rw [List.getElem?_append_right (by simp; omega)]
    simp only [List.length_map, List.length_take, List.getElem?_drop]
    congr 1; omega
  · rw [swapBuffer, if_pos (by simp; omega)]
    congr 1
    have hl : ((buffer.take nwds.toNat).map swapWord).length = nwds.toNat := by simp; omega
    rw [List.take_append_of_le_length (by omega), List.take_of_length_le (by omega),
      List.drop_append_of_le_length (by omega), List.drop_of_length_le (l := (buffer.take nwds.toNat).map swapWord) (by omega),
      List.map_map, List.nil_append]
    have : swapWord ∘ swapWord = id := by funext w; exact swapWord_twice w
    rw [this, List.map_id, List.take_append_drop]

example : swapBuffer [0x01020304, 0x05060708, 0x11223344] 2 = some [0x04030201, 0x08070605, 0x11223344] := by
  decide +kernel

end Verif.SwapBuffer
