import Verif.Crc

/-! # C14: the cyclic redundancy code -/

namespace Verif.Crc

/-- **C14**, what is computed: the remainder register of bitwise division of the message by
x^16 + x^12 + x^5 + 1, started from the seed, for every buffer and seed (stride 1). -/
theorem C14_crc_is_division (buf : List (BitVec 8)) (seed : BitVec 32) :
    calcCrc buf buf.length seed 1 = some ((crcBits (seed.setWidth 16) (bufBits buf)).setWidth 32) := by
  have hseed : seed &&& 0xffff#32 = (seed.setWidth 16).setWidth 32 := by
    apply BitVec.eq_of_getLsbD_eq
    intro i hi
    have hmask : (0xffff#32).getLsbD i = decide (i < 16) := by
      have : ∀ j : Fin 32, (0xffff#32).getLsbD j = decide (j.val < 16) := by decide
      exact this ⟨i, hi⟩
    simp only [BitVec.getLsbD_and, hmask, BitVec.getLsbD_setWidth, hi, decide_true, Bool.true_and]
    rw [Bool.and_comm]
  rw [calcCrc, visited_all _ _ (by omega), hseed]
  simp [fold_eq]

/-- **C14**, burst detection.  Two buffers whose bits agree outside a window of at most 16
consecutive bits, and differ inside it, have different codes, whatever the seed, the bits before
and the bits after the window. -/
theorem C14_crc_burst (x y : List (BitVec 8)) (seed : BitVec 32) (p a b q : List Bool)
    (hx : bufBits x = p ++ a ++ q) (hy : bufBits y = p ++ b ++ q)
    (hlen : a.length = b.length) (h16 : a.length ≤ 16) (hne : a ≠ b) :
    calcCrc x x.length seed 1 ≠ calcCrc y y.length seed 1 := by
  rw [C14_crc_is_division, C14_crc_is_division, hx, hy]
  intro h
  have h' := Option.some.inj h
  have h2 : crcBits (seed.setWidth 16) (p ++ a ++ q) = crcBits (seed.setWidth 16) (p ++ b ++ q) := by
    have := congrArg (BitVec.setWidth 16) h'
    simpa using this
  simp only [crcBits_append] at h2
  have h3 := crcBits_inj h2
  rw [crcBits_place a h16, crcBits_place b (by omega), hlen] at h3
  exact hne (place_inj a b hlen h16 ((BitVec.xor_right_inj _).1 (shiftN_inj h3)))

theorem bufBits_append (a b : List (BitVec 8)) : bufBits (a ++ b) = bufBits a ++ bufBits b := by simp [bufBits]

theorem byteBits_inj {a b : BitVec 8} (h : byteBits a = byteBits b) : a = b := by
  simp only [byteBits, List.cons.injEq] at h
  apply BitVec.eq_of_getLsbD_eq
  intro i hi
  have : i = 0 ∨ i = 1 ∨ i = 2 ∨ i = 3 ∨ i = 4 ∨ i = 5 ∨ i = 6 ∨ i = 7 := by omega
  rcases this with h | h | h | h | h | h | h | h <;> subst h <;> simp_all

/-- **C14** for bytes: two equally long buffers that differ only inside two consecutive bytes have
different codes. -/
theorem C14_crc_two_bytes (p q : List (BitVec 8)) (a b c d : BitVec 8) (seed : BitVec 32) (hne : (a, b) ≠ (c, d)) :
    calcCrc (p ++ [a, b] ++ q) (p ++ [a, b] ++ q).length seed 1 ≠
      calcCrc (p ++ [c, d] ++ q) (p ++ [c, d] ++ q).length seed 1 := by
  apply C14_crc_burst (p := bufBits p) (q := bufBits q) (a := bufBits [a, b]) (b := bufBits [c, d])
  · simp only [bufBits_append]
  · simp only [bufBits_append]
  · rfl
  · exact Nat.le_refl 16
  · intro h
    have h1 : byteBits a ++ byteBits b = byteBits c ++ byteBits d := by simpa [bufBits] using h
    have h2 := List.append_inj h1 rfl
    exact hne (by rw [byteBits_inj h2.1, byteBits_inj h2.2])

example : calcCrc [1, 2, 3, 4] 4 0 1 ≠ calcCrc [1, 9, 3, 4] 4 0 1 :=
  C14_crc_two_bytes [1] [4] 2 3 9 3 0 (by decide)

/-- **C14**, linearity: the code of the exclusive-or of two messages of the same length, with the
exclusive-or of the seeds, is the exclusive-or of the codes. -/
theorem C14_crc_linear (l : List (BitVec 8 × BitVec 8)) (s t : BitVec 32) :
    calcCrc (l.map fun p => p.1 ^^^ p.2) l.length (s ^^^ t) 1 =
      (calcCrc (l.map (·.1)) l.length s 1).bind fun a => (calcCrc (l.map (·.2)) l.length t 1).map fun b => a ^^^ b := by
  have e1 := C14_crc_is_division (l.map fun p => p.1 ^^^ p.2) (s ^^^ t)
  have e2 := C14_crc_is_division (l.map (·.1)) s
  have e3 := C14_crc_is_division (l.map (·.2)) t
  rw [List.length_map] at e1 e2 e3
  rw [e1, e2, e3]
  have hb : ∀ a b : BitVec 8, ∀ g h : BitVec 16,
      crcBits (g ^^^ h) (byteBits (a ^^^ b)) = crcBits g (byteBits a) ^^^ crcBits h (byteBits b) := by
    intro a b g h
    simp only [byteBits, crcBits, List.foldl_cons, List.foldl_nil, BitVec.getLsbD_xor, feed_xor]
  have key : ∀ (l : List (BitVec 8 × BitVec 8)) (g h : BitVec 16),
      crcBits (g ^^^ h) (bufBits (l.map fun p => p.1 ^^^ p.2)) =
        crcBits g (bufBits (l.map (·.1))) ^^^ crcBits h (bufBits (l.map (·.2))) := by
    intro l
    induction l with
    | nil => intros; rfl
    | cons p l ih =>
      intro g h
      have hc : ∀ (b : BitVec 8) (r : List (BitVec 8)), bufBits (b :: r) = byteBits b ++ bufBits r := by
        intro b r; simp [bufBits]
      simp only [List.map_cons, hc, crcBits_append, hb, ih]
  simp only [Option.bind_some, Option.map_some, Option.some.injEq]
  rw [BitVec.setWidth_xor, key, BitVec.setWidth_xor]

example : calcCrc [0x31, 0x32, 0x33] 3 0 1 = some 0x9752 := by decide +kernel

end Verif.Crc
