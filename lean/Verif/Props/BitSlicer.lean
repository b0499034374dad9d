import Verif.BitSlicer

/-! # C09: `f_bits_get` undoes `f_bits_put` -/

namespace Verif.BitSlicer

/-- No 32-bit slice starts on a word boundary of the stream, `pos` being the number of bits before. -/
def NoAligned32 : Nat → List Int → Prop
  | _, [] => True
  | pos, w :: ws => (width w = 32 → pos % 32 ≠ 0) ∧ NoAligned32 (pos + width w) ws

theorem getLoop_spec (l : List (Int × W)) (pos : Nat) (s : Get) (r : List Bool) (hl : s.left ≤ 32)
    (hb : s.bits = slicesBits l ++ r) (hpos : (s.bits.length + pos) % 32 = 0)
    (hne : r ≠ [] ∨ ∀ p ∈ l, width p.1 ≠ 0) (h32 : NoAligned32 pos (l.map (·.1))) :
    getLoop (l.map (·.1)) s = some (l.map fun p => p.2 &&& BitVec.ofNat 32 (2 ^ width p.1 - 1)) := by
  induction l generalizing pos s with
  | nil => rfl
  | cons a l ih =>
    obtain ⟨w, v⟩ := a
    have hcons : slicesBits ((w, v) :: l) = toBits (width w) v.toNat ++ slicesBits l := by simp [slicesBits]
    rw [hcons, List.append_assoc] at hb
    simp only [List.map_cons, NoAligned32] at h32
    have hn : s.bits ≠ [] := by
      intro h0
      rw [h0] at hb
      have hh := congrArg List.length hb
      simp only [List.length_nil, List.length_append, toBits_length] at hh
      rcases hne with hne | hne
      · exact hne (List.length_eq_zero_iff.1 (by omega))
      · exact hne (w, v) (by simp) (by simp; omega)
    obtain ⟨t, s', e, hl', ht, hs⟩ := getSlice_spec (w := w) hl hn (by rw [hb]; simp)
      (by intro h; have := h32.1 h; omega)
    have hinj := List.append_inj (hb.symm.trans hs) (by simp)
    have htv : t = v &&& BitVec.ofNat 32 (2 ^ width w - 1) := by
      have hw := width_le w
      have hpw : 2 ^ width w ≤ 2 ^ 32 := Nat.pow_le_pow_right (by decide) hw
      have hpp : 0 < 2 ^ width w := Nat.two_pow_pos _
      have h2 : (v &&& BitVec.ofNat 32 (2 ^ width w - 1)).toNat = v.toNat % 2 ^ width w := by
        rw [BitVec.toNat_and, BitVec.toNat_ofNat, Nat.mod_eq_of_lt (by omega), Nat.and_two_pow_sub_one_eq_mod]
      apply BitVec.eq_of_toNat_eq
      rw [h2]
      exact toBits_inj ht (Nat.mod_lt _ hpp) (by rw [toBits_mod]; exact hinj.1.symm)
    have := ih (pos + width w) s' hl' hinj.2.symm
      (by have := congrArg List.length hs; simp at this; omega)
      (by rcases hne with h | h
          · exact Or.inl h
          · exact Or.inr fun p hp => h p (by simp [hp]))
      h32.2
    simp [getLoop, e, this, htv]

/-- **C09**, the part that holds.  Slices of any requested widths (widths are clamped to 0..32 by the
code) put in a bit array and got back with the same widths come back masked to their width.  `put`
leaves the words after the last one it needs alone.

Missing: a 32-bit slice that starts on a word boundary (`C09_aligned32_witness`), and zero-width
slices at the very end of a completely filled array (`C09_overread_witness`). -/
theorem C09_bits_roundtrip_partial (junk : W) (dst : List W) (l : List (Int × W))
    (room : ((l.map fun p => width p.1).sum) ≤ 32 * dst.length)
    (tail : ((l.map fun p => width p.1).sum) < 32 * dst.length ∨ ∀ p ∈ l, width p.1 ≠ 0)
    (noAligned : NoAligned32 0 (l.map (·.1))) :
    ∃ m, fBitsPut dst l = some m ∧
      m.drop (((l.map fun p => width p.1).sum + 31) / 32) = dst.drop (((l.map fun p => width p.1).sum + 31) / 32) ∧
      fBitsGet junk m (l.map (·.1)) = some (l.map fun p => p.2 &&& BitVec.ofNat 32 (2 ^ width p.1 - 1)) := by
  have ht : total (l.map (·.1)) = (l.map fun p => width p.1).sum := by simp [total, Function.comp_def]
  rw [← ht] at room tail ⊢
  obtain ⟨m, e, hlen, ⟨r, hr⟩, hd⟩ := fBitsPut_spec dst l room
  refine ⟨m, e, hd, ?_⟩
  have hml := congrArg List.length hr
  rw [List.length_append, memBits_length, slicesBits_length] at hml
  apply getLoop_spec l 0 _ r (by simp) (by simp [Get.bits, hr])
  · simp [Get.bits]
  · rcases tail with h | h
    · left; intro h0; rw [h0] at hml; simp at hml; omega
    · exact Or.inr h
  · exact noAligned

/-- The hypotheses are met by slices that cross word boundaries, including a 32-bit one. -/
example : ∃ m, fBitsPut [7, 7, 7, 7] [(4, 0xAB), (32, 0xDEADBEEF), (0, 5), (17, 0x1FFFF), (40, 0x12345678)] = some m ∧
    m.drop 3 = [7] ∧
    fBitsGet 99 m [4, 32, 0, 17, 40] = some [0xB, 0xDEADBEEF, 0, 0x1FFFF, 0x12345678] := by
  have := C09_bits_roundtrip_partial 99 [7, 7, 7, 7] [(4, 0xAB), (32, 0xDEADBEEF), (0, 5), (17, 0x1FFFF), (40, 0x12345678)]
    (by decide) (by decide) (by simp [NoAligned32, width])
  exact this

/-- The claim fails for a 32-bit slice at the start of a word: the word after it is returned instead. -/
theorem C09_aligned32_witness :
    (fBitsPut [0, 0] [(32, 1), (32, 2)]).bind (fun m => fBitsGet 0 (m ++ [3]) [32, 32]) = some [2, 3] := by
  decide +kernel

/-- Even a single 32-bit slice in a one-word array is read outside the array. -/
theorem C09_aligned32_overread : ∀ v junk : W,
    (fBitsPut [0] [(32, v)]) = some [v] ∧ fBitsGet junk [v] [32] = none := by
  intro v junk
  constructor
  · simp [fBitsPut, putLoop, putSlice, width, Put.push, store, putFlush]
  · simp [fBitsGet, getLoop, getSlice, refill, width]

/-- A zero-width slice after a full array makes `f_bits_get` read one word beyond it. -/
theorem C09_overread_witness : (fBitsPut [0] [(16, 1), (16, 2), (0, 0)]).bind
    (fun m => fBitsGet 0 m [16, 16, 0]) = none ∧ (fBitsPut [0] [(16, 1), (16, 2), (0, 0)]).isSome := by
  decide +kernel

end Verif.BitSlicer
