import Verif.Base40

/-! # C12: base-40 names -/

namespace Verif.Base40

/-- **C12**.  A string of at most five characters over the base-40 alphabet comes back from
`B40TOC(CTOB40(s))` right-justified in eight characters, filled with `0` on the left.  Its code is the
base-40 number it spells, hence nonnegative. -/
theorem C12_base40_roundtrip (s : List Char) (h : ∀ c ∈ s, c ∈ alphabet) (hlen : s.length ≤ 5) :
    0 ≤ ctob40 s ∧ ctob40 s < 40 ^ s.length ∧
      b40toc (ctob40 s) = some (List.replicate (8 - s.length) '0' ++ s) := by
  have hv := value_lt s h
  have h5 : 40 ^ s.length ≤ 40 ^ 5 := Nat.pow_le_pow_right (by decide) hlen
  have h31 : (40 : Nat) ^ 5 < 2 ^ 31 := by decide
  have he := ctob40_eq s h (by omega)
  refine ⟨by omega, ?_, ?_⟩
  · rw [he]
    have : ((40 ^ s.length : Nat) : Int) = 40 ^ s.length := by simp
    omega
  · rw [he, b40toc, b40tocLoop_spec s h 8 (by omega) []]; simp

/-- **C12**, six to eight characters: the same holds exactly as long as the number spelled, that is
the base-40 value written in Horner form, stays below 2^31. -/
theorem C12_base40_long (s : List Char) (h : ∀ c ∈ s, c ∈ alphabet) (hlen : s.length ≤ 8)
    (hv : s.foldl (fun v c => 40 * v + alphabet.idxOf c) 0 < 2 ^ 31) :
    b40toc (ctob40 s) = some (List.replicate (8 - s.length) '0' ++ s) := by
  rw [ctob40_eq s h hv, b40toc, b40tocLoop_spec s h 8 hlen []]; simp

/-- **C12**, distinct strings of the same length get distinct codes. -/
theorem C12_base40_injective (s t : List Char) (hs : ∀ c ∈ s, c ∈ alphabet) (ht : ∀ c ∈ t, c ∈ alphabet)
    (hlen : s.length = t.length) (h5 : s.length ≤ 5) (he : ctob40 s = ctob40 t) : s = t := by
  have h1 := (C12_base40_roundtrip s hs h5).2.2
  have h2 := (C12_base40_roundtrip t ht (by omega)).2.2
  rw [he, h2, hlen] at h1
  simpa using h1.symm

example : (∀ c ∈ "TT 4:".toList, c ∈ alphabet) ∧ b40toc (ctob40 "TT 4:".toList) = some "000TT 4:".toList := by
  have h : ∀ c ∈ "TT 4:".toList, c ∈ alphabet := by decide
  exact ⟨h, (C12_base40_roundtrip _ h (by decide)).2.2⟩

example : b40toc (ctob40 "A0000Z".toList) = some "00A0000Z".toList :=
  C12_base40_long _ (by decide) (by decide) (by decide)

/-- From six characters on the code can overflow: `ZZZZZZ` comes back as another string, and
`VB40A1` gets a negative code, for which `B40TOC` indexes its table out of bounds. -/
theorem C12_overflow_witness :
    ctob40 "ZZZZZZ".toList ≠ 0 ∧ b40toc (ctob40 "ZZZZZZ".toList) ≠ some "00ZZZZZZ".toList ∧
    ctob40 "VB40A1".toList < 0 ∧ b40toc (ctob40 "VB40A1".toList) = none := by
  decide +kernel

/-- Strings of different lengths can share a code. -/
theorem C12_length_witness : ctob40 "A".toList = ctob40 "0A".toList := by decide +kernel

end Verif.Base40
