import Verif.FstDataRound

/-! # Property C84: a field written with a data type and a packing density is read back

Each theorem follows a request through `plan` (arguments of `c_fstecr`), `writeData` (entry and words of the
record) and `readData` (`c_fstluk`). -/

namespace Verif.FstData

open Grid (Rounding)

variable {ni nj nk nb : Nat} (u1 u2 : W) (R : Rounding) (sub : FloatPacker.F32 → FloatPacker.F32 → FloatPacker.F32)

theorem area_len (nw : Nat) : (cleared nw).length = nw + 129 := by simp [cleared, writeArea]

/-- C84.  Unsigned integers (type 2) in words: every field of `nb`-bit values comes back. -/
theorem C84_unsigned (D : Dims ni nj nk nb) (hnb : nb ≤ 32) (xs out : List W) (hx : xs.length = ni * nj * nk)
    (hfit : ∀ x ∈ xs, x.toNat < 2 ^ nb) (hout : xs.length ≤ out.length) :
    ∃ p s, plan false [] 2 (-(nb : Int)) ni nj nk = some p ∧ writeData u1 R p .word ni nj nk (.words xs) = some s ∧
      s.datyp = 2 ∧ s.nbits = nb ∧
      readData u2 R sub s .word ni nj nk (.words out) = some (.words (xs ++ out.drop xs.length)) := by
  have hw := nwords_default (t := 2) (ni * nj * nk) nb (by omega)
  obtain ⟨d, e, l, rd⟩ := integer_record false u1 u2 xs [] out (cleared (nwords 2 (ni * nj * nk) nb)) nb
    (nwords 2 (ni * nj * nk) nb) D.hnb.1 hnb (by simpa using hfit) (by rw [area_len]; omega) (by rw [hw, hx]; omega) hout
  rw [List.append_nil, hx] at e
  refine ⟨_, ⟨2, nb, false, d.take (nwords 2 (ni * nj * nk) nb)⟩,
    plan_same (by decide) (by omega) (by omega) (by omega) D, ?_, rfl, rfl, ?_⟩
  · unfold writeData
    simp [e]
  · obtain ⟨z, hz, ez⟩ := work_default ⟨2, nb, false, d.take (nwords 2 (ni * nj * nk) nb)⟩ (ni * nj * nk) .word (by simp) (by simp)
    have := rd z hz
    rw [hx] at this
    unfold readData
    simp [ez, this, hx]

/-- C84.  Unsigned integers in 16-bit elements, of at most 16 bits. -/
theorem C84_unsigned_short (D : Dims ni nj nk nb) (xs out : List (BitVec 16)) (hx : xs.length = ni * nj * nk)
    (hfit : ∀ x ∈ xs, x.toNat < 2 ^ nb) (hout : xs.length ≤ out.length) :
    ∃ p s, plan false [] 2 (-(nb : Int)) ni nj nk = some p ∧ writeData u1 R p .short ni nj nk (.shorts xs) = some s ∧
      s.datyp = 2 ∧ s.nbits = min 16 nb ∧
      readData u2 R sub s .short ni nj nk (.shorts out) = some (.shorts (xs ++ out.drop xs.length)) := by
  have hw := nwords_default (t := 2) (ni * nj * nk) nb (by omega)
  have hmul : ni * nj * nk * min 16 nb ≤ ni * nj * nk * nb := Nat.mul_le_mul_left _ (by omega)
  have hb := D.hnb
  obtain ⟨d, e, l, rd⟩ := narrow_record (k := 16) (by omega) u1 u2 xs out (cleared (nwords 2 (ni * nj * nk) nb))
    (min 16 nb) (nwords 2 (ni * nj * nk) nb) (by omega) (by omega)
    (by
      intro x hx
      rcases Nat.le_total 16 nb with h | h
      · rw [Nat.min_eq_left h]; exact x.isLt
      · rw [Nat.min_eq_right h]; exact hfit x hx)
    (by rw [area_len]; omega) (by rw [hw, hx]; omega) hout
  rw [hx] at e
  refine ⟨_, ⟨2, min 16 nb, false, d.take (nwords 2 (ni * nj * nk) nb)⟩,
    plan_same (by decide) (by omega) (by omega) (by omega) D, ?_, rfl, rfl, ?_⟩
  · unfold writeData
    simp [e]
  · obtain ⟨z, hz, ez⟩ := work_default ⟨2, min 16 nb, false, d.take (nwords 2 (ni * nj * nk) nb)⟩ (ni * nj * nk) .short (by simp) (by simp)
    have := rd z hz
    rw [hx] at this
    unfold readData
    simp [ez, this, hx]

/-- C84.  Unsigned integers in bytes; the density must keep 8 bits (see `C84_byte_witness`). -/
theorem C84_unsigned_byte_partial (D : Dims ni nj nk nb) (h8 : 8 ≤ nb) (xs out : List (BitVec 8)) (hx : xs.length = ni * nj * nk)
    (hout : xs.length ≤ out.length) :
    ∃ p s, plan false [] 2 (-(nb : Int)) ni nj nk = some p ∧ writeData u1 R p .byte ni nj nk (.bytes xs) = some s ∧
      s.datyp = 2 ∧ s.nbits = 8 ∧
      readData u2 R sub s .byte ni nj nk (.bytes out) = some (.bytes (xs ++ out.drop xs.length)) := by
  have hw := nwords_default (t := 2) (ni * nj * nk) nb (by omega)
  have hmul : ni * nj * nk * 8 ≤ ni * nj * nk * nb := Nat.mul_le_mul_left _ h8
  obtain ⟨d, e, l, rd⟩ := narrow_record (k := 8) (by omega) u1 u2 xs out (cleared (nwords 2 (ni * nj * nk) nb))
    8 (nwords 2 (ni * nj * nk) nb) (by omega) (by omega) (fun x _ => x.isLt)
    (by rw [area_len]; omega) (by rw [hw, hx]; omega) hout
  rw [hx] at e
  refine ⟨_, ⟨2, 8, false, d.take (nwords 2 (ni * nj * nk) nb)⟩,
    plan_same (by decide) (by omega) (by omega) (by omega) D, ?_, rfl, rfl, ?_⟩
  · unfold writeData
    simp [Nat.min_eq_left h8, e]
  · obtain ⟨z, hz, ez⟩ := work_default ⟨2, 8, false, d.take (nwords 2 (ni * nj * nk) nb)⟩ (ni * nj * nk) .byte (by simp) (by simp)
    have := rd z hz
    rw [hx] at this
    unfold readData
    simp [ez, this, hx]

/-- C84.  Signed integers (type 4) in words. -/
theorem C84_signed (D : Dims ni nj nk nb) (hnb : nb ≤ 32) (xs out : List W) (hx : xs.length = ni * nj * nk)
    (hfit : ∀ x ∈ xs, -2 ^ (nb - 1) ≤ x.toInt ∧ x.toInt < 2 ^ (nb - 1)) (hout : xs.length ≤ out.length) :
    ∃ p s, plan false [] 4 (-(nb : Int)) ni nj nk = some p ∧ writeData u1 R p .word ni nj nk (.words xs) = some s ∧
      s.datyp = 4 ∧ s.nbits = nb ∧
      readData u2 R sub s .word ni nj nk (.words out) = some (.words (xs ++ out.drop xs.length)) := by
  have hw := nwords_default (t := 4) (ni * nj * nk) nb (by omega)
  obtain ⟨d, e, l, rd⟩ := integer_record true u1 u2 xs [] out (cleared (nwords 4 (ni * nj * nk) nb)) nb
    (nwords 4 (ni * nj * nk) nb) D.hnb.1 hnb (by simpa using hfit) (by rw [area_len]; omega) (by rw [hw, hx]; omega) hout
  rw [List.append_nil, hx] at e
  refine ⟨_, ⟨4, nb, false, d.take (nwords 4 (ni * nj * nk) nb)⟩,
    plan_same (by decide) (by omega) (by omega) (by omega) D, ?_, rfl, rfl, ?_⟩
  · unfold writeData
    simp [e]
  · obtain ⟨z, hz, ez⟩ := work_default ⟨4, nb, false, d.take (nwords 4 (ni * nj * nk) nb)⟩ (ni * nj * nk) .word (by simp) (by simp)
    have := rd z hz
    rw [hx] at this
    unfold readData
    simp [ez, this, hx]

theorem map_signExtend_setWidth {k : Nat} (hk : k ≤ 32) (xs : List (BitVec k)) :
    (xs.map (·.signExtend 32)).map (·.setWidth k) = xs := by
  rw [List.map_map]
  conv_rhs => rw [← List.map_id xs]
  apply List.map_congr_left
  intro x _
  apply BitVec.eq_of_getLsbD_eq
  intro i hi
  simp [BitVec.getLsbD_signExtend, hi]
  omega

/-- C84.  Signed integers in 16-bit elements and in bytes. -/
theorem C84_signed_narrow (D : Dims ni nj nk nb) (hnb : nb ≤ 32) (xs out : List (BitVec 16)) (ys outy : List (BitVec 8))
    (hx : xs.length = ni * nj * nk) (hy : ys.length = ni * nj * nk)
    (hfx : ∀ x ∈ xs, -2 ^ (nb - 1) ≤ x.toInt ∧ x.toInt < 2 ^ (nb - 1))
    (hfy : ∀ y ∈ ys, -2 ^ (nb - 1) ≤ y.toInt ∧ y.toInt < 2 ^ (nb - 1))
    (hox : xs.length ≤ out.length) (hoy : ys.length ≤ outy.length) :
    ∃ p s s', plan false [] 4 (-(nb : Int)) ni nj nk = some p ∧
      writeData u1 R p .short ni nj nk (.shorts xs) = some s ∧ s.datyp = 4 ∧ s.nbits = nb ∧
      readData u2 R sub s .short ni nj nk (.shorts out) = some (.shorts (xs ++ out.drop xs.length)) ∧
      writeData u1 R p .byte ni nj nk (.bytes ys) = some s' ∧ s'.datyp = 4 ∧ s'.nbits = nb ∧
      readData u2 R sub s' .byte ni nj nk (.bytes outy) = some (.bytes (ys ++ outy.drop ys.length)) := by
  have hw := nwords_default (t := 4) (ni * nj * nk) nb (by omega)
  have key : ∀ (k : Nat) (hk : k ≤ 32) (xs : List (BitVec k)), xs.length = ni * nj * nk →
      (∀ x ∈ xs, -2 ^ (nb - 1) ≤ x.toInt ∧ x.toInt < 2 ^ (nb - 1)) →
      ∃ d, compactIntegerPack u1 true false (xs.map (·.signExtend 32))
          (cleared (nwords 4 (ni * nj * nk) nb)) (ni * nj * nk) nb 0 1 = some ((nb : Int), none, d) ∧
        ∀ z : List W, z ≠ [] → compactIntegerUnpack u2 true (List.replicate (ni * nj * nk) 0) none
          (d.take (nwords 4 (ni * nj * nk) nb) ++ z) (ni * nj * nk) nb 0 1 = some ((nb : Int), xs.map (·.signExtend 32)) := by
    intro k hk xs hx hf
    obtain ⟨d, e, l, rd⟩ := integer_record true u1 u2 (xs.map (·.signExtend 32)) [] (List.replicate (ni * nj * nk) 0)
      (cleared (nwords 4 (ni * nj * nk) nb)) nb
      (nwords 4 (ni * nj * nk) nb) D.hnb.1 hnb
      (by
        intro w hw
        obtain ⟨x, hx, rfl⟩ := List.mem_map.1 hw
        rw [if_pos rfl, BitVec.toInt_signExtend_of_le hk]
        exact hf x hx)
      (by rw [area_len]; omega) (by rw [hw, List.length_map, hx]; omega) (by simp [hx])
    rw [List.append_nil, List.length_map, hx] at e
    refine ⟨d, e, fun z hz => ?_⟩
    have := rd z hz
    rw [List.length_map, hx] at this
    simpa using this
  obtain ⟨d, e, rd⟩ := key 16 (by omega) xs hx hfx
  obtain ⟨d', e', rd'⟩ := key 8 (by omega) ys hy hfy
  refine ⟨_, ⟨4, nb, false, d.take (nwords 4 (ni * nj * nk) nb)⟩, ⟨4, nb, false, d'.take (nwords 4 (ni * nj * nk) nb)⟩,
    plan_same (by decide) (by omega) (by omega) (by omega) D, ?_, rfl, rfl, ?_, ?_, rfl, rfl, ?_⟩
  · unfold writeData
    simp [e]
  · obtain ⟨z, hz, ez⟩ := work_default ⟨4, nb, false, d.take (nwords 4 (ni * nj * nk) nb)⟩ (ni * nj * nk) .short (by simp) (by simp)
    have hm := map_signExtend_setWidth (k := 16) (by omega) xs
    unfold readData
    simp only [ez, Option.bind_some, rd z hz]
    simp [← hx, hox, hm]
  · unfold writeData
    simp [e']
  · obtain ⟨z, hz, ez⟩ := work_default ⟨4, nb, false, d'.take (nwords 4 (ni * nj * nk) nb)⟩ (ni * nj * nk) .byte (by simp) (by simp)
    have hm := map_signExtend_setWidth (k := 8) (by omega) ys
    unfold readData
    simp only [ez, Option.bind_some, rd' z hz]
    simp [← hy, hoy, hm]

/-- C84.  Character strings (type 7); the density must keep 8 bits (see `C84_text_witness`). -/
theorem C84_text_partial (D : Dims ni nj nk nb) (h8 : 8 ≤ nb) (len : Len) (xs out : List (BitVec 8)) (hx : xs.length = ni * nj * nk)
    (hout : xs.length ≤ out.length) :
    ∃ p s, plan false [] 7 (-(nb : Int)) ni nj nk = some p ∧ writeData u1 R p len ni nj nk (.bytes xs) = some s ∧
      s.datyp = 7 ∧ readData u2 R sub s len ni nj nk (.bytes out) = some (.bytes (xs ++ out.drop xs.length)) := by
  have hw := nwords_default (t := 7) (ni * nj * nk) nb (by omega)
  have hmul : ni * nj * nk * 8 ≤ ni * nj * nk * nb := Nat.mul_le_mul_left _ h8
  obtain ⟨d, e, l, rd⟩ := narrow_record (k := 8) (by omega) u1 u2 xs out (cleared (nwords 7 (ni * nj * nk) nb))
    8 (nwords 7 (ni * nj * nk) nb) (by omega) (by omega) (fun x _ => x.isLt)
    (by rw [area_len]; omega) (by rw [hw, hx]; omega) hout
  rw [hx] at e
  refine ⟨_, ⟨7, nb, false, d.take (nwords 7 (ni * nj * nk) nb)⟩, plan_same (by decide) (by omega) (by omega) (by omega) D, ?_, rfl, ?_⟩
  · unfold writeData
    simp [e]
  · obtain ⟨z, hz, ez⟩ := work_default ⟨7, nb, false, d.take (nwords 7 (ni * nj * nk) nb)⟩ (ni * nj * nk) len (by simp) (by simp)
    have := rd z hz
    rw [hx] at this
    unfold readData
    simp [ez, this, hx]

/-- C84.  Characters, four in a word (type 3): one level, and a density that keeps 8 bits (see
`C84_char_witness`). -/
theorem C84_char_partial (D : Dims ni nj 1 nb) (h8 : 8 ≤ nb) (len : Len) (xs out : List W) (hx : xs.length = (ni * nj + 3) / 4)
    (hout : xs.length ≤ out.length) :
    ∃ p s, plan false [] 3 (-(nb : Int)) ni nj 1 = some p ∧ writeData u1 R p len ni nj 1 (.words xs) = some s ∧
      s.datyp = 3 ∧ s.nbits = 8 ∧
      readData u2 R sub s len ni nj 1 (.words out) = some (.words (xs ++ out.drop xs.length)) := by
  have hw := nwords_default (t := 3) (ni * nj * 1) nb (by omega)
  have hmul : ni * nj * 1 * 8 ≤ ni * nj * 1 * nb := Nat.mul_le_mul_left _ h8
  obtain ⟨d, e, l, rd⟩ := integer_record false u1 u2 xs [] out (cleared (nwords 3 (ni * nj * 1) nb)) 32
    (nwords 3 (ni * nj * 1) nb) (by omega) (by omega) (fun x _ => by simpa using x.isLt) (by rw [area_len]; omega)
    (by rw [hw, hx]; omega) hout
  rw [List.append_nil, hx] at e
  refine ⟨_, ⟨3, 8, false, d.take (nwords 3 (ni * nj * 1) nb)⟩, plan_same (by decide) (by omega) (by omega) (by omega) D, ?_, rfl, rfl, ?_⟩
  · simp only [Nat.mul_one, Nat.cast_ofNat] at e ⊢
    unfold writeData
    simp [e]
  · obtain ⟨z, hz, ez⟩ := work_default ⟨3, 8, false, d.take (nwords 3 (ni * nj * 1) nb)⟩ (ni * nj * 1) len (by simp) (by simp)
    have := rd z hz
    rw [hx] at this
    simp only [Nat.mul_one, Nat.cast_ofNat] at this ez ⊢
    unfold readData
    simp [ez, this, hx]

/-- C84.  Transparent data: type 0 with a density of `nb` bits, or no packing (density 0 or 1) whatever the type
is: the words that hold `ni * nj * nk` elements come back.  (For complex fields these are half of the
data, see `C84_complex_witness`.) -/
theorem C84_plain_partial (D : Dims ni nj nk nb) (ori : Nat) (npak : Int) (len : Len) (xs t out : List W)
    (hreq : (ori = 0 ∧ npak = -(nb : Int)) ∨ ((npak = 0 ∨ npak = 1) ∧ nb = 32))
    (hx : xs.length = (ni * nj * nk * nb + 31) / 32) (hout : xs.length ≤ out.length) :
    ∃ p s, plan false [] ori npak ni nj nk = some p ∧ writeData u1 R p len ni nj nk (.words (xs ++ t)) = some s ∧
      s.datyp = 0 ∧ s.nbits = nb ∧
      readData u2 R sub s len ni nj nk (.words out) = some (.words (xs ++ out.drop xs.length)) := by
  have hw := nwords_default (t := 0) (ni * nj * nk) nb (by omega)
  obtain ⟨p, hp, hd, hn⟩ : ∃ p, plan false [] ori npak ni nj nk = some p ∧ p.datyp = 0 ∧ p.nbits = nb := by
    rcases hreq with ⟨rfl, rfl⟩ | ⟨h, rfl⟩
    · exact ⟨_, plan_same (by decide) (by omega) (by omega) (by omega) D, rfl, rfl⟩
    · have hb : nbitsOf npak = 32 := by
        rcases h with rfl | rfl <;> decide
      have hc := D.size
      have h2 := D.hni
      have h3 := D.hnj
      have h4 := D.hnk
      have h1 : ∀ a b, (plan1 false a b 32).2 = 32 := by intro a b; unfold plan1; split <;> rfl
      unfold plan
      simp only [hb, h1, h, if_true, Int.reduceToNat]
      rw [if_neg (by omega)]
      refine ⟨_, rfl, ?_, ?_⟩ <;> simp [remapped, plan2]
  refine ⟨p, ⟨0, nb, p.missing, (xs ++ List.replicate (writeArea (nwords 0 (ni * nj * nk) nb) - xs.length) 0).take (nwords 0 (ni * nj * nk) nb)⟩,
    hp, ?_, rfl, rfl, ?_⟩
  · unfold writeData
    simp only [hd, hn, true_or, if_true, ← hx]
    unfold copyWords
    rw [if_pos ⟨by simp, by unfold writeArea; omega⟩]
    simp
  · obtain ⟨z, hz, ez⟩ := work_default ⟨0, nb, p.missing, (xs ++ List.replicate (writeArea (nwords 0 (ni * nj * nk) nb) - xs.length) 0).take
      (nwords 0 (ni * nj * nk) nb)⟩ (ni * nj * nk) len (by simp) (by simp)
    unfold readData
    simp only [ez, Option.bind_some, if_true, ← hx]
    rw [if_pos ⟨hout, by simp [writeArea]; omega⟩]
    rw [List.take_append, List.take_take, Nat.min_eq_left (by omega), List.take_left]
    simp [writeArea]
    left
    omega

theorem ieee_round (xs ipk fld : List W) (nb nw : Nat) (h1 : 1 ≤ nb) (h32 : nb ≤ 32) (hx : xs ≠ [])
    (hnw : nw ≤ ipk.length) (hroom : xs.length * nb ≤ 32 * nw) (hf : xs.length < fld.length) :
    ∃ d, ieeePut xs ipk xs.length nb = some d ∧
      ∀ z : List W, ieeeGet fld (d.take nw ++ z) xs.length nb =
        some (xs.map (· &&& (BitVec.allOnes 32 <<< (32 - nb))) ++ fld.drop xs.length) := by
  obtain ⟨d, r, e, l, -, er, lr, v, o⟩ := Ieeepak.C11_ieeepak_roundtrip xs ipk fld (-(nb : Int)) nb (by omega) h32 hx (by omega) hf
  have hpos := List.length_pos_iff.2 hx
  refine ⟨d, ?_, fun z => ?_⟩
  · unfold ieeePut
    rw [if_neg (by omega), if_pos (le_refl _), List.take_length, e]
  · unfold ieeeGet
    rw [if_neg (by omega), ieee_record fld d z xs.length nb nw hpos h1 h32 (by omega) hroom, er]
    congr 1
    apply List.ext_getElem?
    intro i
    by_cases h : i < xs.length
    · rw [v i h, List.getElem?_append_left (by simpa using h), List.getElem?_map]
    · rw [o i (by omega), List.getElem?_append_right (by simp; omega), List.getElem?_drop]
      congr 1
      simp; omega

/-- C84.  IEEE reals: type 5 with at most 32 bits keeps the leading `kept = nb` bits of each value; type 1 with 31 or 32
bits and type 6 with more than 24 bits are stored as type 5 and keep all 32 bits.  The array of the
caller must have one more readable word (see `C11_overread_witness`). -/
theorem C84_ieee (t kept : Nat)
    (hreq : (t = 5 ∧ nb ≤ 32 ∧ kept = nb ∧ Dims ni nj nk nb) ∨ (t = 1 ∧ (nb = 31 ∨ nb = 32) ∧ kept = 32 ∧ Dims ni nj nk 32) ∨
      (t = 6 ∧ 24 < nb ∧ kept = 32 ∧ Dims ni nj nk nb))
    (len : Len) (xs out : List W) (hx : xs.length = ni * nj * nk) (hout : xs.length < out.length) :
    ∃ p s, plan false [] t (-(nb : Int)) ni nj nk = some p ∧ writeData u1 R p len ni nj nk (.words xs) = some s ∧
      s.datyp = 5 ∧ s.nbits = kept ∧
      readData u2 R sub s len ni nj nk (.words out) =
        some (.words (xs.map (· &&& (BitVec.allOnes 32 <<< (32 - kept))) ++ out.drop xs.length)) := by
  have hw := nwords_default (t := 5) (ni * nj * nk) kept (by omega)
  obtain ⟨D1, hk1, hk⟩ : 1 ≤ ni * nj * nk ∧ 1 ≤ kept ∧ kept ≤ 32 := by
    rcases hreq with ⟨-, h, rfl, D⟩ | ⟨-, -, rfl, D⟩ | ⟨-, -, rfl, D⟩
    · exact ⟨D.pos, D.hnb.1, h⟩
    · exact ⟨D.pos, by omega, by omega⟩
    · exact ⟨D.pos, by omega, by omega⟩
  have hp : plan false [] t (-(nb : Int)) ni nj nk = some ⟨t, 5, kept, false⟩ := by
    rcases hreq with ⟨rfl, h, rfl, D⟩ | ⟨rfl, h, rfl, D⟩ | ⟨rfl, h, rfl, D⟩
    · exact plan_same (by decide) (by omega) (by omega) (by omega) D
    · have e : plan1 false 1 1 nb = (5, 32) := by
        unfold plan1
        rw [if_pos ⟨rfl, h, rfl⟩]
      have := plan_neg (t := 1) (nb := nb) (ni := ni) (nj := nj) (nk := nk) (by decide) (by omega) (by omega) (by omega)
        (by rw [e]; exact D)
      rw [e] at this
      exact this
    · have e : plan1 false 6 6 nb = (6, nb) := plan1_same (by omega)
      have := plan_neg (t := 6) (nb := nb) (ni := ni) (nj := nj) (nk := nk) (by decide) (by omega) (by omega) (by omega)
        (by rw [e]; exact D)
      rw [e] at this
      have e2 : plan2 6 nb = (5, 32) := by
        unfold plan2
        have : (6 : Nat) &&& 0x7F = 6 := by decide
        simp only [this, ite_self]
        simp [h]
      rw [e2] at this
      exact this
  obtain ⟨d, e, rd⟩ := ieee_round xs (cleared (nwords 5 (ni * nj * nk) kept)) out kept (nwords 5 (ni * nj * nk) kept) hk1 hk
    (by intro h; have := congrArg List.length h; rw [List.length_nil] at this; omega) (by rw [area_len]; omega) (by rw [hw, hx]; omega) hout
  refine ⟨_, ⟨5, kept, false, d.take (nwords 5 (ni * nj * nk) kept)⟩, hp, ?_, rfl, rfl, ?_⟩
  · rw [hx] at e
    unfold writeData
    simp [e]
  · obtain ⟨z, hz, ez⟩ := work_default ⟨5, kept, false, d.take (nwords 5 (ni * nj * nk) kept)⟩ (ni * nj * nk) len (by simp) (by simp)
    have := rd z
    rw [hx] at this
    unfold readData
    simp [ez, this, hx]

theorem ieee_round64 (xs ipk fld : List W) (cnt nw : Nat) (hx : xs.length = 2 * cnt) (hnw : nw ≤ ipk.length)
    (hroom : xs.length ≤ nw) (hf : xs.length ≤ fld.length) :
    ∃ d, ieeePut xs ipk cnt 64 = some d ∧
      (∀ i < cnt, (d.take nw)[2 * i]? = xs[2 * i + 1]? ∧ (d.take nw)[2 * i + 1]? = xs[2 * i]?) ∧
      ∀ z : List W, ieeeGet fld (d.take nw ++ z) cnt 64 = some (xs ++ fld.drop xs.length) := by
  obtain ⟨h1, h2⟩ := swapPairs_swapPairs cnt xs hx
  refine ⟨swapPairs xs ++ ipk.drop (2 * cnt), ?_, fun i hi => ?_, fun z => ?_⟩
  · unfold ieeePut
    rw [if_pos rfl, if_pos ⟨by omega, by omega⟩, ← hx, List.take_length]
  · rw [List.getElem?_take_of_lt (by omega), List.getElem?_take_of_lt (by omega),
      List.getElem?_append_left (by omega), List.getElem?_append_left (by omega)]
    exact swapPairs_get cnt xs hx i hi
  · unfold ieeeGet
    rw [if_pos rfl, if_pos ⟨by omega, by simp; omega⟩]
    rw [List.take_append_of_le_length (by simp; omega), List.take_take, Nat.min_eq_left (by omega),
      List.take_left' h2, h1, hx]

/-- C84.  Doubles (type 5 with 64 bits): every bit is kept; in the file the most significant half of a number is
first (in memory, `xs`, the least significant half is first). -/
theorem C84_double (D : Dims ni nj nk 64) (len : Len) (xs out : List W) (hx : xs.length = 2 * (ni * nj * nk))
    (hout : xs.length ≤ out.length) :
    ∃ p s, plan false [] 5 (-64) ni nj nk = some p ∧ writeData u1 R p len ni nj nk (.words xs) = some s ∧
      s.datyp = 5 ∧ s.nbits = 64 ∧
      (∀ i < ni * nj * nk, s.words[2 * i]? = xs[2 * i + 1]? ∧ s.words[2 * i + 1]? = xs[2 * i]?) ∧
      readData u2 R sub s len ni nj nk (.words out) = some (.words (xs ++ out.drop xs.length)) := by
  have hw := nwords_default (t := 5) (ni * nj * nk) 64 (by omega)
  obtain ⟨d, e, ho, rd⟩ := ieee_round64 xs (cleared (nwords 5 (ni * nj * nk) 64)) out (ni * nj * nk) (nwords 5 (ni * nj * nk) 64)
    hx (by rw [area_len]; omega) (by rw [hw, hx]; omega) hout
  refine ⟨_, ⟨5, 64, false, d.take (nwords 5 (ni * nj * nk) 64)⟩,
    plan_same (t := 5) (nb := 64) (by decide) (by omega) (by omega) (by omega) D, ?_, rfl, rfl, ho, ?_⟩
  · unfold writeData
    simp [e]
  · obtain ⟨z, hz, ez⟩ := work_default ⟨5, 64, false, d.take (nwords 5 (ni * nj * nk) 64)⟩ (ni * nj * nk) len (by simp) (by simp)
    unfold readData
    simp [ez, rd z]

/-- C84.  Complex fields (type 8, with or without the flags 64 and 128): real and imaginary parts keep their
leading bits; with 64 bits every bit. -/
theorem C84_complex (ori : Nat) (hori : ori = 8 ∨ ori = 8 + 64 ∨ ori = 8 + 128 ∨ ori = 8 + 64 + 128) (D : Dims ni nj nk nb)
    (len : Len) (xs out : List W)
    (hx : if nb = 64 then xs.length = 4 * (ni * nj * nk) else nb ≤ 32 ∧ xs.length = 2 * (ni * nj * nk))
    (hout : xs.length < out.length) :
    ∃ p s, plan false [] ori (-(nb : Int)) ni nj nk = some p ∧ writeData u1 R p len ni nj nk (.words xs) = some s ∧
      s.datyp = 8 ∧ s.nbits = nb ∧ s.missing = false ∧
      readData u2 R sub s len ni nj nk (.words out) =
        some (.words (xs.map (· &&& (BitVec.allOnes 32 <<< (32 - nb))) ++ out.drop xs.length)) := by
  have hw : nwords 8 (ni * nj * nk) nb = 2 * (2 * ((ni * nj * nk * nb + 63) / 64)) := by
    unfold nwords
    rw [if_neg (by omega), if_pos rfl]
  have hp : plan false [] ori (-(nb : Int)) ni nj nk = some ⟨8, 8, nb, false⟩ := by
    have h8 : plan false [] 8 (-(nb : Int)) ni nj nk = some ⟨8, 8, nb, false⟩ :=
      plan_same (by decide) (by omega) (by omega) (by omega) D
    rw [← h8]
    rcases hori with rfl | rfl | rfl | rfl <;> rfl
  have hpos := D.pos
  have hb := D.hnb
  obtain ⟨d, e, rd⟩ : ∃ d, ieeePut xs (cleared (nwords 8 (ni * nj * nk) nb)) (2 * (ni * nj * nk)) nb = some d ∧
      ∀ z : List W, ieeeGet out (d.take (nwords 8 (ni * nj * nk) nb) ++ z) (2 * (ni * nj * nk)) nb =
        some (xs.map (· &&& (BitVec.allOnes 32 <<< (32 - nb))) ++ out.drop xs.length) := by
    by_cases c : nb = 64
    · subst c
      rw [if_pos rfl] at hx
      have hid : xs.map (· &&& (BitVec.allOnes 32 <<< (32 - 64))) = xs := by
        conv_rhs => rw [← List.map_id xs]
        apply List.map_congr_left
        intro x _
        exact BitVec.and_allOnes
      rw [hid]
      obtain ⟨d, e, -, rd⟩ := ieee_round64 xs (cleared (nwords 8 (ni * nj * nk) 64)) out (2 * (ni * nj * nk))
        (nwords 8 (ni * nj * nk) 64) (by omega) (by rw [area_len]; omega) (by rw [hw]; omega) (by omega)
      exact ⟨d, e, rd⟩
    · rw [if_neg c] at hx
      rw [← hx.2]
      refine ieee_round xs _ out nb _ hb.1 hx.1 ?_ (by rw [area_len]; omega) ?_ hout
      · intro h; have := congrArg List.length h; rw [List.length_nil] at this; omega
      · rw [hw, hx.2, Nat.mul_assoc]; omega
  refine ⟨_, ⟨8, nb, false, d.take (nwords 8 (ni * nj * nk) nb)⟩, hp, ?_, rfl, rfl, rfl, ?_⟩
  · unfold writeData
    simp [e]
  · obtain ⟨z, hz, ez⟩ := work_default ⟨8, nb, false, d.take (nwords 8 (ni * nj * nk) nb)⟩ (ni * nj * nk) len (by simp) (by simp)
    unfold readData
    simp [ez, rd z]

end Verif.FstData
