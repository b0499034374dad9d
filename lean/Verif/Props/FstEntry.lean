import Verif.Props.FstReal

/-! # C84: requests whose data do not come back; C85: missing values and the entry; C86: copies of records -/

namespace Verif.FstData

open Grid (Rounding)

/-! ## C84: examples and witnesses -/

/-- The conditions on dimensions are met, also by the largest number of bits. -/
theorem dims_example : Dims 4 2 3 12 ∧ Dims 1000 1000 10 32 ∧ Dims 7 1 1 64 :=
  ⟨⟨by decide, by decide, by decide, by decide, by decide⟩, ⟨by decide, by decide, by decide, by decide, by decide⟩,
    ⟨by decide, by decide, by decide, by decide, by decide⟩⟩

/-- A field is written and read again; the arithmetic of reals and undefined shifts do not matter for integers. -/
def through (ori : Nat) (npak : Int) (len : Len) (ni nj nk : Nat) (f out : Field) : Option Field :=
  (plan false [] ori npak ni nj nk).bind fun p =>
    (writeData 0 ⟨id, id⟩ p len ni nj nk f).bind fun s => readData 0 ⟨id, id⟩ (fun a _ => a) s len ni nj nk out

/-- Signed integers with twelve bits; the last element of the array of the caller is not touched. -/
example : through 4 (-12) .word 3 1 1 (.words [-5, 2047, -2048]) (.words [0, 0, 0, 77]) =
    some (.words [-5, 2047, -2048, 77]) := by decide +kernel

/-- Reals kept with 20 of 32 bits. -/
example : through 5 (-20) .word 2 1 1 (.words [0x3FC00001, 0xC2F6E979]) (.words [0, 0, 0]) =
    some (.words [0x3FC00000, 0xC2F6E000, 0]) := by decide +kernel

/-- Unsigned bytes with four bits: packed with four bits an element, read with eight. -/
theorem C84_byte_witness : through 2 (-4) .byte 4 1 1 (.bytes [1, 2, 3, 4]) (.bytes [9, 9, 9, 9]) =
    some (.bytes [0x12, 0x34, 0, 0]) := by decide +kernel

/-- Text with one bit an element: the record has room for 24 of 32 characters. -/
theorem C84_text_witness : through 7 (-1) .word 32 1 1 (.bytes (List.replicate 32 0x41)) (.bytes (List.replicate 32 9)) =
    some (.bytes (List.replicate 24 0x41 ++ List.replicate 8 0)) := by decide +kernel

/-- Characters on two levels: only one level is stored. -/
theorem C84_char_witness : through 3 (-8) .word 4 1 2 (.words [0x41424344, 0x45464748]) (.words [9, 9]) =
    some (.words [0x41424344, 0]) := by decide +kernel

/-- Doubles with data type 1 and 32 bits: the first half of the memory of the field is stored as if it were
32-bit reals.  Here the halves of one double. -/
theorem C84_double_witness : through 1 (-32) .double 1 1 1 (.words [0x54442D18, 0x400921FB]) (.words [9, 9]) =
    some (.words [0x54442D18, 9]) := by decide +kernel

/-- A complex field without packing: the imaginary part is not stored. -/
theorem C84_complex_witness : through 8 1 .word 1 1 1 (.words [0x3F800000, 0x40000000]) (.words [9, 9]) =
    some (.words [0x3F800000, 9]) := by decide +kernel

/-- The hypotheses of `C84_real_partial` are met: 1, 2, 3/2 with twelve bits. -/
example (u1 u2 : W) (sub : FloatPacker.F32 → FloatPacker.F32 → FloatPacker.F32) : ∃ p s ys,
    plan false [] 1 (-12) 3 1 1 = some p ∧
    writeData u1 ⟨Props.Grid.nearest 24, Props.Grid.nearest 53⟩ p .word 3 1 1 (.words [0x3f800000#32, 0x40000000#32, 0x3fc00000#32]) = some s ∧
    readData u2 ⟨Props.Grid.nearest 24, Props.Grid.nearest 53⟩ sub s .word 3 1 1 (.words []) = some (.reals ys) ∧ ys.length = 3 := by
  obtain ⟨p, s, ys, step, h1, h2, -, -, h3, h4, -⟩ := C84_real_partial u1 u2 sub Props.CompactFloat.prec_nearest 1
    (ni := 3) (nj := 1) (nk := 1) (nb := 12) (Or.inl ⟨rfl, by decide⟩)
    ⟨by decide, by decide, by decide, by decide, by decide⟩ .word (by decide)
    [0x3f800000#32, 0x40000000#32, 0x3fc00000#32] [] rfl 0x3f800000#32 0x40000000#32 (by decide) (by decide)
    (by
      intro x hx
      simp only [List.mem_cons, List.not_mem_nil, or_false] at hx
      rcases hx with rfl | rfl | rfl <;> decide +kernel)
    (by
      have f1 : CompactFloat.fval 0x3f800000#32 = 1 := by
        unfold CompactFloat.fval; rw [show FloatPacker.val 0x3f800000#32 = 2 ^ 149 by decide +kernel]; norm_num
      have f2 : CompactFloat.fval 0x40000000#32 = 2 := by
        unfold CompactFloat.fval; rw [show FloatPacker.val 0x40000000#32 = 2 ^ 150 by decide +kernel]; norm_num
      rw [f1, f2]
      unfold Props.CompactFloat.big
      norm_num)
    (Or.inr (by decide))
  exact ⟨p, s, ys, h1, h2, h3, h4⟩

/-! ## C85: the entry tells the reader how missing values were coded -/

theorem nibble (x : Nat) : x &&& 0x7F &&& 0xF = x &&& 0xF ∧ x &&& 0x3F &&& 0xF = x &&& 0xF ∧ x &&& 0xFFBF &&& 64 = 0 ∧
    x &&& 0x7F &&& 64 = x &&& 64 := by
  simp [Nat.and_assoc]

theorem ite_none {α : Type} {c : Prop} [Decidable c] {a p : α} (h : (if c then none else some a) = some p) : a = p := by
  split at h
  · exact absurd h (by simp)
  · exact Option.some.inj h

/-- What `plan` makes of the type, when data are packed: the class of the type is kept. -/
theorem plan_class {ori : Nat} {npak : Int} {ni nj nk : Nat} {p : Plan} (hp : plan false [] ori npak ni nj nk = some p)
    (h0 : npak ≠ 0) (h1 : npak ≠ 1) (hm : p.missing = true) :
    p.datyp &&& 64 = 0 ∧ (ori < 256 → p.datyp < 256) ∧
      (p.datyp &&& 0xF = p.inDatyp &&& 0xF ∨
        (p.inDatyp &&& 0xF = 1 ∨ p.inDatyp &&& 0xF = 6) ∧ (p.datyp = 5 ∧ p.nbits = 32 ∨ p.datyp = 1)) := by
  unfold plan at hp
  have hb : p.missing = (baseType ori).2 := by
    rw [← ite_none hp]
  rw [hm] at hb
  have hbt : baseType ori = (ori &&& 0xFFBF, true) ∧ ori ≠ 133 := by
    unfold baseType at hb ⊢
    dsimp only at hb ⊢
    split at hb
    · exact absurd hb (by simp)
    · rename_i h8
      dsimp only at hb
      rw [if_neg h8, ← hb]
      refine ⟨rfl, ?_⟩
      rintro rfl
      exact absurd hb (by decide)
  have hlt : ori < 256 → ori &&& 0xFFBF < 256 := fun h => lt_of_le_of_lt Nat.and_le_left h
  have hbit : ori &&& 0xFFBF &&& 64 = 0 := (nibble ori).2.2.1
  generalize ori &&& 0xFFBF = x at hbt hlt hbit
  rw [← ite_none hp]
  simp only [hbt.1, hbt.2, false_and, if_false, h0, h1, or_self, remapped, List.foldl_nil]
  generalize (nbitsOf npak).toNat = n
  unfold plan1 plan2
  have e := nibble x
  by_cases c1 : x = 1
  · subst c1
    by_cases c2 : n = 31 ∨ n = 32 <;> by_cases c3 : n > 16 <;> simp [c2, c3]
  · by_cases c2 : x = 801
    · subst c2
      by_cases c3 : n > 16 <;> simp [c3]
    · simp only [c1, c2, false_and, if_false]
      have key : ∀ y : Nat, y &&& 64 = 0 → (ori < 256 → y < 256) → y &&& 0xF = x &&& 0xF →
          ∀ r : Nat × Nat, r = (if y = 6 ∧ n > 24 then (5, 32) else if y = 6 ∧ n > 16 then (1, n) else (y, n)) →
          r.1 &&& 64 = 0 ∧ (ori < 256 → r.1 < 256) ∧ (r.1 &&& 0xF = x &&& 0xF ∨
            (x &&& 0xF = 1 ∨ x &&& 0xF = 6) ∧ (r.1 = 5 ∧ r.2 = 32 ∨ r.1 = 1)) := by
        intro y y1 y2 y3 r hr
        by_cases d1 : y = 6 ∧ n > 24
        · rw [if_pos d1] at hr
          obtain ⟨rfl, -⟩ := d1
          subst hr
          exact ⟨by decide, by simp, Or.inr ⟨Or.inr y3.symm, Or.inl ⟨rfl, rfl⟩⟩⟩
        · rw [if_neg d1] at hr
          by_cases d2 : y = 6 ∧ n > 16
          · rw [if_pos d2] at hr
            obtain ⟨rfl, -⟩ := d2
            subst hr
            exact ⟨by simp, by simp, Or.inr ⟨Or.inr y3.symm, Or.inr rfl⟩⟩
          · rw [if_neg d2] at hr
            subst hr
            exact ⟨y1, y2, Or.inl y3⟩
      by_cases c3 : n > 16 ∧ x ≠ 133
      · exact key (x &&& 0x7F) (by rw [e.2.2.2, hbit]) (fun h => lt_of_le_of_lt Nat.and_le_left (hlt h)) e.1 _ (by simp [c3])
      · refine key x hbit hlt rfl _ ?_
        simp only [Bool.false_eq_true, if_false]
        rw [if_neg c3]

theorem kindOf_congr {t t' : Nat} (b : Bool) (len : Len) (h : t &&& 0xF = t' &&& 0xF) : kindOf t b len = kindOf t' b len := by
  unfold kindOf
  rw [h]

/-- C85.  Data flagged as having missing values, packed (density not 0 or 1) and not refused by a compressor: if missing values were
coded in the field, the flag is in the entry, apart from the type, and the reader chooses the decoder for the same kind of elements. -/
theorem C85_partial {ori : Nat} {npak : Int} {ni nj nk : Nat} {p : Plan} (len : Len)
    (hp : plan false [] ori npak ni nj nk = some p) (h0 : npak ≠ 0) (h1 : npak ≠ 1) (hm : p.missing = true)
    (he : encodeKind p len ≠ .none) :
    ∃ t, entryType p false = (t, true) ∧ t &&& 64 = 0 ∧ (ori < 256 → t < 256) ∧ decodeKind t p.nbits len = encodeKind p len := by
  obtain ⟨c1, c2, c3⟩ := plan_class hp h0 h1 hm
  have hk : encodeKind p len = kindOf p.inDatyp (len = .double ∨ (p.inDatyp &&& 0xF = 5 ∧ p.nbits = 64)) len := by
    unfold encodeKind at he ⊢
    dsimp only at he ⊢
    split at he
    · exact absurd rfl he
    · rename_i h; rw [if_neg h]
  have main : ∀ t : Nat, t &&& 0xF = p.datyp &&& 0xF → decodeKind t p.nbits len = encodeKind p len := by
    intro t ht
    rw [hk]
    unfold decodeKind
    rw [ht]
    rcases c3 with c3 | ⟨ci, cd⟩
    · rw [c3]
      exact kindOf_congr _ _ (by rw [(nibble t).2.1, ht, c3])
    · have hd : p.datyp &&& 0xF = 5 ∧ p.nbits ≠ 64 ∨ p.datyp &&& 0xF = 1 := by
        rcases cd with ⟨h, h'⟩ | h
        · left; rw [h, h']; decide
        · right; rw [h]; decide
      unfold kindOf
      rw [(nibble t).2.1, ht]
      rcases ci with ci | ci <;> rcases hd with ⟨hd, hn⟩ | hd <;> simp [ci, hd] <;> simp [hn]
  have hn : kindOf p.inDatyp (len = .double ∨ (p.inDatyp &&& 0xF = 5 ∧ p.nbits = 64)) len ≠ .none := by rwa [← hk]
  have hnib : p.datyp &&& 0xF ≠ 0 ∧ p.datyp &&& 0xF ≠ 3 ∧ p.datyp &&& 0xF ≠ 7 ∧ p.datyp &&& 0xF ≠ 8 := by
    rcases c3 with c3 | ⟨-, cd⟩
    · rw [c3]
      refine ⟨?_, ?_, ?_, ?_⟩ <;>
      · intro h
        apply hn
        unfold kindOf
        simp [h]
    · rcases cd with ⟨h, -⟩ | h <;> rw [h] <;> decide
  have ne : ∀ k, k &&& 0xF = 0 ∨ k &&& 0xF = 3 ∨ k &&& 0xF = 7 ∨ k &&& 0xF = 8 → p.datyp ≠ k := by
    rintro k h rfl
    omega
  unfold entryType
  simp only [ne 128 (by decide), ne 131 (by decide), ne 135 (by decide), ne 136 (by decide), if_false, Bool.false_eq_true, and_false]
  by_cases d : p.datyp = 132
  · rw [if_pos d, hm]
    exact ⟨4, rfl, by decide, fun _ => by decide, main 4 (by rw [d]; decide)⟩
  · rw [if_neg d, hm]
    exact ⟨p.datyp, rfl, c1, c2, main _ rfl⟩

/-- The entry of the model of `c_fstecr` is the one of C85. -/
theorem C85_entry {u : W} {R : Rounding} {p : Plan} {len : Len} {ni nj nk : Nat} {f : Field} {s : Stored}
    (h : writeData u R p len ni nj nk f = some s) : (s.datyp, s.missing) = entryType p false := by
  unfold writeData at h
  unfold entryType
  obtain ⟨inD, d, nb, m⟩ := p
  simp only at h ⊢
  by_cases c : d = 0 ∨ d = 128 ∨ d = 1 ∨ d = 2 ∨ d = 3 ∨ d = 131 ∨ d = 4 ∨ d = 132 ∨ d = 5 ∨ d = 8 ∨ d = 136 ∨ d = 6 ∨ d = 7 ∨ d = 135
  · rcases c with rfl | rfl | rfl | rfl | rfl | rfl | rfl | rfl | rfl | rfl | rfl | rfl | rfl | rfl
    all_goals
      cases f <;> cases len <;> simp at h
    all_goals
      first
      | (obtain ⟨x, -, rfl⟩ := h; simp)
      | (obtain ⟨x, y, -, rfl⟩ := h; simp)
      | (obtain ⟨x, y, z, -, rfl⟩ := h; simp)
      | (split at h
         · exact absurd h (by simp)
         · rw [← ite_none h]; simp)
  · rw [if_neg (by omega), if_neg (by omega), if_neg (by omega), if_neg (by omega), if_neg (by omega), if_neg (by omega),
      if_neg (by omega), if_neg (by omega)] at h
    exact absurd h (by simp)

/-- An unsigned field with missing values and compression, as shorts: coded, kept and decoded as unsigned shorts. -/
example : ∃ p, plan false [] (130 + 64) (-12) 20 20 1 = some p ∧ p.missing = true ∧ encodeKind p .short = .ushort ∧
    entryType p false = (130, true) ∧ decodeKind 130 p.nbits .short = .ushort :=
  ⟨⟨130, 130, 12, true⟩, by decide, rfl, by decide, by decide, by decide⟩

/-- Without packing (density 0 or 1) the values are coded but the entry is of type 0, which is not decoded. -/
theorem C85_plain_witness : ∃ p, plan false [] (1 + 64) 1 20 20 1 = some p ∧ p.missing = true ∧ encodeKind p .word = .float ∧
    entryType p false = (0, true) ∧ decodeKind 0 p.nbits .word = .none :=
  ⟨⟨1, 0, 32, true⟩, by decide, rfl, by decide, by decide, by decide⟩

/-- When the compressor refuses the field the flag is lost: the reader gives the codes. -/
theorem C85_refused_witness : ∃ p, plan false [] (134 + 64) (-12) 20 20 1 = some p ∧ p.missing = true ∧
    encodeKind p .word = .float ∧ entryType p true = (6, false) :=
  ⟨⟨134, 134, 12, true⟩, by decide, rfl, by decide, by decide⟩

/-- Type 801 (doubles whatever the length of elements is) with the flag: the field is coded as single reals, though doubles are packed
(line 825 takes the packer of doubles). -/
theorem C85_double_witness : ∃ p, plan false [] (801 + 64) (-24) 20 20 1 = some p ∧ p.inDatyp = 801 ∧ p.missing = true ∧
    encodeKind p .word = .float :=
  ⟨⟨801, 1, 24, true⟩, by decide, rfl, rfl, by decide⟩

/-! ## C86: records are copied without unpacking -/

theorem copyWords_some {l : List W} {k area : Nat} (h1 : k ≤ l.length) (h2 : k ≤ area) :
    copyWords l k area = some (l.take k ++ List.replicate (area - k) 0) := by
  unfold copyWords
  rw [if_pos ⟨h1, h2⟩]

/-- Request of a program that copies a record: the type of the entry with its flag, the width as density. -/
theorem plan_image {t nb ni nj nk : Nat} (m : Bool) (ht : t = 0 ∨ t = 1 ∨ t = 2 ∨ t = 3 ∨ t = 4 ∨ t = 5 ∨ t = 6 ∧ nb ≤ 16 ∨ t = 7 ∨
      t = 129 ∧ nb ≤ 16 ∨ t = 130 ∧ nb ≤ 16 ∨ t = 134 ∧ nb ≤ 16 ∨ t = 133 ∧ nb ≤ 32) (D : Dims ni nj nk nb) :
    plan true [] (if m then t + 64 else t) (-(nb : Int)) ni nj nk = some ⟨t, t, nb, m⟩ := by
  have hb : nbitsOf (-(nb : Int)) = nb := by
    have := D.hnb
    unfold nbitsOf
    rw [if_neg (by omega), if_pos (by omega)]
    omega
  have hbt : baseType (if m then t + 64 else t) = (t, m) := by
    rcases ht with rfl | rfl | rfl | rfl | rfl | rfl | ⟨rfl, -⟩ | rfl | ⟨rfl, -⟩ | ⟨rfl, -⟩ | ⟨rfl, -⟩ | ⟨rfl, -⟩ <;> cases m <;> decide
  have h64 : ¬ ((if m then t + 64 else t) = 133 ∧ (nb : Int) > 32) := by
    rintro ⟨h1, h2⟩
    cases m
    · rw [if_neg (by decide)] at h1; omega
    · rw [if_pos rfl] at h1; omega
  have h801 : t ≠ 801 := by omega
  have h1 : plan1 true t t nb = (t, nb) := by unfold plan1; simp
  have h2 : plan2 t nb = (t, nb) := by
    by_cases c : t < 128
    · exact plan2_same (by omega) c
    · have c' : ¬ (nb > 16 ∧ t ≠ 133) := by omega
      unfold plan2
      simp only [if_neg c']
      rw [if_neg (by omega), if_neg (by omega)]
  have hnpak : ¬ (-(nb : Int) = 0 ∨ -(nb : Int) = 1) := by have := D.hnb; omega
  have a1 := D.hni
  have a2 := D.hnj
  have a3 := D.hnk
  have a4 := D.hnb
  have a5 := D.size
  unfold plan
  simp only [hbt, hb, if_neg h64, h801, if_false, Int.toNat_natCast, h1, if_neg hnpak, if_true, h2]
  rw [if_neg (by omega)]

theorem image_fits (n nij nb t : Nat) (ht : t = 0 ∨ t = 1 ∨ t = 2 ∨ t = 3 ∧ nb = 8 ∧ nij ≤ n ∨ t = 4 ∨ t = 5 ∨ t = 6 ∨ t = 7) :
    imageWords t nb nij n ≤ nwords t n nb := by
  rcases ht with rfl | rfl | rfl | ⟨rfl, rfl, h⟩ | rfl | rfl | rfl | rfl <;> simp [imageWords, nwords] <;> omega

theorem image_mem (s : Stored) (n : Nat) (len : Len) (h : s.datyp ≤ 128) (h6 : s.datyp = 6 → s.words.length = nwords 6 n s.nbits) :
    ∃ z : List W, z ≠ [] ∧ workField s n len = some (s.words ++ z) := by
  by_cases c : s.datyp = 6
  · exact work_six s n s.nbits len c (h6 c)
  · exact work_default s n len c h

/-- C86.  A record of a type that is not compressed, read and written again as an image: type, width, flag of missing values and the
words that hold the data are those of the first record; the rest of the record is zero. -/
theorem C86_image_partial (s : Stored) (len : Len) (hd : s.datyp = 0 ∨ s.datyp = 1 ∨ s.datyp = 2 ∨ s.datyp = 3 ∧ s.nbits = 8 ∨ s.datyp = 4 ∨
      s.datyp = 5 ∨ s.datyp = 6 ∧ s.nbits ≤ 16 ∨ s.datyp = 7) (D : Dims ni nj nk s.nbits)
    (hl : imageWords s.datyp s.nbits (ni * nj) (ni * nj * nk) ≤ s.words.length)
    (h6 : s.datyp = 6 → s.words.length = nwords 6 (ni * nj * nk) s.nbits) :
    ∃ f p s', imageRead s len ni nj nk = some f ∧
      plan true [] (if s.missing then s.datyp + 64 else s.datyp) (-(s.nbits : Int)) ni nj nk = some p ∧
      imageWrite p ni nj nk f = some s' ∧ s'.datyp = s.datyp ∧ s'.nbits = s.nbits ∧ s'.missing = s.missing ∧
      s'.words.length = nwords s.datyp (ni * nj * nk) s.nbits ∧
      s'.words = s.words.take (imageWords s.datyp s.nbits (ni * nj) (ni * nj * nk)) ++
        List.replicate (nwords s.datyp (ni * nj * nk) s.nbits - imageWords s.datyp s.nbits (ni * nj) (ni * nj * nk)) 0 := by
  have hk := image_fits (ni * nj * nk) (ni * nj) s.nbits s.datyp (by
    have := Nat.le_mul_of_pos_right (ni * nj) D.hnk.1
    omega)
  have hp := plan_image s.missing (t := s.datyp) (nb := s.nbits) (by omega) D
  obtain ⟨z, hz, ez⟩ := image_mem s (ni * nj * nk) len (by omega) h6
  generalize hK : imageWords s.datyp s.nbits (ni * nj) (ni * nj * nk) = k at *
  generalize hN : nwords s.datyp (ni * nj * nk) s.nbits = nw at *
  have hr : imageRead s len ni nj nk = some (s.words.take k) := by
    unfold imageRead
    have c1 : ¬ s.datyp > 128 := by omega
    have c2 : s.datyp ≠ 8 := by omega
    simp only [ez, Option.bind_some, if_neg c1, if_neg c2]
    rw [hK, if_pos (by simp; omega), List.take_append_of_le_length hl]
  refine ⟨_, _, ⟨s.datyp, s.nbits, s.missing, s.words.take k ++ List.replicate (nw - k) 0⟩, hr, hp, ?_, rfl, rfl, rfl, ?_, rfl⟩
  · unfold imageWrite
    simp only
    rw [if_neg (by omega), hK, hN, copyWords_some (by simp; omega) (by unfold writeArea; omega)]
    simp only [Option.map_some, List.take_take, Nat.min_self]
    congr 2
    rw [List.take_append, List.take_of_length_le (by simp; omega), List.take_replicate]
    congr 2
    simp [writeArea]
    omega
  · simp
    omega

/-- C86.  When the words after the data are zero, the copy is the record. -/
theorem C86_same {s : Stored} {k nw : Nat} {ws : List W} (hk : k ≤ s.words.length) (hl : s.words.length = nw)
    (h0 : ∀ w ∈ s.words.drop k, w = 0) (hw : ws = s.words.take k ++ List.replicate (nw - k) 0) : ws = s.words := by
  rw [hw]
  conv_rhs => rw [← List.take_append_drop k s.words]
  congr 1
  symm
  rw [List.eq_replicate_iff]
  exact ⟨by simp; omega, h0⟩

/-- C86.  A compressed record, whose first word is its length: the copy is the record. -/
theorem C86_compressed (s : Stored) (len : Len) (hd : s.datyp = 129 ∧ s.nbits ≤ 16 ∨ s.datyp = 130 ∧ s.nbits ≤ 16 ∨ s.datyp = 134 ∧ s.nbits ≤ 16 ∨
      s.datyp = 133 ∧ s.nbits ≤ 32) (D : Dims ni nj nk s.nbits) (w : W) (h0 : s.words[0]? = some w) (hw : w.toNat = s.words.length)
    (hwork : workField s (ni * nj * nk) len ≠ none) (hl : s.words.length ≤ nwords s.datyp (ni * nj * nk) s.nbits) :
    ∃ f p, imageRead s len ni nj nk = some f ∧
      plan true [] (if s.missing then s.datyp + 64 else s.datyp) (-(s.nbits : Int)) ni nj nk = some p ∧
      imageWrite p ni nj nk f = some s := by
  have hp := plan_image s.missing (t := s.datyp) (nb := s.nbits) (by omega) D
  obtain ⟨z, hz, ez⟩ : ∃ z : List W, 1 ≤ z.length ∧ workField s (ni * nj * nk) len = some (s.words ++ z) := by
    unfold workField at hwork ⊢
    dsimp only at hwork ⊢
    split at hwork
    · rename_i h
      rw [if_pos h]
      refine ⟨_, ?_, rfl⟩
      unfold keysLen at h
      simp
      omega
    · exact absurd rfl hwork
  have hpos : 0 < s.words.length := by
    obtain ⟨h, -⟩ := List.getElem?_eq_some_iff.1 h0
    exact h
  have hr : imageRead s len ni nj nk = some ((s.words ++ z).take (s.words.length + 1)) := by
    unfold imageRead
    have c1 : s.datyp > 128 := by omega
    simp only [ez, Option.bind_some, if_pos c1, List.getElem?_append_left hpos, h0, Option.getD_some, hw]
    rw [if_pos (by simp; omega)]
  refine ⟨_, _, hr, hp, ?_⟩
  have hf0 : ((s.words ++ z).take (s.words.length + 1))[0]? = some w := by
    rw [List.getElem?_take, if_pos (by omega), List.getElem?_append_left hpos, h0]
  unfold imageWrite
  simp only [hf0, Option.getD_some, hw]
  rw [if_pos (by omega), copyWords_some (by simp; omega) (by unfold writeArea; omega)]
  simp only [Option.map_some, List.take_take, Nat.min_self]
  congr 1
  obtain ⟨d, b, m, ws⟩ := s
  simp only at *
  congr 1
  rw [List.take_append_of_le_length (by simp), List.take_take, Nat.min_eq_left (Nat.le_succ _), List.take_left]

/-- Words of a record agree on the part that holds the data. -/
structure Agree (s s' : Stored) (k : Nat) : Prop where
  datyp : s'.datyp = s.datyp
  nbits : s'.nbits = s.nbits
  take : s'.words.take k = s.words.take k
  len : k ≤ s.words.length
  len' : k ≤ s'.words.length

/-- C86.  What is read from the copy is what is read from the record. -/
theorem C86_read (u : W) (R : Rounding) (sub : FloatPacker.F32 → FloatPacker.F32 → FloatPacker.F32) (s s' : Stored) (len : Len) (out : Field)
    (D : Dims ni nj nk s.nbits)
    (hd : s.datyp = 0 ∨ s.datyp = 2 ∧ s.nbits ≤ 32 ∧ len ≠ .byte ∨ s.datyp = 4 ∧ s.nbits ≤ 32 ∨ s.datyp = 5 ∧ s.nbits ≤ 32 ∨ s.datyp = 7 ∧ 8 ≤ s.nbits)
    (A : Agree s s' (imageWords s.datyp s.nbits (ni * nj) (ni * nj * nk)))
    (hout : match out with
      | .words o => ni * nj * nk ≤ o.length
      | .shorts o => ni * nj * nk ≤ o.length
      | .bytes o => ni * nj * nk ≤ o.length
      | .reals _ => True) :
    readData u R sub s' len ni nj nk out = readData u R sub s len ni nj nk out := by
  have hk : imageWords s.datyp s.nbits (ni * nj) (ni * nj * nk) = (ni * nj * nk * s.nbits + 31) / 32 := by
    have c1 : s.datyp ≠ 6 := by omega
    have c2 : s.datyp ≠ 1 := by omega
    have c3 : s.datyp ≠ 3 := by omega
    unfold imageWords
    simp only [if_neg c1, if_neg c2, if_neg c3]
  rw [hk] at A
  generalize hK : (ni * nj * nk * s.nbits + 31) / 32 = k at *
  obtain ⟨z, hz, ez⟩ := image_mem s (ni * nj * nk) len (by omega) (by omega)
  obtain ⟨z', hz', ez'⟩ := image_mem s' (ni * nj * nk) len (by rw [A.datyp]; omega) (by rw [A.datyp]; omega)
  have hm : s.words ++ z = (s.words ++ z).take k ++ (s.words.drop k ++ z) := by
    rw [List.take_append_of_le_length A.len, ← List.append_assoc, List.take_append_drop]
  have hm' : s'.words ++ z' = (s.words ++ z).take k ++ (s'.words.drop k ++ z') := by
    rw [List.take_append_of_le_length A.len, ← A.take, ← List.append_assoc, List.take_append_drop]
  have hz2 : s'.words.drop k ++ z' ≠ [] := by simp [hz']
  have hlen : k < (s.words ++ z).length := by
    have := List.length_pos_iff.2 hz
    have := A.len
    simp
    omega
  generalize s.words ++ z = d at *
  generalize s'.words.drop k ++ z' = y at *
  unfold readData
  simp only [ez, ez', hm', Option.bind_some, A.datyp, A.nbits]
  have hint : ∀ (sg : Bool) (o : List W), ni * nj * nk ≤ o.length → 1 ≤ s.nbits → s.nbits ≤ 32 →
      compactIntegerUnpack u sg o none (d.take k ++ y) (ni * nj * nk) s.nbits 0 1 =
        compactIntegerUnpack u sg o none d (ni * nj * nk) s.nbits 0 1 := by
    intro sg o ho h1 h2
    unfold compactIntegerUnpack
    simp only [Int.toNat_natCast]
    rw [unpack_record u h1 h2 hlen (by omega) hz2 ho]
  have hnar : ∀ (w : Nat) (o : List (BitVec w)) (b : Nat), ni * nj * nk ≤ o.length → 1 ≤ b → b ≤ 32 → ni * nj * nk * b ≤ 32 * k →
      compactNarrowUnpack u o (d.take k ++ y) (ni * nj * nk) b 0 1 = compactNarrowUnpack u o d (ni * nj * nk) b 0 1 := by
    intro w o b ho h1 h2 h3
    unfold compactNarrowUnpack
    rw [unpack_record u h1 h2 hlen (by omega) hz2 ho]
  have hb := D.hnb
  have hpos := D.pos
  rcases hd with h | ⟨h, h32, hby⟩ | ⟨h, h32⟩ | ⟨h, h32⟩ | ⟨h, h8⟩
  · simp only [h, if_true, hK]
    cases out with
    | words o =>
      simp only [List.length_append, List.length_take]
      rw [List.take_append_of_le_length (by simp; omega), List.take_take, Nat.min_self]
      congr 1
      simp
      omega
    | _ => rfl
  · simp only [h]
    cases out <;> cases len <;> simp at hby ⊢ <;> simp only at hout
    · rw [hint false _ hout hb.1 h32]
    · rw [hnar 16 _ _ hout hb.1 h32 (by omega)]
  · simp only [h]
    cases out <;> cases len <;> simp <;> simp only at hout
    · rw [hint true _ hout hb.1 h32]
    · rw [hint true _ (by simp) hb.1 h32]
    · rw [hint true _ (by simp) hb.1 h32]
  · simp only [h]
    cases out <;> simp
    unfold ieeeGet
    rw [if_neg (by omega), if_neg (by omega), ieee_record _ d y _ _ _ hpos hb.1 h32 (le_of_lt hlen) (by omega)]
  · have := Nat.mul_le_mul_left (ni * nj * nk) h8
    simp only [h]
    cases out <;> simp
    rw [hnar 8 _ _ hout (by omega) (by omega) (by omega)]

/-- C86.  A record read and written as an image, then read with unpacking, gives the field of the first record. -/
theorem C86_copy (u : W) (R : Rounding) (sub : FloatPacker.F32 → FloatPacker.F32 → FloatPacker.F32) (s : Stored) (len len' : Len) (out : Field)
    (D : Dims ni nj nk s.nbits)
    (hd : s.datyp = 0 ∨ s.datyp = 2 ∧ s.nbits ≤ 32 ∧ len ≠ .byte ∨ s.datyp = 4 ∧ s.nbits ≤ 32 ∨ s.datyp = 5 ∧ s.nbits ≤ 32 ∨ s.datyp = 7 ∧ 8 ≤ s.nbits)
    (hl : (ni * nj * nk * s.nbits + 31) / 32 ≤ s.words.length)
    (hout : match out with
      | .words o => ni * nj * nk ≤ o.length
      | .shorts o => ni * nj * nk ≤ o.length
      | .bytes o => ni * nj * nk ≤ o.length
      | .reals _ => True) :
    ∃ f p s', imageRead s len' ni nj nk = some f ∧
      plan true [] (if s.missing then s.datyp + 64 else s.datyp) (-(s.nbits : Int)) ni nj nk = some p ∧
      imageWrite p ni nj nk f = some s' ∧ s'.datyp = s.datyp ∧ s'.nbits = s.nbits ∧ s'.missing = s.missing ∧
      readData u R sub s' len ni nj nk out = readData u R sub s len ni nj nk out := by
  have hk : imageWords s.datyp s.nbits (ni * nj) (ni * nj * nk) = (ni * nj * nk * s.nbits + 31) / 32 := by
    have c1 : s.datyp ≠ 6 := by omega
    have c2 : s.datyp ≠ 1 := by omega
    have c3 : s.datyp ≠ 3 := by omega
    unfold imageWords
    simp only [if_neg c1, if_neg c2, if_neg c3]
  rw [← hk] at hl
  obtain ⟨f, p, s', h1, h2, h3, h4, h5, h6, h7, h8⟩ := C86_image_partial s len' (by omega) D hl (by omega)
  have hfit := image_fits (ni * nj * nk) (ni * nj) s.nbits s.datyp (by omega)
  exact ⟨f, p, s', h1, h2, h3, h4, h5, h6,
    C86_read u R sub s s' len out D hd ⟨h4, h5, by rw [h8, List.take_left' (by simp; omega)], hl, by omega⟩ hout⟩

/-- A record of four 8-bit integers with the flag of missing values is copied; the rubbish in its second word is not. -/
example : ∃ f p s', imageRead ⟨2, 8, true, [0x01020304, 7, 0, 0, 0, 0]⟩ .word 4 1 1 = some f ∧ plan true [] 66 (-8) 4 1 1 = some p ∧
    imageWrite p 4 1 1 f = some s' ∧ s' = ⟨2, 8, true, [0x01020304, 0, 0, 0, 0, 0]⟩ :=
  ⟨[0x01020304], ⟨2, 2, 8, true⟩, _, by decide +kernel, by decide, rfl, by decide +kernel⟩

/-- A compressed record of four words. -/
example : ∃ f p, imageRead ⟨130, 12, false, [4, 5, 6, 7]⟩ .word 4 4 1 = some f ∧ plan true [] 130 (-12) 4 4 1 = some p ∧
    imageWrite p 4 4 1 f = some ⟨130, 12, false, [4, 5, 6, 7]⟩ :=
  C86_compressed ⟨130, 12, false, [4, 5, 6, 7]⟩ .word (by decide) ⟨by decide, by decide, by decide, by decide, by decide⟩ 4 rfl
    (by decide) (by decide +kernel) (by decide)

/-- A complex record is not copied whole: the reader gives the words of the real and imaginary parts, the writer takes half of them. -/
theorem C86_complex_witness : ∃ f p s', imageRead ⟨8, 32, false, [1, 2, 0, 0]⟩ .word 1 1 1 = some f ∧ plan true [] 8 (-32) 1 1 1 = some p ∧
    imageWrite p 1 1 1 f = some s' ∧ s' = ⟨8, 32, false, [1, 0, 0, 0]⟩ :=
  ⟨[1, 2], ⟨8, 8, 32, false⟩, ⟨8, 32, false, [1, 0, 0, 0]⟩, by decide +kernel, by decide, by decide +kernel, rfl⟩

end Verif.FstData
