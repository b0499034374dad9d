import Verif.Props.FstEntry

/-! # Property C86: copies of packed reals and of characters (types 1, 6 and 3) -/

namespace Verif.FstData

open Grid (Rounding)
open CompactFloat (headCount field)

theorem tokens_take : ∀ (n k : Nat) (l y : List W), (n + 1) / 2 ≤ k → k ≤ l.length →
    FloatPacker.tokens n (l.take k ++ y) = FloatPacker.tokens n l
  | 0, _, _, _, _, _ => by simp [FloatPacker.tokens]
  | n + 1, 0, _, _, h, _ => by omega
  | n + 1, k + 1, [], _, _, h => by simp at h
  | 1, k + 1, w :: t, _, _, _ => by simp [FloatPacker.tokens]
  | n + 2, k + 1, w :: t, y, h, h' => by
    simp only [List.take_succ_cons, List.cons_append, FloatPacker.tokens]
    rw [tokens_take n k t y (by omega) (by simpa using h')]

/-- The header of a packed record agrees with its entry: for type 1 the width and the number of values. -/
def HeadAgrees (s : Stored) (n : Nat) : Prop :=
  ∃ w0 w3, s.words[0]? = some w0 ∧ s.words[3]? = some w3 ∧ field w3 8 8 = s.nbits ∧ headCount w0 w3 n = n

/-- C86.  Packed reals (types 1 and 6) and characters (type 3, one level): what is read from the copy of a record is
what is read from the record. -/
theorem C86_packed (u : W) (R : Rounding) (sub : FloatPacker.F32 → FloatPacker.F32 → FloatPacker.F32) (s : Stored) (len len' : Len) (out : Field)
    (D : Dims ni nj nk s.nbits)
    (hd : (s.datyp = 1 ∧ s.nbits ≤ 32 ∧ HeadAgrees s (ni * nj * nk)) ∨ (s.datyp = 6 ∧ s.nbits ≤ 16) ∨ (s.datyp = 3 ∧ s.nbits = 8 ∧ nk = 1))
    (hl : s.words.length = nwords s.datyp (ni * nj * nk) s.nbits)
    (hout : match out with
      | .words o => ni * nj * nk ≤ o.length
      | _ => True) :
    ∃ f p s', imageRead s len' ni nj nk = some f ∧
      plan true [] (if s.missing then s.datyp + 64 else s.datyp) (-(s.nbits : Int)) ni nj nk = some p ∧
      imageWrite p ni nj nk f = some s' ∧ s'.datyp = s.datyp ∧ s'.nbits = s.nbits ∧ s'.missing = s.missing ∧
      readData u R sub s' len ni nj nk out = readData u R sub s len ni nj nk out := by
  have hpos := D.pos
  have hb := D.hnb
  have hfit := image_fits (ni * nj * nk) (ni * nj) s.nbits s.datyp (by
    have := Nat.le_mul_of_pos_right (ni * nj) D.hnk.1
    omega)
  obtain ⟨f, p, s', h1, h2, h3, h4, h5, h6, h7, h8⟩ := C86_image_partial s len' (by omega) D (by omega)
    (by intro c; rw [hl, c])
  refine ⟨f, p, s', h1, h2, h3, h4, h5, h6, ?_⟩
  obtain ⟨z, hz, ez⟩ := image_mem s (ni * nj * nk) len (by omega) (by intro c; rw [hl, c])
  obtain ⟨z', hz', ez'⟩ := image_mem s' (ni * nj * nk) len (by rw [h4]; omega) (by intro c; rw [h7, h5, ← h4, c])
  generalize hK : imageWords s.datyp s.nbits (ni * nj) (ni * nj * nk) = k at *
  have hlen : k < (s.words ++ z).length := by
    have := List.length_pos_iff.2 hz
    simp
    omega
  have hm' : s'.words ++ z' = (s.words ++ z).take k ++ (List.replicate (nwords s.datyp (ni * nj * nk) s.nbits - k) 0 ++ z') := by
    rw [List.take_append_of_le_length (by omega), h8, List.append_assoc]
  have hy : List.replicate (nwords s.datyp (ni * nj * nk) s.nbits - k) (0 : W) ++ z' ≠ [] := by simp [hz']
  have hget : ∀ i, i < k → ∀ y : List W, ((s.words ++ z).take k ++ y)[i]? = (s.words ++ z)[i]? := by
    intro i hi y
    rw [List.getElem?_append_left (by rw [List.length_take]; omega), List.getElem?_take, if_pos hi]
  generalize List.replicate (nwords s.datyp (ni * nj * nk) s.nbits - k) (0 : W) ++ z' = y at *
  unfold readData
  simp only [ez, ez', hm', Option.bind_some, h4, h5]
  rcases hd with ⟨h, h32, w0, w3, g0, g3, gb, gc⟩ | ⟨h, h16⟩ | ⟨h, hb8, rfl⟩
  · have hk : k = (ni * nj * nk * s.nbits + 120 + 31) / 32 := by
      rw [← hK, h]; simp [imageWords]
    have hp1 : 1 * 1 ≤ ni * nj * nk * s.nbits := Nat.mul_le_mul hpos hb.1
    have hk4 : 3 < k := by omega
    have g0' : (s.words ++ z)[0]? = some w0 := by
      rw [List.getElem?_append_left (by omega), g0]
    have g3' : (s.words ++ z)[3]? = some w3 := by
      rw [List.getElem?_append_left (by omega), g3]
    simp only [h]
    cases len with
    | double => rfl
    | _ =>
      simp
      congr 1
      unfold CompactFloat.compactUnpack
      rw [hget 0 (by omega), hget (0 + 1) (by omega), hget (0 + 2) (by omega), hget (0 + 3) hk4, g0', g3']
      rcases (s.words ++ z)[0 + 1]? with _ | w1
      · rfl
      rcases (s.words ++ z)[0 + 2]? with _ | w2
      · rfl
      simp only [gb, gc]
      rw [unpack_record u hb.1 h32 hlen (by omega) hy (by simp)]
  · have hk : k = 3 + (ni * nj * nk + 1) / 2 := by
      rw [← hK, h]; simp [imageWords]; omega
    simp only [h]
    cases out <;> simp
    · generalize s.words ++ z = d at *
      match d, hlen with
      | [], hh => simp at hh
      | [_], hh => simp at hh; omega
      | [_, _], hh => simp at hh; omega
      | a :: b :: c :: t, hh =>
        obtain ⟨j, rfl⟩ : ∃ j, k = j + 3 := ⟨k - 3, by omega⟩
        simp only [List.take_succ_cons, List.cons_append, packedOf, Option.bind_some]
        have := tokens_take (ni * nj * nk) j t y (by omega) (by simp at hh; omega)
        unfold FloatPacker.unpack
        simp only [this]
  · have hk : k = (ni * nj + 3) / 4 := by
      rw [← hK, h]; simp [imageWords]; omega
    simp only [h]
    cases out <;> simp
    simp only [Nat.mul_one] at hout
    congr 1
    unfold compactIntegerUnpack
    have e := fun kind (o : List W) (ho : ni * nj ≤ o.length) => unpack_record (off := 0) (size := 32) (n := (ni * nj + 3) / 4)
      (kind := kind) (out := o) u (by omega) (by omega) hlen (by omega) hy (by omega)
    simp [e _ _ hout]

/-- A record of four characters is copied. -/
example (u : W) (R : Rounding) (sub : FloatPacker.F32 → FloatPacker.F32 → FloatPacker.F32) :
    ∃ f p s', imageRead ⟨3, 8, false, [0x41424344, 0, 0, 0, 0, 0]⟩ .word 4 1 1 = some f ∧ plan true [] 3 (-8) 4 1 1 = some p ∧
      imageWrite p 4 1 1 f = some s' ∧ s'.datyp = 3 ∧ s'.nbits = 8 ∧ s'.missing = false ∧
      readData u R sub s' .word 4 1 1 (.words [9, 9, 9, 9]) =
        readData u R sub ⟨3, 8, false, [0x41424344, 0, 0, 0, 0, 0]⟩ .word 4 1 1 (.words [9, 9, 9, 9]) :=
  C86_packed u R sub ⟨3, 8, false, [0x41424344, 0, 0, 0, 0, 0]⟩ .word .word (.words [9, 9, 9, 9])
    ⟨by decide, by decide, by decide, by decide, by decide⟩ (Or.inr (Or.inr ⟨rfl, rfl, rfl⟩)) (by decide +kernel) (by simp)

/-- A record of packed reals whose header gives its 16 bits and its two values meets the conditions of the copy. -/
example : HeadAgrees ⟨1, 16, false, [0x7ff00002, 0, 0, 0x00001000, 0, 0]⟩ 2 :=
  ⟨_, _, rfl, rfl, by decide +kernel, by decide +kernel⟩

end Verif.FstData
