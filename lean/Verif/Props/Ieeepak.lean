import Verif.Ieeepak

/-! # Property C11: IEEE packing keeps the leading bits of every value -/

namespace Verif.Ieeepak

theorem nbitsOf_pos (npak : Int) : 1 ≤ nbitsOf npak := by
  unfold nbitsOf; split
  · omega
  · split <;> omega

theorem nbitsOf_eq {npak : Int} {nb : Nat}
    (h : (npak < 0 ∧ npak = -nb) ∨ ((npak = 0 ∨ npak = 1) ∧ nb = 32) ∨ (1 < npak ∧ npak ≤ 32 ∧ nb = 32 / npak.toNat) ∨ (32 < npak ∧ nb = 1))
    (h32 : nb ≤ 32) : nbitsOf npak = nb := by
  unfold nbitsOf
  rcases h with h | h | h | h
  · rw [if_neg (by omega), if_pos h.1]; omega
  · rw [if_neg (by omega), if_neg (by omega)]; omega
  · rw [if_pos (by omega), h.2.2]
    obtain ⟨k, rfl⟩ : ∃ k : Nat, npak = k := ⟨npak.toNat, by omega⟩
    rw [Int.toNat_natCast]
    have : 1 ≤ 32 / k := (Nat.le_div_iff_mul_le (by omega)).2 (by omega)
    have e : ((32 / k : Nat) : Int) = 32 / (k : Int) := by simp
    omega
  · rw [if_pos (by omega), h.2, Int.ediv_eq_zero_of_lt (by omega) (by omega)]; rfl

theorem finish_pk (s : Pk) (h : s.left ≤ 32) :
    (if s.left < 32 then
      (s.mem[s.indx]?).bind fun w => store s.mem s.indx ((s.itemp <<< s.left) ||| (w &&& rmask s.left))
    else some s.mem) = finish s.w := by
  have hu : finish s.w = if s.left < 32 then
      match s.mem[s.indx]? with
      | none => none
      | some w => store s.mem s.indx ((s.itemp <<< s.left) ||| (w &&& ~~~((-1#32) <<< s.left)))
    else some s.mem := rfl
  rw [hu]
  by_cases c : s.left < 32
  · rw [if_pos c, if_pos c]
    cases s.mem[s.indx]? with
    | none => rfl
    | some w =>
      simp only [Option.bind_some]
      congr 3
      apply BitVec.eq_of_getLsbD_eq
      intro i hi
      rw [rmask_bit (by omega), BitVec.getLsbD_not, BitVec.getLsbD_shiftLeft]
      have : (-1#32 : W) = BitVec.allOnes 32 := by decide
      rw [this, BitVec.getLsbD_allOnes]
      by_cases ci : i < s.left
      · simp [ci, hi]
      · simp [ci, hi]; omega
  · rw [if_neg c, if_neg c]

/-- Packing keeps the first `nb` bits of every item in one bit stream and changes no bit after it. -/
theorem pack_spec {nb : Nat} (h1 : 1 ≤ nb) (h32 : nb ≤ 32) (xs ipk : List W) (npak : Int) (hn : nbitsOf npak = nb)
    (room : xs.length * nb ≤ 32 * ipk.length) :
    ∃ d, pack xs ipk npak = some d ∧ d.length = ipk.length ∧
      memBits d = tokBits nb (xs.map (topBits nb)) ++ (memBits ipk).drop (xs.length * nb) := by
  unfold pack
  simp only [hn]
  rw [if_neg (by omega)]
  by_cases c : nb = 32
  · subst c
    rw [if_pos (by rfl), if_pos (by omega)]
    refine ⟨_, rfl, by simp; omega, ?_⟩
    rw [memBits_append, ← memBits_drop, Nat.mul_comm]
    congr 1
    · unfold memBits tokBits
      rw [List.flatMap_map]
      simp [topBits]
  · rw [if_neg (by omega)]
    simp only [Int.toNat_natCast]
    obtain ⟨s, e, wf, hb, hp, hl, -, ht⟩ := packLoop_spec h1 (show nb ≤ 31 by omega) xs
      { mem := ipk, indx := 0, itemp := 0, left := 32 } ⟨by simp [Pk.w], by simp [Pk.w]⟩ (by simpa [Writer.pos, Pk.w] using room)
    have hp0 : s.w.pos = xs.length * nb := by rw [hp]; simp [Writer.pos, Pk.w]
    obtain ⟨d, ed, ld, bd⟩ := finish_spec (dst := ipk) wf hl (by rw [hp0]; omega) ht
    refine ⟨d, ?_, ld, ?_⟩
    · rw [← ed, ← finish_pk s wf.1]
      rw [e]; rfl
    · rw [bd, hb, hp0]
      simp [Writer.bits, Pk.w]

/-- **C11.** Packing a field with `npak` (at most 32 bits per item) and unpacking gives back every
value with its leading bits kept (`-npak` of them, or `32 / npak`) and the others zero; the bits of the packed array after the last item
and the words of the field after the last item are unchanged.  The field must have one more
readable word than items (see `C11_overread_witness`). -/
theorem C11_ieeepak_roundtrip (xs ipk fld : List W) (npak : Int) (nb : Nat)
    (hnb : (npak < 0 ∧ npak = -nb) ∨ ((npak = 0 ∨ npak = 1) ∧ nb = 32) ∨ (1 < npak ∧ npak ≤ 32 ∧ nb = 32 / npak.toNat) ∨ (32 < npak ∧ nb = 1))
    (h32 : nb ≤ 32)
    (hx : xs ≠ []) (room : xs.length * nb ≤ 32 * ipk.length) (hf : xs.length < fld.length) :
    ∃ d r, pack xs ipk npak = some d ∧ d.length = ipk.length ∧
      (∀ k, xs.length * nb ≤ k → (memBits d)[k]? = (memBits ipk)[k]?) ∧
      unpack fld d xs.length npak = some r ∧ r.length = fld.length ∧
      (∀ j, j < xs.length → r[j]? = xs[j]?.map (· &&& (BitVec.allOnes 32 <<< (32 - nb)))) ∧
      ∀ j, xs.length ≤ j → r[j]? = fld[j]? := by
  have hn : nbitsOf npak = nb := nbitsOf_eq hnb h32
  have h1 : 1 ≤ nb := by have := nbitsOf_pos npak; omega
  have hN : 1 ≤ xs.length := List.length_pos_iff.2 hx
  obtain ⟨d, ed, ld, bd⟩ := pack_spec h1 h32 xs ipk npak hn room
  have htail : ∀ k, xs.length * nb ≤ k → (memBits d)[k]? = (memBits ipk)[k]? := by
    intro k hk
    rw [bd, List.getElem?_append_right (by simpa using hk), List.getElem?_drop]
    congr 1; simp; omega
  have hval : ∀ x : W, topBits nb x <<< (32 - nb) = x &&& (BitVec.allOnes 32 <<< (32 - nb)) := by
    intro x
    apply BitVec.eq_of_getLsbD_eq
    intro i hi
    rw [topBits, BitVec.getLsbD_shiftLeft, BitVec.getLsbD_ushiftRight, BitVec.getLsbD_and,
      BitVec.getLsbD_shiftLeft, BitVec.getLsbD_allOnes]
    by_cases ci : i < 32 - nb
    · simp [ci]
    · rw [show 32 - nb + (i - (32 - nb)) = i by omega]
      simp [ci, hi]
      intro _; omega
  by_cases c : nb = 32
  · subst c
    refine ⟨d, xs ++ fld.drop xs.length, ed, ld, htail, ?_, by simp; omega, ?_, ?_⟩
    · unfold unpack
      simp only [hn]
      rw [if_neg (by omega), if_pos (by rfl), if_pos (by omega)]
      congr 2
      unfold pack at ed
      simp only [hn] at ed
      rw [if_neg (by omega), if_pos (by rfl), if_pos (by omega)] at ed
      rw [← Option.some.inj ed]; simp
    · intro j hj
      rw [List.getElem?_append_left hj]
      rw [List.getElem?_eq_getElem hj]; simp only [Option.map_some, Nat.sub_self]
      congr 1
      rw [← hval]; simp [topBits]
    · intro j hj
      rw [List.getElem?_append_right hj, List.getElem?_drop]
      congr 1; omega
  · have h31 : nb ≤ 31 := by omega
    generalize hnwr : (xs.length * nb + 31) / 32 = nwr
    have hmul : xs.length * nb ≤ xs.length * 31 := Nat.mul_le_mul_left _ h31
    have hmul1 : xs.length * 1 ≤ xs.length * nb := Nat.mul_le_mul_left _ h1
    have hw1 : 1 ≤ nwr := by omega
    have hw2 : nwr ≤ xs.length := by omega
    have hw3 : nwr ≤ d.length := by omega
    obtain ⟨f, ef, lf, vf, of⟩ := moveUp_spec (ipk := d) (nwr := nwr) (ninj := xs.length) (nwr - 1) fld (by omega) hw3 hw2 (by omega)
    have hd0 : d[0]? = some (d[0]'(by omega)) := List.getElem?_eq_getElem (by omega)
    have hfi : f[xs.length - nwr + 1]? = some (f[xs.length - nwr + 1]'(by omega)) := List.getElem?_eq_getElem (by omega)
    have hdrop : f.drop (xs.length - nwr + 1) = (d.take nwr).drop 1 ++ fld.drop xs.length := by
      apply List.ext_getElem?
      intro k
      rw [List.getElem?_drop]
      by_cases ck : k < nwr - 1
      · rw [List.getElem?_append_left (by simp; omega), List.getElem?_drop, List.getElem?_take, if_pos (by omega)]
        have := vf k ck
        rw [show xs.length - nwr + 1 + k = k + 1 + xs.length - nwr by omega, this, Nat.add_comm]
      · rw [List.getElem?_append_right (by simp; omega), List.getElem?_drop, of _ (by omega)]
        congr 1; simp; omega
    have hbits : Un.bits { fld := f, indx := xs.length - nwr + 1, itemp := d[0]'(by omega), inext := f[xs.length - nwr + 1]'(by omega), left := 32 }
        = tokBits nb (xs.map (topBits nb)) ++
          (((memBits ipk).drop (xs.length * nb)).take (32 * nwr - xs.length * nb) ++ memBits (fld.drop xs.length)) := by
      have e1 : Un.bits { fld := f, indx := xs.length - nwr + 1, itemp := d[0]'(by omega), inext := f[xs.length - nwr + 1]'(by omega), left := 32 }
          = toBits 32 (d[0]'(by omega)).toNat ++ memBits (f.drop (xs.length - nwr + 1)) := by
        simp only [Un.bits, Nat.sub_self, Nat.shiftRight_zero]
        rw [drop_eq_cons hfi, memBits_cons]
      have e2 : d.take nwr = d[0]'(by omega) :: (d.take nwr).drop 1 := by
        have := drop_eq_cons (mem := d.take nwr) (p := 0) (w := d[0]'(by omega)) (by rw [List.getElem?_take, if_pos (by omega), hd0])
        simpa using this
      rw [e1, hdrop, memBits_append, ← List.append_assoc, ← memBits_cons, ← e2, ← memBits_take, bd, List.take_append,
        List.take_of_length_le (by simp; omega), List.append_assoc]
      simp
    obtain ⟨s', es, ls, vs, os⟩ := unLoop_spec (N := xs.length) h1 h31 (xs.map (topBits nb)) 0
      { fld := f, indx := xs.length - nwr + 1, itemp := d[0]'(by omega), inext := f[xs.length - nwr + 1]'(by omega), left := 32 }
      _ (32 * nwr - xs.length * nb) (by simp) (by simp) (by simp; omega)
      (by
        intro t ht
        obtain ⟨x, -, rfl⟩ := List.mem_map.1 ht
        exact item_lt x h32)
      hbits (by simp [memBits_length]; omega) (by omega) (by simp; omega)
    refine ⟨d, s'.fld, ed, ld, htail, ?_, by rw [ls]; exact lf, ?_, ?_⟩
    · unfold unpack
      simp only [hn]
      rw [if_neg (by omega), if_neg (by omega)]
      simp only [Int.toNat_natCast, hnwr, hd0, ef, hfi, Option.bind_eq_bind, Option.bind_some]
      rw [List.length_map] at es
      rw [es]; rfl
    · intro j hj
      have := vs j (by simpa using hj)
      rw [Nat.zero_add] at this
      rw [this, List.getElem?_eq_getElem hj]
      simp [hval]
    · intro j hj
      rw [os j (Or.inr hj)]
      exact of j (by omega)

/-- 12 bits of three values packed over two words, with the last word partly kept. -/
example : (pack [0x3f800000, 0xc0490fdb, 0x12345678] [0xffffffff, 0xffffffff] (-12)) = some [0x3f8c0412, 0x3fffffff] ∧
    unpack [0, 0, 0, 7] [0x3f8c0412, 0x3fffffff] 3 (-12) = some [0x3f800000, 0xc0400000, 0x12300000, 7] := by
  decide +kernel

/-- Unpacking a field held in an array of exactly the right size reads one word after its end. -/
theorem C11_overread_witness : pack [0x3f800000] [0] (-16) = some [0x3f800000] ∧ unpack [0] [0x3f800000] 1 (-16) = none := by
  decide +kernel

end Verif.Ieeepak
