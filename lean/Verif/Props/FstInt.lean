import Verif.FstInt
import Verif.Props.Compress

/-! # Property C53: integer fields written with extra compression read back -/

namespace Verif

theorem lowMask32_toNat_and (x : W) (n : Nat) (h : n ≤ 32) : (x &&& lowMask32 n).toNat = x.toNat % 2 ^ n :=
  and_low_toNat x n h

theorem from16_to16 {field : List W} {nbits k : Nat} {x : W} (hb : nbits ≤ 15) (hk : field[k]? = some x)
    (hx : x.toNat < 2 ^ nbits) : from16 nbits (to16 field nbits k) = x := by
  have h1 : to16 field nbits k = x.setWidth 16 := by
    simp only [to16, hk]
    apply BitVec.eq_of_toNat_eq
    rw [BitVec.toNat_setWidth, lowMask32_toNat_and _ _ (by omega), Nat.mod_eq_of_lt hx, BitVec.toNat_setWidth]
  have hp : 2 ^ nbits ≤ 2 ^ 15 := Nat.pow_le_pow_right (by decide) hb
  rw [h1, from16]
  apply BitVec.eq_of_getLsbD_eq
  intro i hi
  have hlow : ∀ j, nbits ≤ j → x.getLsbD j = false := fun j hj => by
    rw [← BitVec.testBit_toNat]
    exact Nat.testBit_lt_two_pow (Nat.lt_of_lt_of_le hx (Nat.pow_le_pow_right (by decide) hj))
  have hm : ∀ j, j < 32 → (lowMask32 nbits).getLsbD j = decide (j < nbits) := by
    intro j hj
    unfold lowMask32
    simp only [BitVec.getLsbD_not, BitVec.getLsbD_shiftLeft, BitVec.neg_one_eq_allOnes, BitVec.getLsbD_allOnes, hj]
    by_cases h : j < nbits
    · simp [h]
    · simp [h, show j - nbits < 32 by omega]
  have s15 : (x.setWidth 16).msb = false := by
    rw [BitVec.msb_eq_getLsbD_last]; simp only [BitVec.getLsbD_setWidth, hlow 15 hb, Nat.reduceSub, Nat.reduceLT, decide_true, Bool.and_false]
  have m15 : ((lowMask32 nbits).setWidth 16).msb = false := by
    rw [BitVec.msb_eq_getLsbD_last]; simp only [BitVec.getLsbD_setWidth, hm 15 (by omega), Nat.reduceSub]; simp; omega
  rw [BitVec.signExtend_eq_setWidth_of_msb_false s15, BitVec.signExtend_eq_setWidth_of_msb_false m15]
  simp only [BitVec.getLsbD_and, BitVec.getLsbD_setWidth, hm i hi]
  by_cases h : i < nbits
  · simp [h, show i < 16 by omega, hi]
  · simp [h, hlow i (by omega)]

/-- **C53** (partial) A single-level unsigned integer field of at most 15 bits written with data type 130 whose
compression is not refused reads back unchanged, whatever follows the stored words in the work buffer.
Missing for the full statement: 16-bit values, refused fields and several levels, for which the code is wrong
(`C53_sign_witness`, `C53_refused_witness`, `C52_levels_witness`). -/
theorem C53_int130_roundtrip_partial (u1 u2 : W) (g : Nat → BitVec 16) (d0 : Nat → Int) (level : Nat)
    (field out z : List W) (ni nj nbits : Nat) (hb : 1 ≤ nbits ∧ nbits ≤ 15) (hni : 1 ≤ ni) (hnj : 1 ≤ nj)
    (hlen : field.length = ni * nj) (hfit : ∀ x ∈ field, x.toNat < 2 ^ nbits) (hz : z.length = ni * nj)
    (datyp nw : Nat) (data : List W)
    (hw : writeInt130 u1 level field ni nj 1 nbits z = some (datyp, nw, data)) (hacc : datyp = 130) :
    ∀ buf : List W, data.length ≤ buf.length → buf.take nw = data.take nw →
      readInt130 u2 datyp buf ni nj 1 nbits g d0 out = some field := by
  have hN : 1 ≤ ni * nj := Nat.mul_pos hni hnj
  simp only [writeInt130, Nat.mul_one] at hw
  have hwords : 1 + ni * nj / 2 + (ni * nj + 1) / 2 + 2 ≤ int130Words (ni * nj) nbits + (ni * nj + 1) / 2 := by
    simp only [int130Words, Nat.max_eq_right (show nbits ≤ 16 by omega)]; omega
  generalize hbody : wordsOf (to16 field nbits) ((ni * nj + 1) / 2) ++
    List.replicate (int130Words (ni * nj) nbits - 1 - (ni * nj + 1) / 2) 0 = body at hw
  have hbl : 1 + ni * nj / 2 ≤ body.length := by
    rw [← hbody]; simp [wordsOf]; omega
  have hsh : ∀ k, k < ni * nj → shorts body k = to16 field nbits k := by
    intro k hk; rw [← hbody]; exact shorts_wordsOf _ _ _ _ (by omega)
  have hgetk : ∀ k, k < ni * nj → ∃ x, field[k]? = some x ∧ x.toNat < 2 ^ nbits := fun k hk =>
    ⟨field[k]'(by omega), List.getElem?_eq_getElem (by omega), hfit _ (List.getElem_mem _)⟩
  obtain ⟨o, e, hol, ho⟩ := C08_compress_outcome false u2 g d0 level body ni nj 1 nbits z hb.1 hni hnj (by omega)
    (by omega) (by omega) (by
      intro _ k hk
      obtain ⟨x, hx, hlt⟩ := hgetk k hk
      show (shorts body k).toNat < _
      rw [hsh k hk]
      simp only [to16, hx, BitVec.toNat_setWidth, lowMask32_toNat_and _ _ (show nbits ≤ 32 by omega), Nat.mod_eq_of_lt hlt]
      exact Nat.lt_of_le_of_lt (Nat.mod_le _ _) hlt)
  rw [e] at hw
  simp only at hw
  subst hacc
  by_cases hneg : o.ret < 0
  · rw [if_pos hneg] at hw
    exfalso
    cases hc : compactIntegerPack u1 false false field o.fld (ni * nj) nbits 0 1 with
    | none => rw [hc] at hw; simp at hw
    | some r => rw [hc] at hw; simp at hw
  · rw [if_neg hneg] at hw
    rcases ho with h | ⟨bytes, hr, hlt, hdec⟩
    · omega
    simp only [hr, Int.toNat_natCast, Option.some.injEq, Prod.mk.injEq, true_and] at hw
    obtain ⟨hnw, hdata⟩ := hw
    intro buf hbuf htake
    have hbpos : bytes / 4 ≤ nw - 1 := by omega
    have hnw1 : 1 ≤ nw := by omega
    rw [← hdata] at hbuf htake
    have htl : (buf.drop 1).take (bytes / 4) = o.fld.take (bytes / 4) := by
      have h1 : (buf.drop 1).take (nw - 1) = o.fld.take (nw - 1) := by
        have := congrArg (List.drop 1) htake
        rw [List.drop_take, List.drop_take] at this
        simpa using this
      have := congrArg (List.take (bytes / 4)) h1
      simpa [List.take_take, Nat.min_eq_left hbpos] using this
    obtain ⟨back, eb, hk⟩ := hdec (buf.drop 1) (by simp at hbuf ⊢; omega) htl
    simp only [readInt130, Nat.mul_one]
    rw [if_pos (by omega), eb]
    simp only [Option.some.injEq]
    apply List.ext_getElem?
    intro k
    by_cases hkN : k < ni * nj
    · obtain ⟨x, hx, hlt⟩ := hgetk k hkN
      have h2 : shorts back k = to16 field nbits k := by
        have := hk k hkN
        simp only [fieldTok, if_true] at this
        rw [this, hsh k hkN]
      rw [List.getElem?_map, List.getElem?_range hkN, hx]
      simp only [Option.map_some, h2, from16_to16 hb.2 hx hlt]
    · rw [List.getElem?_eq_none (by simp; omega), List.getElem?_eq_none (by omega)]

/-- A 3 × 3 field whose compression is accepted, as the hypotheses ask. -/
theorem C53_accepted_example :
    (writeInt130 0 1 [5, 5, 5, 5, 5, 5, 5, 5, 6] 3 3 1 8 (List.replicate 9 0)).map (·.1) = some 130 := by decide +kernel

/-- **C53 is violated** for refused fields: a 3 × 1 field is stored one word away from where it is read. -/
theorem C53_refused_witness :
    (writeInt130 0 1 [1, 2, 3] 3 1 1 8 (List.replicate 3 0)).bind
      (fun r => readInt130 0 r.1 r.2.2 3 1 1 8 (fun _ => 0) (fun _ => 0) [9, 9, 9]) = some [0, 0, 0] := by
  decide +kernel

/-- **C53 is violated** for 16-bit values: 0x8001 reads back as 0xFFFF8001. -/
theorem C53_sign_witness :
    (writeInt130 0 1 (List.replicate 16 0x8001) 4 4 1 16 (List.replicate 16 0)).bind
      (fun r => readInt130 0 r.1 r.2.2 4 4 1 16 (fun _ => 0) (fun _ => 0) []) = some (List.replicate 16 0xFFFF8001) := by
  decide +kernel

end Verif
