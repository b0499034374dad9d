import Verif.ArmnRound

/-! # Properties C06, C07, C08, C52: lossless compression of 16-bit fields -/

namespace Verif

/-- What the caller of `armn_compress` calls value number `k`: 16-bit tokens are stored two to a word, high half
first (put there with `stuff`); with `c_armn_compress_setswap(0)` they are an array of `short`. -/
def fieldTok (swap : Bool) (fld : List W) (k : Nat) : BitVec 16 :=
  if swap = false then shorts fld k
  else if k % 2 = 0 then ((fld.getD (k / 2) 0) >>> 16).setWidth 16 else (fld.getD (k / 2) 0).setWidth 16

theorem swapHalves_low (w : W) : (swapHalves w).setWidth 16 = (w >>> 16).setWidth 16 := by
  apply BitVec.eq_of_getLsbD_eq
  intro i hi
  simp [swapHalves, hi]

theorem swapHalves_high (w : W) : ((swapHalves w) >>> 16).setWidth 16 = w.setWidth 16 := by
  apply BitVec.eq_of_getLsbD_eq
  intro i hi
  simp [swapHalves, hi]
  rw [BitVec.getLsbD_of_ge w _ (by omega)]
  simp; omega

theorem swapHalves_swapHalves (w : W) : swapHalves (swapHalves w) = w := by
  apply BitVec.eq_of_getLsbD_eq
  intro i hi
  simp [swapHalves, hi]
  grind

theorem swapField_length (swap : Bool) (fld : List W) (ni nj : Nat) : (swapField swap fld ni nj).length = fld.length := by
  unfold swapField
  split
  · rfl
  · simp; omega

theorem swapField_swapField (swap : Bool) (fld : List W) (ni nj : Nat) : swapField swap (swapField swap fld ni nj) ni nj = fld := by
  unfold swapField
  cases swap
  · rfl
  simp only [Bool.true_eq_false, if_false]
  generalize (1 + ni * nj) / 2 = m
  apply List.ext_getElem?
  intro i
  rcases Nat.lt_or_ge i m with h | h
  · rcases Nat.lt_or_ge i fld.length with h' | h'
    · rw [List.getElem?_append_left (by simp; omega), List.getElem?_map, List.getElem?_take_of_lt h,
        List.getElem?_append_left (by simp; omega), List.getElem?_map, List.getElem?_take_of_lt h, List.getElem?_eq_getElem h']
      simp [swapHalves_swapHalves]
    · rw [List.getElem?_eq_none h', List.getElem?_eq_none]
      simp; omega
  · rcases Nat.lt_or_ge i fld.length with h' | h'
    · have e1 : (List.map swapHalves (List.take m fld)).length = m := by simp; omega
      rw [List.getElem?_append_right (by simp; omega), List.getElem?_drop, List.getElem?_append_right (by simp; omega), List.getElem?_drop]
      congr 1
      simp; omega
    · rw [List.getElem?_eq_none h', List.getElem?_eq_none]
      simp; omega

theorem shorts_swapField (swap : Bool) (fld : List W) (ni nj k : Nat) (h : k < ni * nj) (hl : (1 + ni * nj) / 2 ≤ fld.length) :
    shorts (swapField swap fld ni nj) k = fieldTok swap fld k := by
  cases swap
  · rfl
  have hk : k / 2 < (1 + ni * nj) / 2 := by omega
  have : (swapField true fld ni nj).getD (k / 2) 0 = swapHalves (fld.getD (k / 2) 0) := by
    unfold swapField
    simp only [Bool.true_eq_false, if_false, List.getD_eq_getElem?_getD]
    rw [List.getElem?_append_left (by simp; omega), List.getElem?_map, List.getElem?_take_of_lt hk,
      List.getElem?_eq_getElem (by omega)]
    simp
  unfold shorts fieldTok
  simp only [this, Bool.true_eq_false, if_false]
  split
  · exact swapHalves_low _
  · exact swapHalves_high _

theorem fieldTok_swapField (swap : Bool) (fld : List W) (ni nj k : Nat) (h : k < ni * nj) (hl : (1 + ni * nj) / 2 ≤ fld.length) :
    fieldTok swap (swapField swap fld ni nj) k = shorts fld k := by
  rw [← shorts_swapField swap (swapField swap fld ni nj) ni nj k h (by rw [swapField_length]; exact hl), swapField_swapField]

theorem shorts_wordsOf (g : Nat → BitVec 16) (n k : Nat) (l : List W) (h : k / 2 < n) : shorts (wordsOf g n ++ l) k = g k := by
  unfold shorts wordsOf
  simp only [List.getD_eq_getElem?_getD]
  rw [List.getElem?_append_left (by simp; omega), List.getElem?_map, List.getElem?_range (by omega)]
  simp only [Option.map_some, Option.getD_some]
  split
  · rw [show 2 * (k / 2) = k by omega]
    apply BitVec.eq_of_getLsbD_eq
    intro i hi
    simp [hi]
  · rw [show 2 * (k / 2) + 1 = k by omega]
    apply BitVec.eq_of_getLsbD_eq
    intro i hi
    simp [hi]
    simp [show 16 + i < 32 by omega, show i < 32 by omega]

theorem zipHeader_fields : ∀ nbits : Fin 17,
    bitField (zipHeader 3 0 5 nbits 1) 0 4 = 3 ∧ bitField (zipHeader 3 0 5 nbits 1) 7 3 = 5 ∧
    bitField (zipHeader 3 0 5 nbits 1) 10 5 = nbits ∧
    bitField (zipHeader 4 1 3 nbits 1) 0 4 = 4 ∧ bitField (zipHeader 4 1 3 nbits 1) 7 3 = 3 ∧
    bitField (zipHeader 4 1 3 nbits 1) 10 5 = nbits := by decide

/-- **C06** The minimum method is lossless: the decoder, given any memory that begins with the words produced by the
encoder (and one more readable word), restores every value of the field and writes nowhere else.
The encoder never leaves its buffer of `ni*nj` words. -/
theorem C06_minimum_lossless (hdr u : W) (f g : Nat → BitVec 16) (ni nj nbits : Nat) (z : List W)
    (hb : 1 ≤ nbits ∧ nbits ≤ 16) (hni : 2 ≤ ni) (hnj : 2 ≤ nj)
    (hf : ∀ k, k < ni * nj → (f k).toNat < 2 ^ nbits) (hz : ni * nj ≤ z.length) :
    ∃ z' n, packMinimum hdr f ni nj nbits 5 z = some (z', n) ∧ n ≤ z'.length ∧
      ∀ mem : List W, mem.take n = z'.take n → n < mem.length →
        ∃ g', unpackMinimum u mem ni nj nbits 5 g = some g' ∧ ∀ k, g' k = if k < ni * nj then f k else g k := by
  obtain ⟨z', n, pad, e, hl, hn, h1, -, hbits⟩ := packMinimum_spec (hdr := hdr) hb.2 hni hnj hf hz
  exact ⟨z', n, e, by omega, fun mem hm hlt => unpackMinimum_spec hb.1 hb.2 hf hbits hm hlt h1⟩

/-- Hypotheses met by a 3 × 2 field with values on 9 bits; note that the values differ. -/
example := C06_minimum_lossless 0#32 0#32 (fun k => BitVec.ofNat 16 (k * 100)) (fun _ => 7) 3 2 9 (List.replicate 6 0)
  (by decide) (by decide) (by decide) (by intro k hk; simp [Nat.mod_eq_of_lt (show k * 100 < 65536 by omega)]; omega) (by decide)

/-- **C07** The parallelogram method is lossless (same reading as C06); the uninitialised work array `d0` has no influence. -/
theorem C07_parallelogram_lossless (hdr u : W) (f g : Nat → BitVec 16) (d0 : Nat → Int) (ni nj nbits : Nat) (z : List W)
    (hb : 1 ≤ nbits ∧ nbits ≤ 16) (hni : 2 ≤ ni) (hnj : 2 ≤ nj)
    (hf : ∀ k, k < ni * nj → (f k).toNat < 2 ^ nbits) (hz : ni * nj ≤ z.length) :
    ∃ z' n, packParallelogram hdr f ni nj nbits 3 z = some (z', n) ∧ n ≤ z'.length ∧
      ∀ mem : List W, mem.take n = z'.take n → n < mem.length →
        ∃ g', unpackParallelogram u mem ni nj nbits 3 g d0 = some g' ∧ ∀ k, g' k = if k < ni * nj then f k else g k := by
  obtain ⟨z', n, pad, e, hl, hn, h1, -, hbits⟩ := packParallelogram_spec (hdr := hdr) hb.2 hni hnj hf hz
  exact ⟨z', n, e, by omega, fun mem hm hlt => unpackParallelogram_spec hb.1 hb.2 hni hnj hf hbits hm hlt h1⟩

/-- Hypotheses met by a 20 × 17 field of full 16-bit values with extreme differences. -/
example := C07_parallelogram_lossless 0#32 0#32 (fun k => if k % 2 = 0 then 0 else 65535) (fun _ => 7) (fun _ => 99) 20 17 16
  (List.replicate 340 0) (by decide) (by decide) (by decide) (by intro k hk; exact (BitVec.isLt _)) (by rw [List.length_replicate]; decide)

/-- Decoding through `armn_compress(…, UNCOMPRESS)` once the method is known to be lossless. -/
theorem uncompress_of_unzip {swap : Bool} {u : W} {disk fld : List W} {ni nj nbits : Nat} {g g' : Nat → BitVec 16} {d0 : Nat → Int}
    (hb : nbits ≤ 16) (hni : ni ≠ 1) (hnj : nj ≠ 1) (hlen : 1 + ni * nj / 2 ≤ disk.length)
    (hun : fstunzip u disk ni nj g d0 = some g')
    (hg : ∀ k, k < ni * nj → g' k = fieldTok swap fld k) :
    ∃ back, armnUncompress swap u disk ni nj nbits g d0 = some back ∧ ∀ k, k < ni * nj → fieldTok swap back k = fieldTok swap fld k := by
  refine ⟨swapField swap (wordsOf g' (1 + ni * nj / 2) ++ disk.drop (1 + ni * nj / 2)) ni nj,
    by rw [armnUncompress, if_neg (by omega), hun]; simp only [if_pos hlen], fun k hk => ?_⟩
  rw [fieldTok_swapField _ _ _ _ _ hk (by simp [wordsOf]; omega), shorts_wordsOf _ _ _ _ (by omega)]
  exact hg k hk

/-- Outcome of `armn_compress`; the decoder needs the returned bytes, one more word and room for the values. -/
theorem compress_outcome (swap : Bool) (u : W) (g : Nat → BitVec 16) (d0 : Nat → Int) (level : Nat) (fld : List W)
    (ni nj nk nbits : Nat) (z : List W)
    (hb : 1 ≤ nbits) (hni : 1 ≤ ni) (hnj : 1 ≤ nj) (hnk : 1 ≤ nk) (hz : z.length = ni * nj * nk)
    (hfld : 1 + ni * nj * nk / 2 ≤ fld.length)
    (hf : nbits ≤ 16 → ∀ k, k < ni * nj → (fieldTok swap fld k).toNat < 2 ^ nbits) :
    ∃ out, armnCompress swap level fld ni nj nk nbits z = some out ∧ out.fld.length = fld.length ∧
      ((out.ret = -1 ∧ out.fld = fld) ∨
       (∃ bytes : Nat, out.ret = bytes ∧ bytes % 4 = 1 ∧ bytes < 1 + 2 * (ni * nj * nk) ∧
         ∀ disk : List W, bytes / 4 < disk.length → 1 + ni * nj / 2 ≤ disk.length → disk.take (bytes / 4) = out.fld.take (bytes / 4) →
           ∃ back, armnUncompress swap u disk ni nj nbits g d0 = some back ∧
             ∀ k, k < ni * nj → fieldTok swap back k = fieldTok swap fld k)) := by
  unfold armnCompress
  by_cases c : nbits > 16 ∨ ni = 1 ∨ nj = 1
  · rw [if_pos c]; exact ⟨_, rfl, rfl, Or.inl ⟨rfl, rfl⟩⟩
  · rw [if_neg c]
    have hb16 : nbits ≤ 16 := by omega
    have hNle : ni * nj ≤ ni * nj * nk := Nat.le_mul_of_pos_right _ hnk
    have hN2 : ni * nj / 2 ≤ ni * nj * nk / 2 := Nat.div_le_div_right hNle
    have hsh : ∀ k, k < ni * nj → shorts (swapField swap fld ni nj) k = fieldTok swap fld k := fun k hk =>
      shorts_swapField swap fld ni nj k hk (by omega)
    have hf' : ∀ k, k < ni * nj → (shorts (swapField swap fld ni nj) k).toNat < 2 ^ nbits := fun k hk => by
      rw [hsh k hk]; exact hf hb16 k hk
    have hhdr := zipHeader_fields ⟨nbits, by omega⟩
    simp only at hhdr
    -- common end of both methods
    have finish : ∀ (z' : List W) (n : Nat) (hdr : W), z'.length = z.length → 1 ≤ n →
        z'.take n = hdr :: (z'.take n).drop 1 →
        (∀ mem : List W, mem.take n = z'.take n → n < mem.length →
          ∃ g', fstunzip u mem ni nj g d0 = some g' ∧ ∀ k, k < ni * nj → g' k = fieldTok swap fld k) →
        ∃ out, keepIfShorter swap (swapField swap fld ni nj) ni nj nk z' n = some out ∧ out.fld.length = fld.length ∧
          ((out.ret = -1 ∧ out.fld = fld) ∨
           (∃ bytes : Nat, out.ret = bytes ∧ bytes % 4 = 1 ∧ bytes < 1 + 2 * (ni * nj * nk) ∧
             ∀ disk : List W, bytes / 4 < disk.length → 1 + ni * nj / 2 ≤ disk.length → disk.take (bytes / 4) = out.fld.take (bytes / 4) →
               ∃ back, armnUncompress swap u disk ni nj nbits g d0 = some back ∧
                 ∀ k, k < ni * nj → fieldTok swap back k = fieldTok swap fld k)) := by
      intro z' n hdr hl h1 _ hdec
      unfold keepIfShorter
      by_cases hlong : 1 + 4 * n ≥ 1 + ni * nj * nk * 16 / 8
      · rw [if_pos hlong]
        exact ⟨_, rfl, by simp [swapField_length], Or.inl ⟨rfl, swapField_swapField _ _ _ _⟩⟩
      · rw [if_neg hlong]
        have hn1 : n < (swapField swap fld ni nj).length := by rw [swapField_length]; omega
        have hn2 : n < z'.length := by omega
        simp only [copyOut, List.getElem?_eq_getElem hn1, List.getElem?_eq_getElem hn2, Option.map_some]
        refine ⟨_, rfl, ?_, Or.inr ⟨1 + 4 * n, by simp, by omega, by omega, ?_⟩⟩
        · have := swapField_length swap fld ni nj
          simp; omega
        · intro disk hdn hdl hdt
          have e4 : (1 + 4 * n) / 4 = n := by omega
          have hlen : (z'.take n).length = n := by simp; omega
          simp only [e4] at hdt
          rw [List.take_append_of_le_length (by omega), List.take_take, Nat.min_self] at hdt
          have hnd : n < disk.length := by omega
          obtain ⟨g', hun, hg⟩ := hdec disk hdt hnd
          exact uncompress_of_unzip hb16 (by omega) (by omega) (by omega) hun hg
    have head : ∀ (z' : List W) (n : Nat) (hdr : W) (mem : List W), 1 ≤ n → n < mem.length →
        z'.take n = hdr :: (z'.take n).drop 1 → mem.take n = z'.take n → mem[0]? = some hdr := by
      intro z' n hdr mem h1 hlt hz' hm
      rw [hz'] at hm
      have := congrArg (·[0]?) hm
      simpa [List.getElem?_take_of_lt (show 0 < n by omega)] using this
    simp only
    split
    · obtain ⟨z', n, pad, e, hl, hn, h1, hhd, hbits⟩ := packMinimum_spec (hdr := zipHeader 3 0 5 nbits 1) (z := z) hb16
        (by omega) (by omega) hf' (by omega)
      rw [e]
      refine finish z' n _ hl h1 hhd fun mem hm hlt => ?_
      obtain ⟨g', hu, hg⟩ := unpackMinimum_spec (u := u) (g := g) hb hb16 hf' hbits hm hlt h1
      refine ⟨g', ?_, fun k hk => by rw [hg, if_pos hk, hsh k hk]⟩
      simp only [fstunzip, head z' n _ mem h1 hlt hhd hm, hhdr]
      simpa using hu
    · obtain ⟨z', n, pad, e, hl, hn, h1, hhd, hbits⟩ := packParallelogram_spec (hdr := zipHeader 4 1 3 nbits 1) (z := z) hb16
        (by omega) (by omega) hf' (by omega)
      rw [e]
      refine finish z' n _ hl h1 hhd fun mem hm hlt => ?_
      obtain ⟨g', hu, hg⟩ := unpackParallelogram_spec (u := u) (g := g) (d0 := d0) hb hb16 (by omega) (by omega) hf' hbits hm hlt h1
      refine ⟨g', ?_, fun k hk => by rw [hg, if_pos hk, hsh k hk]⟩
      simp only [fstunzip, head z' n _ mem h1 hlt hhd hm, hhdr]
      simpa using hu


/-- **C08** Outcome of `armn_compress`.  For every field whose values fit `nbits` bits it either refuses and leaves
the field as it was, or returns a length smaller than the original and a field from which — whatever follows the
returned bytes — `UNCOMPRESS` restores the `ni*nj` values.  No access outside the arrays. -/
theorem C08_compress_outcome (swap : Bool) (u : W) (g : Nat → BitVec 16) (d0 : Nat → Int) (level : Nat) (fld : List W)
    (ni nj nk nbits : Nat) (z : List W)
    (hb : 1 ≤ nbits) (hni : 1 ≤ ni) (hnj : 1 ≤ nj) (hnk : 1 ≤ nk) (hz : z.length = ni * nj * nk)
    (hfld : 1 + ni * nj * nk / 2 ≤ fld.length)
    (hf : nbits ≤ 16 → ∀ k, k < ni * nj → (fieldTok swap fld k).toNat < 2 ^ nbits) :
    ∃ out, armnCompress swap level fld ni nj nk nbits z = some out ∧ out.fld.length = fld.length ∧
      ((out.ret = -1 ∧ out.fld = fld) ∨
       (∃ bytes : Nat, out.ret = bytes ∧ bytes < 1 + 2 * (ni * nj * nk) ∧
         ∀ disk : List W, fld.length ≤ disk.length → disk.take (bytes / 4) = out.fld.take (bytes / 4) →
           ∃ back, armnUncompress swap u disk ni nj nbits g d0 = some back ∧
             ∀ k, k < ni * nj → fieldTok swap back k = fieldTok swap fld k)) := by
  obtain ⟨out, e, hl, h⟩ := compress_outcome swap u g d0 level fld ni nj nk nbits z hb hni hnj hnk hz hfld hf
  refine ⟨out, e, hl, h.imp id fun ⟨bytes, hr, _, hlt, hd⟩ => ⟨bytes, hr, hlt, fun disk hdl hdt => ?_⟩⟩
  have h2 : ni * nj / 2 ≤ ni * nj * nk / 2 := Nat.div_le_div_right (Nat.le_mul_of_pos_right _ hnk)
  exact hd disk (by omega) (by omega) hdt

/-- Hypotheses met by a 4 × 4 field of 16-bit values. -/
example := C08_compress_outcome true 0#32 (fun _ => 0) (fun _ => 0) 1 [0x10002, 0x30004, 0x50006, 0x70008, 1, 2, 3, 4, 0] 4 4 1 16
  (List.replicate 16 0) (by decide) (by decide) (by decide) (by decide) (by decide) (by decide)
  (by intro _ k _; exact (BitVec.isLt _))

/-- A compressible field is really compressed (the second alternative of C08 happens): 4 × 4 zeroes give 9 bytes. -/
theorem C08_compresses_witness :
    (armnCompress true 1 (List.replicate 9 0) 4 4 1 8 (List.replicate 16 0)).map (·.ret) = some 9 := by decide +kernel

/-- **C52 is violated**: only the first level of a field with `nk > 1` is compressed.  Two 2 × 2 × 2 fields that
differ in the second level give the same bytes, so no decoder can restore both. -/
theorem C52_levels_witness :
    ∃ a b : List W, (∃ k, k < 2 * 2 * 2 ∧ fieldTok true a k ≠ fieldTok true b k) ∧
      ∃ oa ob, armnCompress true 1 a 2 2 2 8 (List.replicate 8 0) = some oa ∧ armnCompress true 1 b 2 2 2 8 (List.replicate 8 0) = some ob ∧
        0 < oa.ret ∧ oa.ret = ob.ret ∧ oa.fld.take ((oa.ret.toNat + 3) / 4) = ob.fld.take ((ob.ret.toNat + 3) / 4) := by
  refine ⟨[0, 0, 0, 0, 0], [0, 0, 0, 1, 0], ⟨7, by decide, by decide⟩, ?_⟩
  refine ⟨⟨9, [0xa283#32, 0, 0, 0, 0]⟩, ⟨9, [0xa283#32, 0, 0, 1, 0]⟩, ?_, ?_, ?_, ?_, ?_⟩ <;> decide +kernel

/-- **C52**, what remains true: with a single level all values are restored (an instance of C08). -/
theorem C52_levels_partial (swap : Bool) (u : W) (g : Nat → BitVec 16) (d0 : Nat → Int) (level : Nat) (fld : List W)
    (ni nj nbits : Nat) (z : List W)
    (hb : 1 ≤ nbits) (hni : 1 ≤ ni) (hnj : 1 ≤ nj) (hz : z.length = ni * nj)
    (hfld : 1 + ni * nj / 2 ≤ fld.length)
    (hf : nbits ≤ 16 → ∀ k, k < ni * nj → (fieldTok swap fld k).toNat < 2 ^ nbits) :
    ∃ out, armnCompress swap level fld ni nj 1 nbits z = some out ∧
      (0 ≤ out.ret → ∃ back, armnUncompress swap u out.fld ni nj nbits g d0 = some back ∧
        ∀ k, k < ni * nj * 1 → fieldTok swap back k = fieldTok swap fld k) := by
  obtain ⟨out, e, hl, h⟩ := C08_compress_outcome swap u g d0 level fld ni nj 1 nbits z hb hni hnj (by omega) (by omega) (by omega) hf
  refine ⟨out, e, fun h0 => ?_⟩
  rcases h with h | ⟨bytes, hr, -, hd⟩
  · omega
  · obtain ⟨back, e, hk⟩ := hd out.fld (by omega) rfl
    exact ⟨back, e, fun k h => hk k (by omega)⟩

end Verif
