import Verif.CompactIntegerRound

/-! # Properties C01-C05: integer packing

Vocabulary: `Strided src stride xs` (the elements of `src` at steps of `stride` are `xs`),
`memBits` (all bits of an array of words). -/

namespace Verif

/-- C01.  Unsigned packing without header is lossless for every width 1..32, bit position, stride and
array of values below `2^bits`; all accesses stay inside the arrays provided the packed buffer
extends at least one bit beyond the stream.  `u1`, `u2`: results of out-of-range shifts (unused). -/
theorem C01_unsigned_roundtrip (u1 u2 : W) (src dst out xs : List W) (bits off stride : Nat)
    (hb1 : 1 ≤ bits) (hb2 : bits ≤ 32) (hst : 1 ≤ stride)
    (hsrc : Strided src stride xs) (hfit : ∀ x ∈ xs, x.toNat < 2 ^ bits)
    (hroom : off + xs.length * bits < 32 * dst.length)
    (hout : ∀ j, j < xs.length → j * stride < out.length) :
    ∃ d o, compactIntegerPack u1 false false src dst xs.length bits off stride = some ((bits : Int), none, d) ∧
      compactIntegerUnpack u2 false out none d xs.length bits off stride = some ((bits : Int), o) ∧
      Strided o stride xs ∧ o.length = out.length ∧
      (∀ p, (∀ j, j < xs.length → p ≠ j * stride) → o[p]? = out[p]?) := by
  obtain ⟨d, o, e, l, eu, lo, so, po⟩ := pack_unpack (k := 32) u2 (src := src) (out := out) (dst := dst) (off := off)
    (kind := .raw 0) (ukind := .raw 0) (mask := cleanup u1 bits) hb1 hb2 hst hsrc
    (fun x _ => written_cleanup_lt u1 _ off hb1 hb2 _) hroom hout
  refine ⟨d, o, ?_, ?_, ?_, lo, po⟩
  · unfold compactIntegerPack
    rw [if_neg (by omega), if_neg (by omega), hsrc.gather]
    simp only [Bool.false_eq_true, if_false]
    rw [if_neg (by omega)]
    show Option.map _ (pack src xs.length stride _ off _ _ dst) = _
    rw [Int.toNat_natCast, e]; rfl
  · unfold compactIntegerUnpack
    rw [if_neg (by omega)]
    simp only [Bool.false_eq_true, if_false]
    rw [if_neg (by omega)]
    show Option.map _ (unpack u2 d xs.length stride _ off _ out) = _
    rw [Int.toNat_natCast, eu]; rfl
  · rw [List.map_congr_left (g := id)] at so
    · simpa using so
    · intro x hx
      rw [written_cleanup_eq _ _ _ hb1 hb2 _ (by simpa [TokKind.tok] using hfit x hx)]
      simp [TokKind.tok, UntokKind.val]

/-- The hypotheses of C01 are met by a stream that crosses word boundaries. -/
example :=
  C01_unsigned_roundtrip 0 0 [5#32, 7#32, 0#32, 6#32, 1#32] (List.replicate 4 0#32)
    (List.replicate 5 9#32) [5#32, 0#32, 1#32] 31 17 2 (by decide) (by decide) (by decide)
    (by intro j hj; match j, hj with | 0, _ => rfl | 1, _ => rfl | 2, _ => rfl)
    (by simp) (by simp) (by simp; omega)

/-- The extra bit is needed: when the stream ends exactly at the end of the buffer, unpacking reads the
word after the buffer (`none`). -/
theorem C01_overread_witness :
    compactIntegerPack 0 false false [1#32] [0#32] 1 32 0 1 = some (32, none, [1#32]) ∧
    compactIntegerUnpack 0 false [0#32] none [1#32] 1 32 0 1 = none := by
  decide

/-- C02.  Signed packing without header is lossless for every array of `bits`-bit two's complement values. -/
theorem C02_signed_roundtrip (u1 u2 : W) (src dst out xs : List W) (bits off stride : Nat)
    (hb1 : 1 ≤ bits) (hb2 : bits ≤ 32) (hst : 1 ≤ stride)
    (hsrc : Strided src stride xs)
    (hfit : ∀ x ∈ xs, -2 ^ (bits - 1) ≤ x.toInt ∧ x.toInt < 2 ^ (bits - 1))
    (hroom : off + xs.length * bits < 32 * dst.length)
    (hout : ∀ j, j < xs.length → j * stride < out.length) :
    ∃ d o, compactIntegerPack u1 true false src dst xs.length bits off stride = some ((bits : Int), none, d) ∧
      compactIntegerUnpack u2 true out none d xs.length bits off stride = some ((bits : Int), o) ∧
      Strided o stride xs ∧ o.length = out.length ∧
      (∀ p, (∀ j, j < xs.length → p ≠ j * stride) → o[p]? = out[p]?) := by
  have hadd : ∀ x ∈ xs, (x + 1#32 <<< (bits - 1)).toNat < 2 ^ bits := by
    intro x hx
    obtain ⟨h1, h2⟩ := hfit x hx
    have hxl := x.isLt
    have hp : (2 : Nat) ^ bits = 2 * 2 ^ (bits - 1) := by
      rw [← Nat.pow_succ']; congr 1; omega
    have hle : (2 : Nat) ^ (bits - 1) ≤ 2 ^ 31 := Nat.pow_le_pow_right (by decide) (by omega)
    have hsh : (1#32 <<< (bits - 1)).toNat = 2 ^ (bits - 1) := by
      rw [BitVec.toNat_shiftLeft, Nat.shiftLeft_eq]
      simp only [BitVec.toNat_ofNat]
      rw [Nat.mod_eq_of_lt (by omega)]
      omega
    rw [BitVec.toNat_add, hsh]
    have hcast : ((2 : Int) ^ (bits - 1)) = ((2 ^ (bits - 1) : Nat) : Int) := by simp
    rw [hcast] at h1 h2
    rw [BitVec.toInt_eq_toNat_cond] at h1 h2
    generalize (2 : Nat) ^ (bits - 1) = p at *
    split at h1 <;> omega
  obtain ⟨d, o, e, l, eu, lo, so, po⟩ := pack_unpack (k := 32) u2 (src := src) (out := out) (dst := dst) (off := off)
    (kind := .raw (1#32 <<< (bits - 1))) (ukind := .raw (1#32 <<< (bits - 1))) (mask := cleanup u1 bits) hb1 hb2 hst hsrc
    (fun x _ => written_cleanup_lt u1 _ off hb1 hb2 _) hroom hout
  refine ⟨d, o, ?_, ?_, ?_, lo, po⟩
  · unfold compactIntegerPack
    rw [if_neg (by omega), if_neg (by omega), hsrc.gather]
    simp only [Bool.false_eq_true, if_false, if_true]
    rw [if_neg (by omega)]
    show Option.map _ (pack src xs.length stride _ off _ _ dst) = _
    rw [Int.toNat_natCast, e]; rfl
  · unfold compactIntegerUnpack
    rw [if_neg (by omega)]
    simp only [if_true]
    rw [if_neg (by omega)]
    show Option.map _ (unpack u2 d xs.length stride _ off _ out) = _
    rw [Int.toNat_natCast, eu]; rfl
  · rw [List.map_congr_left (g := id)] at so
    · simpa using so
    · intro x hx
      rw [written_cleanup_eq _ _ _ hb1 hb2 _ (by simpa [TokKind.tok] using hadd x hx)]
      simp only [TokKind.tok, UntokKind.val, BitVec.setWidth_eq]
      rw [BitVec.add_assoc, BitVec.add_right_neg, BitVec.add_zero]; rfl

example :=
  C02_signed_roundtrip 0 0 [-4#32, 3#32, -1#32] [0xFFFFFFFF#32, 7#32]
    [0#32, 0#32, 0#32] [-4#32, 3#32, -1#32] 3 30 1 (by decide) (by decide) (by decide)
    (by intro j hj; match j, hj with | 0, _ => rfl | 1, _ => rfl | 2, _ => rfl)
    (by simp) (by simp) (by simp)

/-- C03.  Whatever is packed (any element values, signed or not, with or without header, with a given
or automatic width), no bit outside the `n * width` bits starting at `off` changes; `ret` is the
width returned by the call. -/
theorem C03_only_own_bits (u : W) (signed header : Bool) (src dst d : List W) (n off stride : Nat) (bits ret : Int)
    (h : Option CIHeader)
    (hcall : compactIntegerPack u signed header src dst n bits off stride = some (ret, h, d))
    (hroom : off + n * ret.toNat ≤ 32 * dst.length) :
    d.length = dst.length ∧
    ∀ p, p < off ∨ off + n * ret.toNat ≤ p → (memBits d)[p]? = (memBits dst)[p]? := by
  have key : ∀ (xs : List W) (b : Nat) (kind : TokKind) (mask : W), b ≤ 32 → Strided src stride xs →
      (∀ x ∈ xs, (kind.written b off mask (x.setWidth 32)).toNat < 2 ^ b) →
      pack src xs.length stride b off kind mask dst = some d → off + xs.length * b ≤ 32 * dst.length →
      d.length = dst.length ∧
      ∀ p, p < off ∨ off + xs.length * b ≤ p → (memBits d)[p]? = (memBits dst)[p]? := by
    intro xs b kind mask hb hs ht e hr
    obtain ⟨d', e', l, hbits⟩ := pack_spec (kind := kind) (mask := mask) (off := off) (dst := dst) hb hs ht hr
    rw [e] at e'
    cases e'
    exact ⟨l, outside_unchanged hbits (by simp) (by simpa using hr)⟩
  unfold compactIntegerPack at hcall
  split at hcall
  · cases hcall; exact ⟨rfl, fun _ _ => rfl⟩
  · rename_i hb0
    split at hcall
    · cases hcall
    · rename_i hbr
      split at hcall
      · cases hcall
      · rename_i ys hg
        obtain ⟨xs, hlen, hys, hxs⟩ := gather_inv n 0 ys hg
        have hst : Strided src stride xs := by intro j hj; simpa using hxs j hj
        have hysx : ys = xs := by rw [hys]; simp
        subst hysx
        subst hlen
        split at hcall
        · split at hcall
          · cases hcall
          · rename_i hd b sh hc
            obtain ⟨_, _, _, hall, hauto, hfix⟩ := constructHeader_spec hc
            simp only [Option.map_eq_some_iff] at hcall
            obtain ⟨d', e, he⟩ := hcall
            simp only [Prod.mk.injEq] at he
            obtain ⟨rfl, _, rfl⟩ := he
            by_cases c : bits = -1
            · obtain ⟨hb, hsh⟩ := hauto c
              refine key ys b _ _ (by rw [hb]; exact bitLen_word _) hst ?_ e hroom
              intro x hx
              have hd1 := dist_le (hall x hx).1 (hall x hx).2
              have hlt := lt_two_pow_bitLen (hd.max - hd.min).toNat
              have ht : (TokKind.tok (.rel signed hd.min sh) x).toNat < 2 ^ b := by
                rw [hb, hsh]; cases signed <;> simp [TokKind.tok, -BitVec.toNat_sub] <;> omega
              unfold TokKind.written
              split
              · simpa using ht
              · rw [BitVec.toNat_and]
                exact Nat.lt_of_le_of_lt Nat.and_le_left (by simpa using ht)
            · obtain ⟨hb, hsh⟩ := hfix c
              have hcast : bits = (b : Int) := by omega
              rw [hcast] at e
              exact key ys b _ _ (by omega) hst (fun x _ => written_cleanup_lt u _ off (by omega) (by omega) _) e hroom
        · split at hcall
          · split at hcall
            · cases hcall
            · split at hcall
              · cases hcall
              · rename_i x rest
                simp only [Option.map_eq_some_iff] at hcall
                obtain ⟨d', e, he⟩ := hcall
                simp only [Prod.mk.injEq] at he
                obtain ⟨rfl, _, rfl⟩ := he
                refine key (x :: rest) _ _ _ (bitLen_word _) hst ?_ e hroom
                intro y hy
                have hle : y.toNat ≤ (rest.foldl (· ||| ·) x).toNat :=
                  le_foldl_or _ _ _ (by rcases List.mem_cons.1 hy with rfl | h; exact Or.inl (Nat.le_refl _); exact Or.inr h)
                have hlt := lt_two_pow_bitLen (rest.foldl (· ||| ·) x).toNat
                unfold TokKind.written
                split
                · simp [TokKind.tok]; omega
                · rw [BitVec.toNat_and]
                  refine Nat.lt_of_le_of_lt Nat.and_le_left ?_
                  simp [TokKind.tok]; omega
          · rename_i hne
            simp only [Option.map_eq_some_iff] at hcall
            obtain ⟨d', e, he⟩ := hcall
            simp only [Prod.mk.injEq] at he
            obtain ⟨rfl, _, rfl⟩ := he
            have hcast : bits = (bits.toNat : Int) := by omega
            refine key ys bits.toNat _ _ (by omega) hst (fun x _ => ?_) e hroom
            rw [hcast]
            exact written_cleanup_lt u _ off (by omega) (by omega) _

/-- Three 5-bit tokens written at bit 30 of an array of ones. -/
example : compactIntegerPack 0 false false [1#32, 0#32, 31#32] [0xFFFFFFFF#32, 0xFFFFFFFF#32] 3 5 30 1
    = some (5, none, [0xFFFFFFFC#32, 0x20FFFFFF#32]) := by decide

/-- C04, partial: with a header and automatic width (`bits = -1`), or with a header and a width that
covers the range of the data, packing is lossless, signed or unsigned.  Missing with respect to the full
statement (false for the code, see `C04_auto_header_witness` and `C04_constant_witness`): with automatic
width the data must not be constant, and data spanning 32 bits must be packed at a word boundary.
`u` is the machine's result of the out-of-range shift of line 411; the x86 value is assumed for automatic width.
`bits'` is whatever non-zero width is passed to the unpacking call. -/
theorem C04_header_roundtrip_partial (u u2 : W) (signed : Bool) (src dst out xs : List W) (off stride : Nat)
    (bits bits' : Int) (b : Nat)
    (hst : 1 ≤ stride) (hsrc : Strided src stride xs) (hne : xs ≠ []) (hcount : xs.length < 2 ^ 32)
    (hb' : bits' ≠ 0)
    (hspan : ∀ x ∈ xs, ∀ y ∈ xs, elemVal signed x - elemVal signed y < 2 ^ b)
    (hbits : (bits = b ∧ 1 ≤ b ∧ b ≤ 32) ∨
      (bits = -1 ∧ u = 0x7FFFFFFF#32 ∧ (∃ x ∈ xs, ∃ y ∈ xs, x ≠ y) ∧ (b = 31 ∨ (b = 32 ∧ off % 32 = 0))))
    (hroom : off + xs.length * b < 32 * dst.length)
    (hout : ∀ j, j < xs.length → j * stride < out.length) :
    ∃ ret h d o, compactIntegerPack u signed true src dst xs.length bits off stride = some (ret, some h, d) ∧
      compactIntegerUnpack u2 signed out (some h) d xs.length bits' off stride = some (bits', o) ∧
      Strided o stride xs ∧ o.length = out.length := by
  obtain ⟨⟨h, w, sh⟩, hc⟩ := constructHeader_isSome signed xs bits hne
  obtain ⟨hw0, hcnt, ⟨hmn, hmx⟩, hall, hauto, hfix⟩ := constructHeader_spec hc
  have hrange : (h.max - h.min).toNat < 2 ^ b := by
    have h1 := sub_toNat_of_le signed (hall h.max hmx).1
    have h2 := hspan h.max hmx h.min hmn
    have : ((2 ^ b : Nat) : Int) = 2 ^ b := by simp
    omega
  have hneed := bitLen_le hrange
  -- width, shift and the token written
  have hcore : 1 ≤ w ∧ w ≤ b ∧ b ≤ 32 ∧ sh = 0 ∧
      ∀ x ∈ xs, (TokKind.rel signed h.min sh).written w off (cleanup u bits) x = x - h.min ∧ (x - h.min).toNat < 2 ^ w := by
    rcases hbits with ⟨rfl, hb1, hb2⟩ | ⟨rfl, rfl, ⟨x, hx, y, hy, hxy⟩, hcase⟩
    · obtain ⟨hw, hsh⟩ := hfix (by omega)
      have hw' : w = b := by omega
      have hsh' : sh = 0 := by rw [hsh]; omega
      subst hw' hsh'
      refine ⟨hb1, by omega, hb2, rfl, ?_⟩
      intro x hx
      have hd := dist_le (hall x hx).1 (hall x hx).2
      have htok : TokKind.tok (.rel signed h.min 0) x = x - h.min := by cases signed <;> simp [TokKind.tok]
      refine ⟨?_, by omega⟩
      rw [written_cleanup_eq _ _ _ hb1 hb2 _ (by rw [htok]; omega), htok]
    · obtain ⟨hw, hsh⟩ := hauto rfl
      subst hsh
      have hpos : 1 ≤ w := by
        rw [hw]
        apply bitLen_pos
        intro h0
        have h1 := sub_toNat_of_le signed (hall h.max hmx).1
        have hinj : ∀ a c : W, elemVal signed a = elemVal signed c → a = c := by
          intro a c hac
          cases signed
          · simp [elemVal] at hac; exact BitVec.eq_of_toNat_eq (by omega)
          · simp [elemVal] at hac; exact BitVec.eq_of_toInt_eq hac
        have hx' := hall x hx
        have hy' := hall y hy
        exact hxy (hinj _ _ (by omega))
      refine ⟨hpos, by omega, by omega, rfl, ?_⟩
      intro x hx
      have hd := dist_le (hall x hx).1 (hall x hx).2
      have hlt := lt_two_pow_bitLen (h.max - h.min).toNat
      have htok : TokKind.tok (.rel signed h.min 0) x = x - h.min := by cases signed <;> simp [TokKind.tok]
      refine ⟨?_, by rw [hw]; omega⟩
      unfold TokKind.written
      rw [htok]
      split
      · rfl
      · rename_i hn
        have h31 : (x - h.min).toNat < 2 ^ 31 := by
          rcases hcase with h31 | ⟨_, hal⟩
          · rw [h31] at hrange; omega
          · have : w ≤ 31 := by omega
            have : 2 ^ bitLen (h.max - h.min).toNat ≤ 2 ^ 31 := Nat.pow_le_pow_right (by decide) (by omega)
            omega
        apply BitVec.eq_of_toNat_eq
        rw [BitVec.toNat_and]
        have : (cleanup 0x7FFFFFFF#32 (-1)).toNat = 2 ^ 31 - 1 := by decide
        rw [this, Nat.and_two_pow_sub_one_eq_mod, Nat.mod_eq_of_lt h31]
  obtain ⟨hw1, hwb, hb32, hsh, hwr⟩ := hcore
  have hmul : xs.length * w ≤ xs.length * b := Nat.mul_le_mul_left _ hwb
  obtain ⟨d, o, e, l, eu, lo, so, po⟩ := pack_unpack (k := 32) u2 (src := src) (out := out) (dst := dst) (off := off)
    (kind := .rel signed h.min sh) (ukind := .rel h.min sh) (mask := cleanup u bits) hw1 (by omega) hst hsrc
    (fun x hx => by rw [BitVec.setWidth_eq, (hwr x hx).1]; exact (hwr x hx).2) (by omega) hout
  refine ⟨w, h, d, o, ?_, ?_, ?_, lo⟩
  · unfold compactIntegerPack
    rw [if_neg (by omega), if_neg (by omega), hsrc.gather]
    simp only [BitVec.setWidth_eq, List.map_id', if_true, hc]
    rw [e]; rfl
  · unfold compactIntegerUnpack
    rw [if_neg hb']
    have hf := headerFields ⟨sh, by omega⟩ ⟨w, by omega⟩
    have h1 : h.tokenSize = w := by unfold CIHeader.tokenSize; rw [hw0]; exact hf.1
    have h2 : h.shift = sh := by unfold CIHeader.shift; rw [hw0]; exact hf.2
    have h3 : h.count.toNat = xs.length := by
      rw [hcnt]; simp; omega
    simp only [h1, h2, h3, eu]; rfl
  · rw [List.map_congr_left (g := id)] at so
    · simpa using so
    · intro x hx
      rw [BitVec.setWidth_eq, BitVec.setWidth_eq, (hwr x hx).1, hsh]
      simp [UntokKind.val, BitVec.sub_add_cancel]

example := C04_header_roundtrip_partial 0x7FFFFFFF#32 0 true [-5#32, 100#32, 3#32] (List.replicate 4 0#32) [0#32, 0#32, 0#32]
    [-5#32, 100#32, 3#32] 13 1 (-1) (-1) 31 (by decide)
    (by intro j hj; match j, hj with | 0, _ => rfl | 1, _ => rfl | 2, _ => rfl)
    (by simp) (by simp) (by decide) (by simp [elemVal, BitVec.toInt]) (by right; simp) (by simp) (by simp)

/-- Packing and then unpacking with the header produced, as an executable check for the witnesses. -/
private def headerTrip (u : W) (src dst out : List W) (n : Nat) (bits' : Int) (off : Nat) : Option (Int × Option (Int × List W)) :=
  match compactIntegerPack u false true src dst n (-1) off 1 with
  | some (ret, some h, d) => some (ret, compactIntegerUnpack 0 false out (some h) d n bits' off 1)
  | _ => none

/-- Violation of C04: full-range data with automatic width at an unaligned position lose their top bit
(the mask of line 411 is not recomputed in `constructHeader`; x86 shift semantics). -/
theorem C04_auto_header_witness :
    headerTrip 0x7FFFFFFF#32 [0#32, 0xFFFFFFFF#32] (List.replicate 4 0#32) [0#32, 0#32] 2 32 1
      = some (32, some (32, [0#32, 0x7FFFFFFF#32])) := by
  decide +kernel

/-- Violation of C04: a constant array gets width 0 and cannot be unpacked (shift by 32 in `extract`). -/
theorem C04_constant_witness :
    headerTrip 0x7FFFFFFF#32 [7#32, 7#32] (List.replicate 4 0#32) [0#32, 0#32] 2 (-1) 0 = some (0, none) := by
  decide +kernel

/-- C05.  `compact_short` (`k = 16`) and `compact_char` (`k = 8`), unsigned and headerless, are lossless. -/
theorem C05_narrow_roundtrip {k : Nat} (hk : k ≤ 32) (u1 u2 : W) (src out xs : List (BitVec k)) (dst : List W)
    (bits off stride : Nat)
    (hb1 : 1 ≤ bits) (hb2 : bits ≤ 32) (hst : 1 ≤ stride)
    (hsrc : Strided src stride xs) (hfit : ∀ x ∈ xs, x.toNat < 2 ^ bits)
    (hroom : off + xs.length * bits < 32 * dst.length)
    (hout : ∀ j, j < xs.length → j * stride < out.length) :
    ∃ d o, compactNarrowPack u1 src dst xs.length bits off stride = some ((bits : Int), d) ∧
      compactNarrowUnpack u2 out d xs.length bits off stride = some ((bits : Int), o) ∧
      Strided o stride xs ∧ o.length = out.length ∧
      (∀ p, (∀ j, j < xs.length → p ≠ j * stride) → o[p]? = out[p]?) := by
  have hw : ∀ x : BitVec k, (x.setWidth 32).toNat = x.toNat := by
    intro x
    rw [BitVec.toNat_setWidth, Nat.mod_eq_of_lt]
    exact Nat.lt_of_lt_of_le x.isLt (Nat.pow_le_pow_right (by decide) hk)
  obtain ⟨d, o, e, l, eu, lo, so, po⟩ := pack_unpack (k := k) u2 (src := src) (out := out) (dst := dst) (off := off)
    (kind := .raw 0) (ukind := .raw 0) (mask := cleanup u1 bits) hb1 hb2 hst hsrc
    (fun x _ => written_cleanup_lt u1 _ off hb1 hb2 _) hroom hout
  refine ⟨d, o, ?_, ?_, ?_, lo, po⟩
  · unfold compactNarrowPack
    rw [if_neg (by omega), if_neg (by omega), e]; rfl
  · unfold compactNarrowUnpack
    rw [if_neg (by omega), eu]; rfl
  · rw [List.map_congr_left (g := id)] at so
    · simpa using so
    · intro x hx
      rw [written_cleanup_eq _ _ _ hb1 hb2 _ (by simpa [TokKind.tok, hw, -BitVec.toNat_setWidth] using hfit x hx)]
      simp only [TokKind.tok, UntokKind.val]
      apply BitVec.eq_of_toNat_eq
      rw [BitVec.toNat_setWidth]
      simp [hw, -BitVec.toNat_setWidth]

example :=
  C05_narrow_roundtrip (k := 16) (by decide) 0 0 [0xFFFF#16, 3#16, 0x8000#16]
    [0#16, 0#16, 0#16] [0xFFFF#16, 3#16, 0x8000#16] [0xFFFFFFFF#32, 7#32] 16 5 1 (by decide) (by decide) (by decide)
    (by intro j hj; match j, hj with | 0, _ => rfl | 1, _ => rfl | 2, _ => rfl)
    (by simp) (by simp) (by simp)

end Verif
