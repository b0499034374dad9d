import Verif.Handles

/-! # Properties C15 and C16: record handles -/

namespace Verif.Handles

theorem rnd_bit (p r f : I) (i : Nat) : (makeRndHandle p r f).getLsbD i =
    if i < 10 then f.getLsbD i else if i < 19 then r.getLsbD (i - 10) else if i < 31 then p.getLsbD (i - 19) else false := by
  unfold makeRndHandle
  rw [show (0x3FF#32) = BitVec.ofNat 32 (2 ^ 10 - 1) from rfl, show (0x1FF#32) = BitVec.ofNat 32 (2 ^ 9 - 1) from rfl,
    show (0xFFF#32) = BitVec.ofNat 32 (2 ^ 12 - 1) from rfl]
  simp only [BitVec.getLsbD_or, BitVec.getLsbD_and, BitVec.getLsbD_shiftLeft]
  rw [mask_bit 10 _ (by omega), mask_bit 9 _ (by omega), mask_bit 12 _ (by omega)]
  by_cases h1 : i < 10
  · simp [h1, show i < 19 by omega]
  · by_cases h2 : i < 19
    · simp [h1, h2, show i < 32 by omega, show i - 10 < 9 by omega]
    · by_cases h3 : i < 31
      · simp [h1, h2, h3, show i < 32 by omega, show ¬ i - 10 < 9 by omega, show i - 19 < 12 by omega]
      · simp [h1, h2, h3, show ¬ i - 10 < 9 by omega, show ¬ i - 19 < 12 by omega]

theorem rnd_msb (p r f : I) : (makeRndHandle p r f).msb = false := by
  rw [BitVec.msb_eq_getLsbD_last, rnd_bit]; simp

/-- **C15.** For every file index in 1..1023, page number below 4096 and entry number below 512 (the
library uses at most 1024 pages and 256 entries), the handle is a positive `int` and decodes to these numbers. -/
theorem C15_handle_decodes (p r f : I) (hp : p.toNat < 4096) (hr : r.toNat < 512) (hf : f.toNat < 1024) (hf1 : 1 ≤ f.toNat) :
    0 < (makeRndHandle p r f).toInt ∧
      indexFromHandle false (makeRndHandle p r f) = f ∧ recordFromHandle (makeRndHandle p r f) = r ∧
      pagenoFromHandle (makeRndHandle p r f) = p := by
  have hm := rnd_msb p r f
  have e3 : indexFromHandle false (makeRndHandle p r f) = f := by
    apply BitVec.eq_of_getLsbD_eq
    intro i hi
    simp only [indexFromHandle, Bool.false_eq_true, if_false]
    rw [show (0x3FF#32) = BitVec.ofNat 32 (2 ^ 10 - 1) from rfl, BitVec.getLsbD_and, mask_bit 10 _ (by omega), rnd_bit]
    by_cases h : i < 10
    · simp [h]
    · simp [h, bit_of_lt (k := 10) (i := i) hf (by omega)]
  refine ⟨?_, e3, ?_, ?_⟩
  · have h0 : (makeRndHandle p r f).toNat ≠ 0 := by
      intro h
      have : makeRndHandle p r f = 0#32 := BitVec.eq_of_toNat_eq h
      rw [this] at e3
      rw [← e3] at hf1
      revert hf1; decide
    rw [BitVec.toInt_eq_msb_cond, hm]
    simp only [Bool.false_eq_true, if_false]
    omega
  · apply BitVec.eq_of_getLsbD_eq
    intro i hi
    rw [recordFromHandle, show (0x1FF#32) = BitVec.ofNat 32 (2 ^ 9 - 1) from rfl, BitVec.getLsbD_and, mask_bit 9 _ (by omega),
      BitVec.getLsbD_sshiftRight, rnd_bit, hm]
    by_cases h : i < 9
    · simp [h, show ¬ 32 ≤ i by omega, show ¬ 10 + i < 10 by omega, show 10 + i < 19 by omega, show 10 + i < 32 by omega,
        show 10 + i - 10 = i by omega]
    · simp [h, bit_of_lt (k := 9) (i := i) hr (by omega)]
  · apply BitVec.eq_of_getLsbD_eq
    intro i hi
    rw [pagenoFromHandle, show (0xFFF#32) = BitVec.ofNat 32 (2 ^ 12 - 1) from rfl, BitVec.getLsbD_and, mask_bit 12 _ (by omega),
      BitVec.getLsbD_sshiftRight, rnd_bit, hm]
    by_cases h : i < 12
    · simp [h, show ¬ 32 ≤ i by omega, show ¬ 19 + i < 10 by omega, show ¬ 19 + i < 19 by omega, show 19 + i < 31 by omega,
        show 19 + i < 32 by omega]
    · simp [h, bit_of_lt (k := 12) (i := i) hp (by omega)]

/-- **C15.** Different records have different handles. -/
theorem C15_handle_injective (p r f p' r' f' : I) (hp : p.toNat < 4096) (hr : r.toNat < 512) (hf : f.toNat < 1024)
    (hp' : p'.toNat < 4096) (hr' : r'.toNat < 512) (hf' : f'.toNat < 1024) (hf1 : 1 ≤ f.toNat) (hf1' : 1 ≤ f'.toNat)
    (h : makeRndHandle p r f = makeRndHandle p' r' f') : p = p' ∧ r = r' ∧ f = f' := by
  obtain ⟨-, a, b, c⟩ := C15_handle_decodes p r f hp hr hf hf1
  obtain ⟨-, a', b', c'⟩ := C15_handle_decodes p' r' f' hp' hr' hf' hf1'
  rw [h] at a b c
  exact ⟨c.symm.trans c', b.symm.trans b', a.symm.trans a'⟩

/-- File 1000, page 1023, entry 255. -/
example : makeRndHandle 1023#32 255#32 1000#32 = 536608744#32 ∧ recordFromHandle 536608744#32 = 255#32 := by decide

/-- While a sequential file is open anywhere, the handles of random files opened 128th or later lose
the top of their file index: the handle of file 129 is taken for one of file 1. -/
theorem C15_seq_opened_witness :
    indexFromHandle true (makeRndHandle 0#32 0#32 129#32) = 1#32 ∧ indexFromHandle false (makeRndHandle 0#32 0#32 129#32) = 129#32 := by
  decide

/-! ## Sequential files -/

/-- 64-bit address units are multiples of the cluster size of their zone. -/
def Aligned (u : Nat) : Prop :=
  (0x4000000 ≤ u → u % 64 = 0) ∧ (0x1000000 ≤ u → u % 16 = 0) ∧ (0x400000 ≤ u → u % 4 = 0)

theorem seq_bit (c : Nat) (hc : c < 4) (a f : I) (hf : f.toNat < 128) (i : Nat) : (makeSeqHandleMacro (BitVec.ofNat 32 c) a f).getLsbD i =
    if i < 7 then f.getLsbD i else if i < 29 then a.getLsbD (i - 7) else if i < 31 then c.testBit (i - 29) else false := by
  unfold makeSeqHandleMacro
  rw [show (0x3FFFFF#32) = BitVec.ofNat 32 (2 ^ 22 - 1) from rfl]
  simp only [BitVec.getLsbD_or, BitVec.getLsbD_and, BitVec.getLsbD_shiftLeft, BitVec.getLsbD_ofNat (x := c)]
  rw [mask_bit 22 _ (by omega)]
  by_cases h1 : i < 7
  · simp [h1, show i < 29 by omega]
  · have hfi := bit_of_lt (k := 7) (i := i) hf (by omega)
    by_cases h2 : i < 29
    · rw [hfi]; simp [h1, h2, show i < 32 by omega, show i - 7 < 22 by omega]
    · by_cases h3 : i < 31
      · rw [hfi]; simp [h1, h2, h3, show i < 32 by omega, show ¬ i - 7 < 22 by omega, show i - 29 < 32 by omega]
      · have : c.testBit (i - 29) = false := Nat.testBit_lt_two_pow (Nat.lt_of_lt_of_le hc (by
          show 2 ^ 2 ≤ _
          exact Nat.pow_le_pow_right (by omega) (by omega)))
        rw [hfi]; simp [h1, h2, h3, show ¬ i - 7 < 22 by omega, this]

theorem seq_decode (c : Nat) (hc : c < 4) (a f : I) (hf : f.toNat < 128) (ha : a.toNat < 2 ^ 22) :
    addressFromHndl (makeSeqHandleMacro (BitVec.ofNat 32 c) a f) = a ∧
    clusterFromHandle (makeSeqHandleMacro (BitVec.ofNat 32 c) a f) = BitVec.ofNat 32 c ∧
    indexFromHandle true (makeSeqHandleMacro (BitVec.ofNat 32 c) a f) = f := by
  have hm : (makeSeqHandleMacro (BitVec.ofNat 32 c) a f).msb = false := by
    rw [BitVec.msb_eq_getLsbD_last, seq_bit c hc a f hf]; simp
  refine ⟨?_, ?_, ?_⟩
  · apply BitVec.eq_of_getLsbD_eq
    intro i hi
    rw [addressFromHndl, show (0x3FFFFF#32) = BitVec.ofNat 32 (2 ^ 22 - 1) from rfl, BitVec.getLsbD_and, mask_bit 22 _ (by omega),
      BitVec.getLsbD_sshiftRight, seq_bit c hc a f hf, hm]
    by_cases h : i < 22
    · simp [h, show ¬ 32 ≤ i by omega, show ¬ 7 + i < 7 by omega, show 7 + i < 29 by omega, show 7 + i < 32 by omega]
    · simp [h, bit_of_lt (k := 22) (i := i) ha (by omega)]
  · apply BitVec.eq_of_getLsbD_eq
    intro i hi
    rw [clusterFromHandle, show (0x3#32) = BitVec.ofNat 32 (2 ^ 2 - 1) from rfl, BitVec.getLsbD_and, mask_bit 2 _ (by omega),
      BitVec.getLsbD_sshiftRight, seq_bit c hc a f hf, hm, BitVec.getLsbD_ofNat]
    by_cases h : i < 2
    · simp [h, hi, show ¬ 32 ≤ i by omega, show ¬ 29 + i < 7 by omega, show ¬ 29 + i < 29 by omega, show 29 + i < 31 by omega,
        show 29 + i < 32 by omega]
    · have : c.testBit i = false := Nat.testBit_lt_two_pow (Nat.lt_of_lt_of_le hc (by
          show 2 ^ 2 ≤ _
          exact Nat.pow_le_pow_right (by omega) (by omega)))
      simp [h, this]
  · apply BitVec.eq_of_getLsbD_eq
    intro i hi
    simp only [indexFromHandle, if_true]
    rw [show (0x7F#32) = BitVec.ofNat 32 (2 ^ 7 - 1) from rfl, BitVec.getLsbD_and, mask_bit 7 _ (by omega), seq_bit c hc a f hf]
    by_cases h : i < 7
    · simp [h]
    · simp [h, bit_of_lt (k := 7) (i := i) hf (by omega)]

theorem sshiftRight_small (x : I) (k : Nat) (h : x.toNat < 2 ^ 31) : x.sshiftRight k = BitVec.ofNat 32 (x.toNat / 2 ^ k) := by
  apply BitVec.eq_of_toNat_eq
  have hm : x.msb = false := by rw [BitVec.msb_eq_decide]; simp; omega
  rw [BitVec.sshiftRight_eq_of_msb_false hm, BitVec.toNat_ushiftRight, Nat.shiftRight_eq_div_pow, BitVec.toNat_ofNat,
    Nat.mod_eq_of_lt]
  exact Nat.lt_of_le_of_lt (Nat.div_le_self _ _) x.isLt

theorem sle_ofNat (a b : Nat) (ha : a < 2 ^ 31) (hb : b < 2 ^ 31) :
    (BitVec.ofNat 32 a).sle (BitVec.ofNat 32 b) = decide (a ≤ b) := by
  have t : ∀ n, n < 2 ^ 31 → (BitVec.ofNat 32 n).toInt = n := by
    intro n hn
    rw [BitVec.toInt_eq_toNat_of_lt (by rw [BitVec.toNat_ofNat, Nat.mod_eq_of_lt (by omega)]; omega), BitVec.toNat_ofNat,
      Nat.mod_eq_of_lt (by omega)]
  rw [BitVec.sle_eq_decide, t a ha, t b hb]
  simp

/-- **C16.** The handle of the record at word address `2 u + 1` of a sequential file decodes to the
file and to that address, for all addresses below 2 Gb that are aligned as `c_xdfput` aligns them; for
old (1989) files all records start at multiples of 15 units. -/
theorem C16_seq_handle_decodes (u : Nat) (f : I) (hf : f.toNat < 128) :
    (∀ _ : u < 2 ^ 28, Aligned u →
      let h := makeSeqHandle (BitVec.ofNat 32 (2 * u + 1)) f false
      addressFromHandle h false = BitVec.ofNat 32 (2 * u + 1) ∧ indexFromHandle true h = f) ∧
    (∀ _ : u < 15 * 2 ^ 22, u % 15 = 0 →
      let h := makeSeqHandle (BitVec.ofNat 32 (2 * u + 1)) f true
      addressFromHandle h true = BitVec.ofNat 32 (2 * u + 1) ∧ indexFromHandle true h = f) := by
  have key : ∀ (c a : Nat), c < 4 → a < 2 ^ 22 →
      ∀ v, addressFromHandle (makeSeqHandleMacro (BitVec.ofNat 32 c) (BitVec.ofNat 32 a) f) v =
        BitVec.ofNat 32 (2 * (a * 4 ^ c * (if v then 15 else 1)) + 1) ∧
      indexFromHandle true (makeSeqHandleMacro (BitVec.ofNat 32 c) (BitVec.ofNat 32 a) f) = f := by
    intro c a hc ha v
    obtain ⟨e1, e2, e3⟩ := seq_decode c hc (BitVec.ofNat 32 a) f hf (by rw [BitVec.toNat_ofNat, Nat.mod_eq_of_lt (by omega)]; exact ha)
    refine ⟨?_, e3⟩
    unfold addressFromHandle
    rw [e1, e2]
    apply BitVec.eq_of_toNat_eq
    have hcc : (BitVec.ofNat 32 c).toNat = c := by rw [BitVec.toNat_ofNat, Nat.mod_eq_of_lt (by omega)]
    have e4 : (2 : Nat) ^ (2 * c) = 4 ^ c := by rw [Nat.pow_mul]
    cases v
    · simp only [hcc, Bool.false_eq_true, if_false, BitVec.toNat_add, BitVec.toNat_shiftLeft, BitVec.toNat_ofNat,
        Nat.shiftLeft_eq, e4]
      simp [Nat.mod_mul_mod, Nat.mul_assoc, Nat.mul_comm]
    · simp only [hcc, if_true, BitVec.toNat_add, BitVec.toNat_mul, BitVec.toNat_shiftLeft, BitVec.toNat_ofNat,
        Nat.shiftLeft_eq, e4]
      simp [Nat.mod_mul_mod, Nat.mul_assoc, Nat.mul_comm]
  have hu : ∀ _ : u < 2 ^ 29, (BitVec.ofNat 32 (2 * u + 1) - 1#32).sshiftRight 1 = BitVec.ofNat 32 u := by
    intro h
    have e : BitVec.ofNat 32 (2 * u + 1) - 1#32 = BitVec.ofNat 32 (2 * u) := by
      rw [← BitVec.ofNat_add_ofNat, BitVec.add_sub_cancel]
    rw [e, sshiftRight_small _ _ (by rw [BitVec.toNat_ofNat, Nat.mod_eq_of_lt (by omega)]; omega), BitVec.toNat_ofNat,
      Nat.mod_eq_of_lt (by omega)]
    congr 1; omega
  have hs : ∀ _ : u < 2 ^ 29, ∀ k, (BitVec.ofNat 32 u).sshiftRight k = BitVec.ofNat 32 (u / 2 ^ k) := by
    intro h k
    rw [sshiftRight_small _ _ (by rw [BitVec.toNat_ofNat, Nat.mod_eq_of_lt (by omega)]; omega), BitVec.toNat_ofNat,
      Nat.mod_eq_of_lt (by omega)]
  constructor
  · intro hlt hal
    obtain ⟨a1, a2, a3⟩ := hal
    simp only [makeSeqHandle, hu (by omega), Bool.false_eq_true, if_false]
    rw [sle_ofNat _ _ (by omega) (by omega), sle_ofNat _ _ (by omega) (by omega), sle_ofNat _ _ (by omega) (by omega)]
    simp only [decide_eq_true_eq, hs (show u < 2 ^ 29 by omega)]
    split
    · obtain ⟨k1, k2⟩ := key 3 (u / 2 ^ 6) (by omega) (by omega) false
      refine ⟨?_, k2⟩
      rw [k1]; congr 1; simp; omega
    · split
      · obtain ⟨k1, k2⟩ := key 2 (u / 2 ^ 4) (by omega) (by omega) false
        refine ⟨?_, k2⟩
        rw [k1]; congr 1; simp; omega
      · split
        · obtain ⟨k1, k2⟩ := key 1 (u / 2 ^ 2) (by omega) (by omega) false
          refine ⟨?_, k2⟩
          rw [k1]; congr 1; simp; omega
        · obtain ⟨k1, k2⟩ := key 0 u (by omega) (by omega) false
          refine ⟨?_, k2⟩
          rw [k1]; congr 1; simp
  · intro hlt hal
    simp only [makeSeqHandle, hu (by omega), if_true]
    have hd : (BitVec.ofNat 32 u).sdiv 15#32 = BitVec.ofNat 32 (u / 15) := by
      have hm : (BitVec.ofNat 32 u).msb = false := by
        rw [BitVec.msb_eq_decide, BitVec.toNat_ofNat, Nat.mod_eq_of_lt (by omega)]; simp; omega
      rw [BitVec.sdiv_eq, hm, show (15#32).msb = false from rfl]
      apply BitVec.eq_of_toNat_eq
      simp only [BitVec.udiv_eq, BitVec.toNat_udiv, BitVec.toNat_ofNat]
      rw [Nat.mod_eq_of_lt (show u < 2 ^ 32 by omega), Nat.mod_eq_of_lt (show u / 15 < 2 ^ 32 by omega)]
    rw [hd]
    obtain ⟨k1, k2⟩ := key 0 (u / 15) (by omega) (by omega) true
    refine ⟨?_, k2⟩
    rw [k1]; congr 1; simp; omega

example : makeSeqHandle (BitVec.ofNat 32 (2 * 0x5000040 + 1)) 5#32 false = 0x6A000085#32 ∧ Aligned 0x5000040 := by
  refine ⟨by decide, ?_⟩
  unfold Aligned; decide

/-- An address that is not aligned is not recovered. -/
theorem C16_unaligned_witness :
    addressFromHandle (makeSeqHandle (BitVec.ofNat 32 (2 * 0x400001 + 1)) 1#32 false) false = BitVec.ofNat 32 (2 * 0x400000 + 1) := by
  decide

/-- **C16.** `c_xdfput` keeps the addresses aligned: from an aligned starting address (the first record of
a file is at word 1), all records appended have aligned addresses of odd word number, and each starts at
or after the end of the one before and its postfix. -/
theorem C16_appends_aligned (ns : List Nat) : ∀ (u : Nat), Aligned u →
    (∀ a ∈ seqAddrs (2 * u + 1) ns, ∃ v, a = 2 * v + 1 ∧ Aligned v ∧ u ≤ v) ∧
    (seqAddrs (2 * u + 1) ns).length = ns.length ∧
    ∀ i a b n, ns[i]? = some n → (seqAddrs (2 * u + 1) ns)[i]? = some a → (seqAddrs (2 * u + 1) ns)[i + 1]? = some b →
      a + n + 4 ≤ b := by
  induction ns with
  | nil => intro u _; simp [seqAddrs]
  | cons n ns ih =>
    intro u hu
    have hstep : ∃ v, nextSeqAddr (2 * u + 1) n = 2 * v + 1 ∧ Aligned v ∧ 2 * u + 1 + n + 4 ≤ nextSeqAddr (2 * u + 1) n := by
      have e : ∀ c, 2 ≤ c → c % 2 = 0 → 
          2 * u + 1 + ((2 * u + n + 4 + c - 1) / c * c + 1 - (2 * u + 1) - 4) + 4 = 2 * ((2 * u + n + 4 + c - 1) / c * (c / 2)) + 1 ∧
          2 * u + n + 4 ≤ (2 * u + n + 4 + c - 1) / c * c := by
        intro c hc he
        have h1 := Nat.div_add_mod (2 * u + n + 4 + c - 1) c
        have h2 := Nat.mod_lt (2 * u + n + 4 + c - 1) (show c > 0 by omega)
        rw [Nat.mul_comm] at h1
        obtain ⟨k, hk⟩ : ∃ k, c = 2 * k := ⟨c / 2, by omega⟩
        have h3 : (2 * u + n + 4 + c - 1) / c * (c / 2) * 2 = (2 * u + n + 4 + c - 1) / c * c := by
          rw [Nat.mul_assoc]; congr 1; omega
        omega
      unfold nextSeqAddr
      simp only [Nat.shiftRight_eq_div_pow, show 2 * u + 1 - 1 = 2 * u by omega]
      split
      · obtain ⟨e1, e2⟩ := e 128 (by omega) (by omega)
        refine ⟨_, e1, ?_, by omega⟩
        unfold Aligned; omega
      · split
        · obtain ⟨e1, e2⟩ := e 32 (by omega) (by omega)
          refine ⟨_, e1, ?_, by omega⟩
          unfold Aligned; omega
        · split
          · obtain ⟨e1, e2⟩ := e 8 (by omega) (by omega)
            refine ⟨_, e1, ?_, by omega⟩
            unfold Aligned; omega
          · obtain ⟨e1, e2⟩ := e 2 (by omega) (by omega)
            refine ⟨_, e1, ?_, by omega⟩
            unfold Aligned; omega
    obtain ⟨v, e, hv, hle⟩ := hstep
    obtain ⟨h1, h2, h3⟩ := ih v hv
    simp only [seqAddrs, e] at *
    refine ⟨?_, by simp [h2], ?_⟩
    · intro a ha
      rcases List.mem_cons.1 ha with rfl | ha
      · exact ⟨u, rfl, hu, Nat.le_refl _⟩
      · obtain ⟨w, e1, e2, e3⟩ := h1 a ha
        exact ⟨w, e1, e2, by omega⟩
    · intro i a b m hm ha hb
      cases i with
      | zero =>
        simp only [List.getElem?_cons_zero, Option.some.injEq] at hm ha
        simp only [Nat.zero_add, List.getElem?_cons_succ] at hb
        cases ns with
        | nil => simp [seqAddrs] at hb
        | cons n' ns =>
          simp only [seqAddrs, List.getElem?_cons_zero, Option.some.injEq] at hb
          omega
      | succ i =>
        simp only [List.getElem?_cons_succ] at hm ha hb
        exact h3 i a b m hm ha hb

example : Aligned 0 ∧ seqAddrs 1 [10, 9000000, 7, 2] = [1, 15, 9000025, 9000041] := by
  refine ⟨by unfold Aligned; decide, by decide⟩

end Verif.Handles
