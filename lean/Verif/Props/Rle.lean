import Verif.Rle

/-! # C10: run-length packing -/

namespace Verif.Rle

/-- **C10**, the part that holds.  Any array of at least one element is restored by unpacking what
packing produced, at any bit offset and stride, provided the token width leaves room for repeat codes
(`range + 3 ≤ 2^bits`), at least one bit is readable after the stream, and the last element is not a
new value right after a repeated one.  Elements of `out` between the strided positions are untouched.

Missing: arrays that end with a new value after a repeat lose the repeats (`C10_lost_run_witness`);
without room for repeat codes the result is wrong too (`C10_no_room_witness`); 32-bit tokens. -/
theorem C10_rle_roundtrip_partial (u junk : W) (src dst out xs : List W) (max min : W) (stride bits off : Nat)
    (hsrc : Strided src stride xs) (hn : xs ≠ []) (hn2 : xs.length < 2 ^ 26)
    (hb1 : 3 ≤ bits) (hb2 : bits ≤ 31) (hst : 1 ≤ stride)
    (hrange : max = min ∧ (∀ x ∈ xs, ∀ y ∈ xs, x.toNat - y.toNat + 3 ≤ 2 ^ bits) ∨
      max ≠ min ∧ max.toNat - min.toNat + 3 ≤ 2 ^ bits ∧ ∀ x ∈ xs, min.toNat ≤ x.toNat ∧ x.toNat ≤ max.toNat)
    (hend : ∀ l a b c, xs = l ++ [a, b, c] → c = b ∨ b ≠ a)
    (hroom : off + xs.length * bits < 32 * dst.length)
    (hout : ∀ j, j < xs.length → j * stride < out.length) :
    ∃ d hdr k, pack src xs.length stride max min bits off dst = some (d, hdr, k) ∧ d.length = dst.length ∧
      (memBits d).take off = (memBits dst).take off ∧
      ∃ out', unpack u junk d hdr stride off out = some (out', k) ∧ Strided out' stride xs ∧
        out'.length = out.length ∧ ∀ p, (∀ j, j < xs.length → p ≠ j * stride) → out'[p]? = out[p]? := by
  have hg : gather src stride xs.length 0 = some xs := gather_strided xs 0 (by
    intro j hj; rw [Nat.zero_add]; exact hsrc j hj)
  -- bounds
  obtain ⟨mn, mx, hbd, hmm, hall⟩ : ∃ mn mx, bounds xs max min = (mn, mx) ∧ mx.toNat - mn.toNat + 3 ≤ 2 ^ bits ∧
      ∀ x ∈ xs, mn.toNat ≤ x.toNat ∧ x.toNat ≤ mx.toNat := by
    rcases hrange with ⟨h1, h2⟩ | ⟨h1, h2, h3⟩
    · cases xs with
      | nil => exact absurd rfl hn
      | cons x r =>
        refine ⟨(findMinMax false r (x, x)).1, (findMinMax false r (x, x)).2, by simp [bounds, h1], ?_, ?_⟩
        · have := findMinMax_mem false r x x (x :: r) (by simp) (by simp) (by intro y hy; simp [hy])
          exact h2 _ this.2 _ this.1
        · have := findMinMax_spec false r x x (by simp)
          simp only [elemVal] at this
          intro y hy
          rcases List.mem_cons.1 hy with h | h
          · rw [h]; exact ⟨by simpa using this.1, by simpa using this.2.1⟩
          · have := this.2.2 y h
            exact ⟨by simpa using this.1, by simpa using this.2⟩
    · exact ⟨min, max, by simp [bounds, h1], h2, h3⟩
  have hp31 : 2 ^ bits ≤ 2 ^ 31 := Nat.pow_le_pow_right (by decide) hb2
  have hmnmx : mn.toNat ≤ mx.toNat := by
    cases xs with
    | nil => exact absurd rfl hn
    | cons x r => have := hall x (by simp); omega
  have hmr : (mx - mn).toNat = mx.toNat - mn.toNat := by
    have := mx.isLt; have := mn.isLt
    rw [BitVec.toNat_sub]; omega
  obtain ⟨rep, hrep⟩ : ∃ rep : Nat, rep = 2 ^ bits - 1 - (mx - mn).toNat := ⟨_, rfl⟩
  have hrepI : ((2 : Int) ^ bits - 1 - ((mx - mn).toNat : Int)) = (rep : Int) := by
    have : ((2 ^ bits : Nat) : Int) = (2 : Int) ^ bits := by simp
    omega
  have hrep2 : 2 ≤ rep := by omega
  have hsum : (mx - mn).toNat + rep < 2 ^ 31 := by omega
  have hts : ∀ t ∈ xs.map (fun x => x - mn), t ≤ mx - mn := by
    intro t ht
    obtain ⟨x, hx, rfl⟩ := List.mem_map.1 ht
    have h := hall x hx
    have := x.isLt; have := mn.isLt
    rw [BitVec.le_def, hmr, BitVec.toNat_sub]; omega
  generalize htoks : tokens (mx - mn) rep (-1) 1 (xs.map fun x => x - mn) = toks
  have hlt := tokens_lt hrep2 hsum (xs.map fun x => x - mn) (-1) 1 (Or.inl ⟨rfl, rfl⟩) hts
  rw [show ((1 : Nat) : Int) = 1 from rfl, htoks] at hlt
  simp only [List.length_map] at hlt
  have htok : ∀ t ∈ toks, t.toNat < 2 ^ bits := by
    intro t ht; have := hlt.1 t ht; omega
  have hlen : toks.length ≤ xs.length := by omega
  have hlb : toks.length * bits ≤ xs.length * bits := Nat.mul_le_mul_right _ hlen
  -- the writer
  obtain ⟨s, es, wf, hm, hpos, hbits, -, -⟩ := startWriter_spec (dst := dst) (off := off) (by omega)
  obtain ⟨s', e', wf', hb', hp', hl', -, ht'⟩ := stuffAll_tail (toks.map fun t => (bits, t)) s wf
    (by intro t ht
        obtain ⟨x, hx, rfl⟩ := List.mem_map.1 ht
        exact ⟨hb2, htok x hx⟩)
    (by rw [toksLen_map, hpos, hm]; omega)
  rw [toksLen_map, hpos] at hp'
  rw [hm] at hl' ht'
  obtain ⟨d, ed, hdl, hdb⟩ := finish_spec (dst := dst) wf' hl' (by rw [hp']; omega) ht'
  rw [hb', tokBits_toksBits, hbits, hp'] at hdb
  have htl : ((memBits dst).take off).length = off := by rw [List.length_take, memBits_length]; omega
  refine ⟨d, [0xF0000000#32 ||| (1 <<< 20), (BitVec.ofNat 32 bits <<< 26) ||| BitVec.ofNat 32 toks.length, mn, mx - mn],
    toks.length, ?_, hdl, ?_, ?_⟩
  · unfold pack
    rw [if_neg (by
      have : xs.length ≠ 0 := fun h => hn (List.length_eq_zero_iff.1 h)
      omega), hg]
    simp only [hbd, hrepI, htoks, es, e', ed, Option.map_some]
  · rw [hdb, List.append_assoc, List.take_append_of_le_length (by omega), List.take_of_length_le (by omega)]
  · obtain ⟨r, er, wfr, hbr⟩ := startReader_spec (mem := d) (off := off) (by rw [hdl]; omega)
    rw [hdb, List.append_assoc, List.drop_append_of_le_length (by omega), List.drop_of_length_le (by omega),
      List.nil_append] at hbr
    have hw1 : ((BitVec.ofNat 32 bits <<< 26) ||| BitVec.ofNat 32 toks.length).toNat = bits * 2 ^ 26 + toks.length := by
      rw [BitVec.toNat_or, BitVec.toNat_shiftLeft, BitVec.toNat_ofNat, BitVec.toNat_ofNat,
        Nat.mod_eq_of_lt (a := bits) (by omega), Nat.mod_eq_of_lt (a := toks.length) (by omega),
        Nat.shiftLeft_eq, Nat.mod_eq_of_lt (by omega), Nat.mul_comm, ← Nat.two_pow_add_eq_or_of_lt (by omega)]
    have hrst : (memBits dst).drop (off + toks.length * bits) ≠ [] := by
      intro h
      have := congrArg List.length h
      simp at this
      omega
    have hul := unpackLoop_scatter (u := u) (mem := d) (stride := stride) (mr := mx - mn) (mn := mn) (size := bits)
      (by omega) (by omega) toks r junk 0 out _ wfr htok hbr hrst
    have hexp := expand_tokens (mn := mn) hrep2 hsum (xs.map fun x => x - mn) (-1) junk 1 (Or.inl ⟨rfl, rfl⟩)
      (by simpa using hn) hts (by
        rw [pend, if_pos rfl]
        intro l a b c e
        have h1 : xs = (xs.map (fun x => x - mn)).map (fun x => x + mn) := by
          rw [List.map_map]
          conv => lhs; rw [← List.map_id xs]
          apply List.map_congr_left
          intro x _
          exact (BitVec.sub_add_cancel x mn).symm
        rw [e] at h1
        simp only [List.map_append, List.map_cons, List.map_nil] at h1
        rcases hend _ _ _ _ h1 with h | h
        · left
          have := congrArg (fun x => x - mn) h
          simpa only [BitVec.add_sub_cancel] using this
        · right; intro h'; exact h (by rw [h']))
    rw [show ((1 : Nat) : Int) = 1 from rfl, htoks] at hexp
    have hexp2 : expand (mx - mn) mn junk toks = xs := by
      rw [hexp, Nat.sub_self, List.replicate_zero, List.nil_append, List.map_map]
      conv => rhs; rw [← List.map_id xs]
      apply List.map_congr_left
      intro x _
      exact BitVec.sub_add_cancel x mn
    rw [hexp2] at hul
    obtain ⟨out', eo, lo, ho, hp⟩ := scatter_spec hst xs 0 out (by intro j hj; simpa using hout j hj)
    rw [Nat.zero_mul] at eo
    refine ⟨out', ?_, ?_, lo, ?_⟩
    · simp only [unpack]
      rw [hw1]
      have h1 : (bits * 2 ^ 26 + toks.length) % 2 ^ 26 = toks.length := by omega
      have h2 : (bits * 2 ^ 26 + toks.length) / 2 ^ 26 = bits := by omega
      have h3 : mn + (mx - mn) - mn = mx - mn := by rw [BitVec.add_comm mn, BitVec.add_sub_cancel]
      rw [h1, h2, h3, er]
      simp only
      rw [hul, eo]; rfl
    · intro j hj
      have := ho j hj
      rwa [Nat.zero_add] at this
    · intro p hpp
      exact hp p (by intro j hj; rw [Nat.zero_add]; exact hpp j hj)

/-- The hypotheses are met by an array with runs of several lengths, with stride 2, offset 3 and
5-bit tokens. -/
example := C10_rle_roundtrip_partial 1 2 [5, 0, 5, 0, 5, 0, 9, 0, 9, 0, 7, 0, 7] [0xFFFFFFFF, 0] (List.replicate 13 4)
  [5, 5, 5, 9, 9, 7, 7] 0 0 2 5 3
  (by intro j h
      have : j = 0 ∨ j = 1 ∨ j = 2 ∨ j = 3 ∨ j = 4 ∨ j = 5 ∨ j = 6 := by simp at h; omega
      rcases this with h | h | h | h | h | h | h <;> subst h <;> rfl)
  (by simp) (by simp) (by decide) (by decide) (by decide) (Or.inl ⟨rfl, by simp⟩)
  (by intro l a b c h
      have h' := congrArg List.reverse h
      simp at h'
      left; rw [← h'.1, ← h'.2.1])
  (by decide) (by intro j h; simp at h ⊢; omega)

/-- And what is packed there is indeed made of repeat codes: 7 elements become 5 tokens. -/
theorem C10_tokens_example :
    (pack [5, 5, 5, 5, 5, 9, 9] 7 1 0 0 5 0 [0, 0]).map (fun r => r.2.2) = some 4 ∧
    ((pack [5, 5, 5, 5, 5, 9, 9] 7 1 0 0 5 0 [0, 0]).bind fun r => unpack 0 0 r.1 r.2.1 1 0 (List.replicate 7 0))
      = some ([5, 5, 5, 5, 5, 9, 9], 4) := by decide +kernel

/-- The claim fails when the last element is a new value after a repeat: `5 5 5 7` comes back as
`5 7`, the rest of the array being left as it was. -/
theorem C10_lost_run_witness :
    ((pack [5, 5, 5, 7] 4 1 0 0 8 0 [0, 0]).bind fun r => unpack 0 0 r.1 r.2.1 1 0 [99, 99, 99, 99])
      = some ([5, 7, 99, 99], 2) := by decide +kernel

/-- Without room for repeat codes (values 0 to 6 in 3 bits) a repeat is read back as something else. -/
theorem C10_no_room_witness :
    ((pack [0, 6, 6, 6, 6] 5 1 0 0 3 0 [0, 0]).bind fun r => unpack 0 0 r.1 r.2.1 1 0 [99, 99, 99, 99, 99])
      = some ([0, 2, 99, 99, 99], 3) := by decide +kernel

end Verif.Rle
