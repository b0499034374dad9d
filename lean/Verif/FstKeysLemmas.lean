import Verif.FstKeys

/-! Lemmas on directory entries. -/

namespace Verif.FstKeys
theorem ext_lo {n m : Nat} (a : BitVec n) (b : BitVec m) : (a ++ b).extractLsb' 0 m = b := by
  apply BitVec.eq_of_getLsbD_eq; intro i hi
  simp only [BitVec.getLsbD_extractLsb', BitVec.getLsbD_append]; simp [hi]

theorem ext_hi {n m : Nat} (a : BitVec n) (b : BitVec m) : (a ++ b).extractLsb' m n = a := by
  apply BitVec.eq_of_getLsbD_eq; intro i hi
  simp only [BitVec.getLsbD_extractLsb', BitVec.getLsbD_append]; simp [hi]

theorem ext_mid {n m k : Nat} (a : BitVec n) (b : BitVec m) (c : BitVec k) :
    (a ++ b ++ c).extractLsb' k m = b := by
  apply BitVec.eq_of_getLsbD_eq; intro i hi
  simp only [BitVec.getLsbD_extractLsb', BitVec.getLsbD_append]; simp [hi]

theorem ext_top {n m k : Nat} (a : BitVec n) (b : BitVec m) (c : BitVec k) :
    (a ++ b ++ c).extractLsb' (m + k) n = a := by
  apply BitVec.eq_of_getLsbD_eq; intro i hi
  simp only [BitVec.getLsbD_extractLsb', BitVec.getLsbD_append]
  simp [hi]
  grind

theorem append_eq_zero {n m : Nat} (a : BitVec n) (b : BitVec m) :
    a ++ b = 0#(n + m) ↔ a = 0#n ∧ b = 0#m := by
  constructor
  · intro h
    have h1 := congrArg (fun x => x.extractLsb' 0 m) h
    have h2 := congrArg (fun x => x.extractLsb' m n) h
    simp only [ext_lo, ext_hi] at h1 h2
    exact ⟨by rw [h2]; simp, by rw [h1]; simp⟩
  · rintro ⟨rfl, rfl⟩; simp

theorem ofWords_words (k : Keys) : ofWords k.words = k := by
  cases k
  simp only [ofWords, Keys.words, List.getD_cons_zero, List.getD_cons_succ, Keys.mk.injEq]
  exact ⟨ext_top _ _ _, ext_mid _ _ _, ext_lo _ _, trivial,
    ext_hi _ _, ext_lo _ _,
    ext_hi _ _, ext_lo _ _,
    ext_hi _ _, ext_lo _ _,
    ext_hi _ _, ext_lo _ _,
    ext_hi _ _, ext_lo _ _,
    ext_hi _ _, ext_lo _ _,
    ext_hi _ _, ext_lo _ _,
    ext_hi _ _, ext_lo _ _,
    ext_hi _ _, ext_lo _ _,
    ext_hi _ _, ext_lo _ _,
    ext_top _ _ _, ext_mid _ _ _, ext_lo _ _,
    ext_hi _ _, ext_lo _ _,
    ext_hi _ _, ext_lo _ _,
    ext_hi _ _, ext_lo _ _,
    ext_hi _ _, ext_lo _ _,
    trivial⟩

/-- what one masked word comparison says of its two fields -/
theorem match2 {n m : Nat} (a a' x : BitVec n) (b b' y : BitVec m) :
    ((a ++ b) ^^^ (a' ++ b')) &&& (x ++ y) = 0#(n + m) ↔
      (a ^^^ a') &&& x = 0#n ∧ (b ^^^ b') &&& y = 0#m := by
  rw [BitVec.xor_append, BitVec.and_append, append_eq_zero]

theorem and_allOnes_zero {n : Nat} (a b : BitVec n) :
    (a ^^^ b) &&& BitVec.allOnes n = 0#n ↔ a = b := by
  simp

/-- a mask that is zero for a wildcard and all ones otherwise -/
theorem cond_mask {n : Nat} (p : Prop) [Decidable p] (a b : BitVec n) :
    (a ^^^ b) &&& (if p then 0 else BitVec.allOnes n) = 0#n ↔ p ∨ a = b := by
  split
  · simp [*]
  · simp [*]

theorem date_mask (p : Prop) [Decidable p] (a b : BitVec 32) :
    (a ^^^ b) &&& (if p then 0 else BitVec.allOnes 32 &&& ~~~7#32) = 0#32 ↔
      p ∨ a >>> 3 = b >>> 3 := by
  split
  · simp [*]
  · rename_i hp
    simp only [hp, false_or, BitVec.allOnes_and]
    have h7 : ∀ i, i < 32 → ((~~~7#32).getLsbD i = decide (3 ≤ i)) := by decide
    constructor
    · intro h
      apply BitVec.eq_of_getLsbD_eq; intro i hi
      have := congrArg (fun x => x.getLsbD (3 + i)) h
      simp only [BitVec.getLsbD_and, BitVec.getLsbD_xor, BitVec.getLsbD_zero] at this
      simp only [BitVec.getLsbD_ushiftRight]
      by_cases h3 : 3 + i < 32
      · rw [h7 _ h3] at this
        simp at this; exact this
      · rw [BitVec.getLsbD_of_ge _ _ (by omega), BitVec.getLsbD_of_ge _ _ (by omega)]
    · intro h
      apply BitVec.eq_of_getLsbD_eq; intro i hi
      simp only [BitVec.getLsbD_and, BitVec.getLsbD_xor, BitVec.getLsbD_zero]
      rw [h7 i hi]
      by_cases h3 : 3 ≤ i
      · have := congrArg (fun x => x.getLsbD (i - 3)) h
        simp only [BitVec.getLsbD_ushiftRight] at this
        rw [show 3 + (i - 3) = i by omega] at this
        simp [this]
      · simp [h3]

theorem wordsMatch_iff (k : Keys) (q : Query) :
    entryMatch srchInit q k.words = true ↔
      (q.datev = BitVec.ofInt 32 (-1) ∨ k.dateStamp >>> 3 = octDate q.datev >>> 3) ∧
      (q.ip1 = BitVec.ofInt 32 (-1) ∨ k.ip1 = q.ip1.setWidth 28) ∧
      (q.ip2 = BitVec.ofInt 32 (-1) ∨ k.ip2 = q.ip2.setWidth 28) ∧
      (q.ip3 = BitVec.ofInt 32 (-1) ∨ k.ip3 = q.ip3.setWidth 28) ∧
      ((target q).nomvar = 0 ∨ k.nomvar = (target q).nomvar) ∧
      ((target q).typvar = 0 ∨ k.typvar = (target q).typvar) ∧
      (((target q).etik15 = 0 ∧ (target q).etik6a = 0) ∨
        (k.etik15 = (target q).etik15 ∧ k.etik6a = (target q).etik6a ∧
          k.etikbc = (target q).etikbc)) := by
  have ones : ∀ x : BitVec 32, x &&& BitVec.ofInt 32 (-1) = x := by
    intro x
    rw [show BitVec.ofInt 32 (-1) = BitVec.allOnes 32 from by decide]; exact BitVec.and_allOnes
  unfold entryMatch buildPrim Keys.words srchInit
  simp only [List.drop_succ_cons, List.drop_zero, wordsMatch, List.replicate,
    List.zipWith_cons_cons, List.zipWith_nil_right, ones, Bool.and_eq_true, decide_eq_true_eq]
  rw [match2, match2, match2, match2, match2, match2, match2, match2, match2, match2, match2,
    match2, match2, match2, match2, match2]
  rw [show (mask q).deet = 0#24 from by simp [mask, Keys.zero, ofWords]]
  rw [show (mask q).nbits = 0#8 from by simp [mask, Keys.zero, ofWords]]
  rw [show (mask q).ni = 0#24 from by simp [mask, Keys.zero, ofWords]]
  rw [show (mask q).gtyp = 0#8 from by simp [mask, Keys.zero, ofWords]]
  rw [show (mask q).nj = 0#24 from by simp [mask, Keys.zero, ofWords]]
  rw [show (mask q).datyp = 0#8 from by simp [mask, Keys.zero, ofWords]]
  rw [show (mask q).nk = 0#20 from by simp [mask, Keys.zero, ofWords]]
  rw [show (mask q).ubc = 0#12 from by simp [mask, Keys.zero, ofWords]]
  rw [show (mask q).npas = 0#26 from by simp [mask, Keys.zero, ofWords]]
  rw [show (mask q).pad7 = 0#6 from by simp [mask, Keys.zero, ofWords]]
  rw [show (mask q).ig4 = 0#24 from by simp [mask, Keys.zero, ofWords]]
  rw [show (mask q).ig2a = 0#8 from by simp [mask, Keys.zero, ofWords]]
  rw [show (mask q).ig1 = 0#24 from by simp [mask, Keys.zero, ofWords]]
  rw [show (mask q).ig2b = 0#8 from by simp [mask, Keys.zero, ofWords]]
  rw [show (mask q).ig3 = 0#24 from by simp [mask, Keys.zero, ofWords]]
  rw [show (mask q).ig2c = 0#8 from by simp [mask, Keys.zero, ofWords]]
  rw [show (mask q).pad1 = 0#2 from by simp [mask, Keys.zero, ofWords]]
  rw [show (mask q).pad2 = 0#2 from by simp [mask, Keys.zero, ofWords]]
  rw [show (mask q).pad3 = 0#8 from by simp [mask, Keys.zero, ofWords]]
  rw [show (mask q).pad4 = 0#8 from by simp [mask, Keys.zero, ofWords]]
  rw [show (mask q).levtyp = 0#4 from by simp [mask, Keys.zero, ofWords]]
  rw [show (mask q).pad5 = 0#4 from by simp [mask, Keys.zero, ofWords]]
  rw [show (mask q).pad6 = 0#4 from by simp [mask, Keys.zero, ofWords]]
  rw [show (target q).dateStamp = octDate q.datev from rfl,
    show (target q).ip1 = q.ip1.setWidth 28 from rfl,
    show (target q).ip2 = q.ip2.setWidth 28 from rfl,
    show (target q).ip3 = q.ip3.setWidth 28 from rfl]
  unfold mask
  simp only [BitVec.and_zero, cond_mask, date_mask, true_and, and_true]
  constructor
  · rintro ⟨h15, h6, ⟨hbc, ht⟩, hn, h1, h2, h3, hd⟩
    refine ⟨hd, h1, h2, h3, hn, ht, ?_⟩
    by_cases hb : (target q).etik15 = 0 ∧ (target q).etik6a = 0
    · exact Or.inl hb
    · exact Or.inr ⟨h15.resolve_left hb, h6.resolve_left hb, hbc.resolve_left hb⟩
  · rintro ⟨hd, h1, h2, h3, hn, ht, he⟩
    refine ⟨?_, ?_, ⟨?_, ht⟩, hn, h1, h2, h3, hd⟩ <;>
    · rcases he with he | ⟨ha, hb, hc⟩
      · exact Or.inl he
      · exact Or.inr (by assumption)

/-- the six bits of a character, decoded -/
def dec6 (x : BitVec 6) : C := x.setWidth 8 + 32#8

theorem dec6_inj {x y : BitVec 6} (h : dec6 x = dec6 y) : x = y := by
  have key : ∀ i j : Fin (2 ^ 6), dec6 (BitVec.ofFin i) = dec6 (BitVec.ofFin j) → i = j := by
    decide +kernel
  have := key x.toFin y.toFin h
  exact BitVec.eq_of_toFin_eq this

/-- the six-bit codes of the `n` characters of a name -/
def code (n : Nat) (s : List C) : List (BitVec 6) :=
  (List.range n).map fun i => ascii6 (ch (padTo n s) i)

theorem ch_padTo (n : Nat) (s : List C) (i : Nat) (hi : i < n) :
    ch (padTo n s) i = s.getD i 32#8 := by
  unfold ch padTo
  simp only [List.getD_eq_getElem?_getD]
  by_cases h : i < s.length
  · rw [List.getElem?_append_left (by simp; omega)]
    simp [hi]
  · rw [List.getElem?_append_right (by simp; omega)]
    rw [List.getElem?_eq_none (by omega : s.length ≤ i)]
    simp only [List.length_take, List.getElem?_replicate]
    split <;> rfl

theorem enc5_bits (a b c d e : BitVec 6) :
    let x : BitVec 30 := (a.setWidth 30 <<< 24) ||| (b.setWidth 30 <<< 18)
      ||| (c.setWidth 30 <<< 12) ||| (d.setWidth 30 <<< 6) ||| e.setWidth 30
    (x >>> 24).setWidth 6 = a ∧ (x >>> 18).setWidth 6 = b ∧ (x >>> 12).setWidth 6 = c ∧
    (x >>> 6).setWidth 6 = d ∧ (x >>> 0).setWidth 6 = e := by
  intro x
  refine ⟨?_, ?_, ?_, ?_, ?_⟩ <;>
  · apply BitVec.eq_of_getLsbD_eq; intro i hi
    simp only [x, BitVec.getLsbD_setWidth, BitVec.getLsbD_ushiftRight, BitVec.getLsbD_or,
      BitVec.getLsbD_shiftLeft]
    have : i = 0 ∨ i = 1 ∨ i = 2 ∨ i = 3 ∨ i = 4 ∨ i = 5 := by omega
    rcases this with rfl | rfl | rfl | rfl | rfl | rfl <;> simp

theorem enc4_bits (b c d e : BitVec 6) :
    let x : BitVec 24 := (b.setWidth 24 <<< 18)
      ||| (c.setWidth 24 <<< 12) ||| (d.setWidth 24 <<< 6) ||| e.setWidth 24
    (x >>> 18).setWidth 6 = b ∧ (x >>> 12).setWidth 6 = c ∧
    (x >>> 6).setWidth 6 = d ∧ (x >>> 0).setWidth 6 = e := by
  intro x
  refine ⟨?_, ?_, ?_, ?_⟩ <;>
  · apply BitVec.eq_of_getLsbD_eq; intro i hi
    simp only [x, BitVec.getLsbD_setWidth, BitVec.getLsbD_ushiftRight, BitVec.getLsbD_or,
      BitVec.getLsbD_shiftLeft]
    have : i = 0 ∨ i = 1 ∨ i = 2 ∨ i = 3 ∨ i = 4 ∨ i = 5 := by omega
    rcases this with rfl | rfl | rfl | rfl | rfl | rfl <;> simp

theorem enc2_bits (d e : BitVec 6) :
    let x : BitVec 12 := (d.setWidth 12 <<< 6) ||| e.setWidth 12
    (x >>> 6).setWidth 6 = d ∧ (x >>> 0).setWidth 6 = e := by
  intro x
  refine ⟨?_, ?_⟩ <;>
  · apply BitVec.eq_of_getLsbD_eq; intro i hi
    simp only [x, BitVec.getLsbD_setWidth, BitVec.getLsbD_ushiftRight, BitVec.getLsbD_or,
      BitVec.getLsbD_shiftLeft]
    have : i = 0 ∨ i = 1 ∨ i = 2 ∨ i = 3 ∨ i = 4 ∨ i = 5 := by omega
    rcases this with rfl | rfl | rfl | rfl | rfl | rfl <;> simp

theorem enc5_inj (s t : List C) (i : Nat) :
    enc5 s i = enc5 t i ↔ ascii6 (ch s i) = ascii6 (ch t i) ∧
      ascii6 (ch s (i+1)) = ascii6 (ch t (i+1)) ∧ ascii6 (ch s (i+2)) = ascii6 (ch t (i+2)) ∧
      ascii6 (ch s (i+3)) = ascii6 (ch t (i+3)) ∧ ascii6 (ch s (i+4)) = ascii6 (ch t (i+4)) := by
  constructor
  · intro h
    obtain ⟨a, b, c, d, e⟩ := enc5_bits (ascii6 (ch s i)) (ascii6 (ch s (i+1)))
      (ascii6 (ch s (i+2))) (ascii6 (ch s (i+3))) (ascii6 (ch s (i+4)))
    obtain ⟨a', b', c', d', e'⟩ := enc5_bits (ascii6 (ch t i)) (ascii6 (ch t (i+1)))
      (ascii6 (ch t (i+2))) (ascii6 (ch t (i+3))) (ascii6 (ch t (i+4)))
    unfold enc5 at h
    rw [h] at a b c d e
    exact ⟨a.symm.trans a', b.symm.trans b', c.symm.trans c', d.symm.trans d', e.symm.trans e'⟩
  · rintro ⟨h1, h2, h3, h4, h5⟩
    unfold enc5; rw [h1, h2, h3, h4, h5]

theorem enc4_inj (s t : List C) (i : Nat) :
    enc4 s i = enc4 t i ↔ ascii6 (ch s i) = ascii6 (ch t i) ∧
      ascii6 (ch s (i+1)) = ascii6 (ch t (i+1)) ∧ ascii6 (ch s (i+2)) = ascii6 (ch t (i+2)) ∧
      ascii6 (ch s (i+3)) = ascii6 (ch t (i+3)) := by
  constructor
  · intro h
    obtain ⟨a, b, c, d⟩ := enc4_bits (ascii6 (ch s i)) (ascii6 (ch s (i+1)))
      (ascii6 (ch s (i+2))) (ascii6 (ch s (i+3)))
    obtain ⟨a', b', c', d'⟩ := enc4_bits (ascii6 (ch t i)) (ascii6 (ch t (i+1)))
      (ascii6 (ch t (i+2))) (ascii6 (ch t (i+3)))
    unfold enc4 at h
    rw [h] at a b c d
    exact ⟨a.symm.trans a', b.symm.trans b', c.symm.trans c', d.symm.trans d'⟩
  · rintro ⟨h1, h2, h3, h4⟩
    unfold enc4; rw [h1, h2, h3, h4]

theorem enc2_inj (s t : List C) (i : Nat) :
    enc2 s i = enc2 t i ↔ ascii6 (ch s i) = ascii6 (ch t i) ∧
      ascii6 (ch s (i+1)) = ascii6 (ch t (i+1)) := by
  constructor
  · intro h
    obtain ⟨a, b⟩ := enc2_bits (ascii6 (ch s i)) (ascii6 (ch s (i+1)))
    obtain ⟨a', b'⟩ := enc2_bits (ascii6 (ch t i)) (ascii6 (ch t (i+1)))
    unfold enc2 at h
    rw [h] at a b
    exact ⟨a.symm.trans a', b.symm.trans b'⟩
  · rintro ⟨h1, h2⟩
    unfold enc2; rw [h1, h2]

end Verif.FstKeys
