import Verif.BurpHist

/-! # Searching a block in a BURP report -/

namespace Verif.Burp

/-- The bits selected by `m` are the same. -/
def Agree (m x y : W) : Prop := ∀ i, m.getLsbD i = true → x.getLsbD i = y.getLsbD i

theorem agree_iff {m x y : W} : (x ^^^ y) &&& m = 0 ↔ Agree m x y := by
  constructor
  · intro h i hi
    have := congrArg (fun w : W => w.getLsbD i) h
    simp only [BitVec.getLsbD_and, BitVec.getLsbD_xor, hi, Bool.and_true] at this
    have h0 : (0 : W).getLsbD i = false := by simp
    rw [h0] at this
    cases hx : x.getLsbD i <;> cases hy : y.getLsbD i <;> simp_all
  · intro h
    apply BitVec.eq_of_getLsbD_eq
    intro i hi
    simp only [BitVec.getLsbD_and, BitVec.getLsbD_xor]
    cases hm : m.getLsbD i with
    | false => simp
    | true => rw [h i hm]; simp

theorem agree_or {m1 m2 x y : W} : Agree (m1 ||| m2) x y ↔ Agree m1 x y ∧ Agree m2 x y := by
  unfold Agree
  simp only [BitVec.getLsbD_or, Bool.or_eq_true]
  exact ⟨fun h => ⟨fun i hi => h i (Or.inl hi), fun i hi => h i (Or.inr hi)⟩,
    fun h i hi => hi.elim (h.1 i) (h.2 i)⟩

theorem agree_zero {x y : W} : Agree 0 x y := by intro i hi; simp at hi

theorem agree_range {m x y : W} {s k : Nat} (hm : ∀ i, m.getLsbD i = (decide (s ≤ i) && decide (i < s + k))) :
    Agree m x y ↔ x.toNat / 2 ^ s % 2 ^ k = y.toNat / 2 ^ s % 2 ^ k := by
  constructor
  · intro h
    apply Nat.eq_of_testBit_eq
    intro i
    simp only [Nat.testBit_mod_two_pow, Nat.testBit_div_two_pow]
    by_cases hi : i < k
    · have := h (i + s) (by rw [hm]; simp; omega)
      simp only [BitVec.getLsbD] at this
      rw [this]
    · simp [hi]
  · intro h i hi
    rw [hm] at hi
    simp only [Bool.and_eq_true, decide_eq_true_eq] at hi
    have := congrArg (fun z => Nat.testBit z (i - s)) h
    simp only [Nat.testBit_mod_two_pow, Nat.testBit_div_two_pow] at this
    rw [show i - s + s = i by omega] at this
    simp only [show i - s < k by omega, decide_true, Bool.true_and] at this
    exact this

theorem mask_lits : (∀ i, (0x000f#32).getLsbD i = (decide (0 ≤ i) && decide (i < 0 + 4))) ∧
    (∀ i, (0x07f0#32).getLsbD i = (decide (4 ≤ i) && decide (i < 4 + 7))) ∧
    (∀ i, (0x7800#32).getLsbD i = (decide (11 ≤ i) && decide (i < 11 + 4))) := by
  have key : ∀ (m : W) (s k : Nat), s + k ≤ 32 → (∀ i : Fin 32, m.getLsbD i = (decide (s ≤ i.val) && decide (i.val < s + k))) →
      ∀ i, m.getLsbD i = (decide (s ≤ i) && decide (i < s + k)) := by
    intro m s k hsk h i
    by_cases hi : i < 32
    · exact h ⟨i, hi⟩
    · rw [BitVec.getLsbD_of_ge _ _ (by omega)]
      simp; omega
  exact ⟨key _ 0 4 (by decide) (by decide), key _ 4 7 (by decide) (by decide), key _ 11 4 (by decide) (by decide)⟩

theorem wild_iff (btyp : W) (k : Nat) (hk : k < 32) : BitVec.twoPow 32 k &&& btyp ≠ 0 ↔ btyp.toNat.testBit k = true := by
  constructor
  · intro h
    by_contra hz
    apply h
    apply BitVec.eq_of_getLsbD_eq
    intro i hi
    simp only [BitVec.getLsbD_and, BitVec.getLsbD_twoPow]
    by_cases hik : i = k
    · subst hik
      simp only [BitVec.getLsbD]
      simp_all
    · have : ¬ k = i := fun h => hik h.symm
      simp [this]
  · intro h hz
    have := congrArg (fun w : W => w.getLsbD k) hz
    simp only [BitVec.getLsbD_and, BitVec.getLsbD_twoPow] at this
    simp [hk, BitVec.getLsbD, h] at this

/-- Which block types a search for `btyp` accepts. -/
theorem btyp_match (btyp b : W) : (btyp ^^^ b) &&& btypMask btyp = 0 ↔
    btyp = -1 ∨
      ((btyp.toNat.testBit 28 = true ∨ btyp.toNat % 16 = b.toNat % 16) ∧
       (btyp.toNat.testBit 29 = true ∨ btyp.toNat / 16 % 128 = b.toNat / 16 % 128) ∧
       (btyp.toNat.testBit 30 = true ∨ btyp.toNat / 2048 % 16 = b.toNat / 2048 % 16)) := by
  obtain ⟨m1, m2, m3⟩ := mask_lits
  have a1 := @agree_range _ btyp b 0 4 m1
  have a2 := @agree_range _ btyp b 4 7 m2
  have a3 := @agree_range _ btyp b 11 4 m3
  have w1 := wild_iff btyp 28 (by decide)
  have w2 := wild_iff btyp 29 (by decide)
  have w3 := wild_iff btyp 30 (by decide)
  rw [show BitVec.twoPow 32 28 = 0x10000000#32 from rfl] at w1
  rw [show BitVec.twoPow 32 29 = 0x20000000#32 from rfl] at w2
  rw [show BitVec.twoPow 32 30 = 0x40000000#32 from rfl] at w3
  simp only [Nat.reducePow, Nat.div_one] at a1 a2 a3
  unfold btypMask
  by_cases hneg : btyp = -1
  · rw [if_pos hneg]; simp [hneg]
  · rw [if_neg hneg, agree_iff, agree_or, agree_or]
    have g : ∀ (c : Prop) [Decidable c] (m : W) (p : Prop), (Agree m btyp b ↔ p) →
        (Agree (if c then 0#32 else m) btyp b ↔ c ∨ p) := by
      intro c _ m p hp
      by_cases hc : c
      · rw [if_pos hc]; simp only [hc, true_or, iff_true]; exact agree_zero
      · rw [if_neg hc, hp]; simp [hc]
    rw [g _ _ _ a1, g _ _ _ a2, g _ _ _ a3, w1, w2, w3]
    simp only [hneg, false_or, and_assoc]

/-- The loop finds the first block accepted. -/
theorem locLoop_spec {data : List W} {fd mfd btyp mbt : W} {hs : List Hdr}
    (hb : ∀ i h, hs[i]? = some h → blockAt data i = some h) : ∀ (n i : Nat), i + n = hs.length →
    ∃ k, locLoop data fd mfd btyp mbt i n = some k ∧
      ((k = -1 ∧ ∀ j h, i ≤ j → hs[j]? = some h → locMatch fd mfd btyp mbt h = false) ∨
       ∃ j h, i ≤ j ∧ k = (j : Int) + 1 ∧ hs[j]? = some h ∧ locMatch fd mfd btyp mbt h = true ∧
        ∀ j' h', i ≤ j' → j' < j → hs[j']? = some h' → locMatch fd mfd btyp mbt h' = false) := by
  intro n
  induction n with
  | zero =>
    intro i hi
    refine ⟨-1, rfl, Or.inl ⟨rfl, fun j h hj hh => ?_⟩⟩
    obtain ⟨hlt, _⟩ := List.getElem?_eq_some_iff.1 hh
    omega
  | succ n ih =>
    intro i hi
    obtain ⟨h, hh⟩ : ∃ h, hs[i]? = some h := ⟨_, List.getElem?_eq_getElem (by omega)⟩
    unfold locLoop
    rw [hb i h hh]
    simp only
    cases hm : locMatch fd mfd btyp mbt h with
    | true =>
      refine ⟨i + 1, by simp, Or.inr ⟨i, h, Nat.le_refl _, by simp, hh, hm, fun j' _ h1 h2 => by omega⟩⟩
    | false =>
      obtain ⟨k, e, hk⟩ := ih (i + 1) (by omega)
      refine ⟨k, by simpa using e, ?_⟩
      rcases hk with ⟨hk, hall⟩ | ⟨j, h1, hj, hk, hh1, hm1, hall⟩
      · refine Or.inl ⟨hk, fun j h' hj hh' => ?_⟩
        by_cases hji : j = i
        · subst hji; rw [hh] at hh'; cases hh'; exact hm
        · exact hall j h' (by omega) hh'
      · refine Or.inr ⟨j, h1, by omega, hk, hh1, hm1, fun j' h' hj' hlt hh' => ?_⟩
        by_cases hji : j' = i
        · subst hji; rw [hh] at hh'; cases hh'; exact hm
        · exact hall j' h' (by omega) hlt hh'

/-- The family word for a family below 4096. -/
theorem famWord {f d : W} (hd : d.toNat < 64) :
    (((f &&& 0x3f#32) <<< 6) ||| d).toNat = f.toNat % 64 * 64 + d.toNat := by
  have h1 : (f &&& 0x3f#32).toNat = f.toNat % 64 := by
    rw [BitVec.toNat_and]; exact Nat.and_two_pow_sub_one_eq_mod f.toNat 6
  have h2 : ((f &&& 0x3f#32) <<< 6).toNat = (f.toNat % 64) <<< 6 := by
    rw [BitVec.toNat_shiftLeft, h1, Nat.mod_eq_of_lt]
    rw [Nat.shiftLeft_eq]; omega
  rw [BitVec.toNat_or, h2, ← Nat.shiftLeft_add_eq_or_of_lt (by omega), Nat.shiftLeft_eq]

theorem low6 (x : W) : (x &&& 0x3f#32).toNat = x.toNat % 64 := by
  rw [BitVec.toNat_and]; exact Nat.and_two_pow_sub_one_eq_mod x.toNat 6

/-- The family a search asks for. -/
theorem locFam_spec {bfam bdesc : W} (h1 : bfam = -1 → bdesc = 0 ∨ bdesc = -1)
    (h2 : bfam ≠ -1 → bfam.toNat < 4096 ∧ (bdesc = 0 ∨ bdesc = -1 ∨
      (bdesc.toNat < 64 ∧ (bfam.toNat / 64 = 0 ∨ bfam.toNat / 64 = bdesc.toNat)))) :
    ∃ fd, locFam bfam bdesc = some fd ∧
      ∀ q, q < 4096 → (((fd ^^^ BitVec.ofNat 32 q) &&& (if fd = -1 then 0 else -1) = 0) ↔
        bfam = -1 ∨ q % 64 * 64 + q / 64 % 64 =
          (if bdesc = 0 ∨ bdesc = -1 then bfam.toNat else bfam.toNat % 64 + 64 * bdesc.toNat)) := by
  unfold locFam
  by_cases hf : bfam = -1
  · rw [if_pos hf, if_pos (h1 hf)]
    refine ⟨-1, rfl, fun q _ => ?_⟩
    simp [hf]
  · obtain ⟨hlt, hd⟩ := h2 hf
    rw [if_neg hf]
    have hsh : ((bfam >>> 6) &&& 0x3f#32).toNat = bfam.toNat / 64 := by
      rw [low6, BitVec.toNat_ushiftRight, Nat.shiftRight_eq_div_pow]; omega
    -- the word, its descriptor part `e`
    have fin : ∀ (e : W), e.toNat < 64 → ∀ q, q < 4096 →
        ((((((bfam &&& 0x3f#32) <<< 6) ||| e) ^^^ BitVec.ofNat 32 q) &&&
          (if (((bfam &&& 0x3f#32) <<< 6) ||| e) = -1 then 0 else -1) = 0) ↔
          bfam = -1 ∨ q % 64 * 64 + q / 64 % 64 = bfam.toNat % 64 + 64 * e.toNat) := by
      intro e he q hq
      have hw := famWord (f := bfam) he
      generalize hW : (((bfam &&& 0x3f#32) <<< 6) ||| e) = fd at *
      have hne : fd ≠ -1 := by
        intro hz; rw [hz] at hw
        have : ((-1 : W)).toNat = 4294967295 := by decide
        omega
      rw [if_neg hne]
      have hall : ∀ z : W, z &&& -1 = z := by
        intro z; rw [show (-1 : W) = BitVec.allOnes 32 by decide, BitVec.and_allOnes]
      rw [hall]
      have hx : fd ^^^ BitVec.ofNat 32 q = 0 ↔ fd.toNat = q := by
        constructor
        · intro h
          have : fd = BitVec.ofNat 32 q := by
            have := congrArg (· ^^^ BitVec.ofNat 32 q) h
            simpa [BitVec.xor_assoc] using this
          rw [this, BitVec.toNat_ofNat]; omega
        · intro h
          have : fd = BitVec.ofNat 32 q := by
            apply BitVec.eq_of_toNat_eq; rw [BitVec.toNat_ofNat]; omega
          rw [this]; simp
      rw [hx, hw]
      simp only [hf, false_or]
      have hm := Nat.mod_lt bfam.toNat (show 0 < 64 by decide)
      generalize bfam.toNat % 64 = m at *
      constructor
      · intro h; omega
      · intro h; omega
    by_cases hz : bdesc ≠ 0 ∧ bdesc ≠ -1
    · obtain ⟨hb, hbf⟩ : bdesc.toNat < 64 ∧ (bfam.toNat / 64 = 0 ∨ bfam.toNat / 64 = bdesc.toNat) := by
        rcases hd with h | h | h
        · exact absurd h hz.1
        · exact absurd h hz.2
        · exact h
      rw [if_pos hz, if_neg]
      · refine ⟨_, rfl, fun q hq => ?_⟩
        have := fin (bdesc &&& 0x3f#32) (by rw [low6]; omega) q hq
        rw [low6, Nat.mod_eq_of_lt hb] at this
        rw [if_neg (show ¬ (bdesc = 0 ∨ bdesc = -1) by rintro (h | h); exact hz.1 h; exact hz.2 h)]
        exact this
      · rintro ⟨g1, g2⟩
        rcases hbf with h | h
        · apply g1; apply BitVec.eq_of_toNat_eq; rw [hsh, h]; rfl
        · apply g2; apply BitVec.eq_of_toNat_eq; rw [hsh, h]
    · rw [if_neg hz]
      refine ⟨_, rfl, fun q hq => ?_⟩
      have := fin ((bfam >>> 6) &&& 0x3f#32) (by rw [hsh]; omega) q hq
      rw [hsh] at this
      rw [if_pos (show bdesc = 0 ∨ bdesc = -1 by
        by_cases g : bdesc = 0
        · exact Or.inl g
        · right; by_contra g'; exact hz ⟨g, g'⟩)]
      rw [show bfam.toNat % 64 + 64 * (bfam.toNat / 64) = bfam.toNat by omega] at this
      exact this

end Verif.Burp
