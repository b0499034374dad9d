import Verif.Armn32Par

/-! # Signs, exponents and mantissas put together: helper lemmas for `Armn32` -/

namespace Verif.Armn32

open Verif

/-! ## Bits of a float -/

theorem orAll_bit (fld : Nat → W) (n k b : Nat) (hk : k < n) (h : (fld k).getLsbD b = true) :
    (orAll fld n).getLsbD b = true := by
  have key : ∀ (l : List Nat) (a : W), (a.getLsbD b = true ∨ k ∈ l) →
      (l.foldl (fun a k => a ||| fld k) a).getLsbD b = true := by
    intro l
    induction l with
    | nil => intro a ha; simpa using ha
    | cons c cs ih =>
      intro a ha
      refine ih _ ?_
      rcases ha with ha | ha
      · left; simp [ha]
      · rcases List.mem_cons.1 ha with rfl | ha
        · left; simp [h]
        · exact Or.inr ha
  exact key _ _ (Or.inr (List.mem_range.2 hk))

theorem andAll_bit (fld : Nat → W) (n k b : Nat) (hk : k < n) (h : (fld k).getLsbD b = false) :
    (andAll fld n).getLsbD b = false := by
  have key : ∀ (l : List Nat) (a : W), (a.getLsbD b = false ∨ k ∈ l) →
      (l.foldl (fun a k => a &&& fld k) a).getLsbD b = false := by
    intro l
    induction l with
    | nil => intro a ha; simpa using ha
    | cons c cs ih =>
      intro a ha
      refine ih _ ?_
      rcases ha with ha | ha
      · left; simp [ha]
      · rcases List.mem_cons.1 ha with rfl | ha
        · left; simp [h]
        · exact Or.inr ha
  exact key _ _ (Or.inr (List.mem_range.2 hk))

theorem shr31_eq (w : W) : w >>> 31 = if w.getLsbD 31 then 1 else 0 := by
  apply BitVec.eq_of_getLsbD_eq
  intro i hi
  rw [BitVec.getLsbD_ushiftRight]
  by_cases h0 : i = 0
  · subst h0
    cases h : w.getLsbD 31 <;> simp [h]
  · rw [BitVec.getLsbD_of_ge _ _ (by omega)]
    split
    · have : (1 : W) = 1#32 := rfl
      rw [this, BitVec.getLsbD_one]; simp [h0]
    · simp

theorem same_sign {fld : Nat → W} {n : Nat} (h : orAll fld n >>> 31 = andAll fld n >>> 31) (k : Nat) (hk : k < n) :
    fld k >>> 31 = orAll fld n >>> 31 := by
  rw [shr31_eq, shr31_eq (andAll fld n)] at h
  rw [shr31_eq, shr31_eq (orAll fld n)]
  have h1 := orAll_bit fld n k 31 hk
  have h2 := andAll_bit fld n k 31 hk
  cases a : (fld k).getLsbD 31 with
  | true => rw [h1 a]
  | false =>
    rw [h2 a] at h
    cases b : (orAll fld n).getLsbD 31 with
    | true => rw [b] at h; simp at h
    | false => rfl

theorem signOf_le (w : W) : (signOf w).toNat ≤ 1 := by
  unfold signOf
  rw [shr31_eq]
  split <;> decide

theorem signOf_shift (w : W) : (signOf w).setWidth 32 <<< 31 = (w >>> 31) <<< 31 := by
  unfold signOf
  rw [shr31_eq]
  split <;> decide

theorem expOf_lt (w : W) : (expOf w).toNat < 256 := by
  unfold expOf
  rw [BitVec.toNat_and]
  exact Nat.lt_of_le_of_lt Nat.and_le_right (by decide)

theorem trunc8_toNat (w : W) : (trunc8 w).toNat = w.toNat % 256 := by
  simp [trunc8]
  omega

theorem trunc8_id {w : W} (h : w.toNat < 256) : trunc8 w = w := by
  apply BitVec.eq_of_toNat_eq
  rw [trunc8_toNat]; omega

theorem manOf_lt {nb : Nat} (h : nb ≤ 23) (w : W) : (manOf nb w).toNat < 2 ^ nb := by
  have h1 : (w &&& 0x7fffff#32).toNat < 2 ^ 23 := by
    rw [BitVec.toNat_and]
    exact Nat.lt_of_le_of_lt Nat.and_le_right (by decide)
  have e : 23 = nb + (23 - nb) := by omega
  rw [manOf, BitVec.toNat_ushiftRight, Nat.shiftRight_eq_div_pow, Nat.div_lt_iff_lt_mul (Nat.two_pow_pos _), ← Nat.pow_add, ← e]
  exact h1

theorem mask23 (i : Nat) : (0x7fffff#32).getLsbD i = decide (i < 23) := by
  have : (0x7fffff#32 : W) = BitVec.ofNat 32 (2 ^ 23 - 1) := rfl
  rw [this, BitVec.getLsbD_ofNat, Nat.testBit_two_pow_sub_one]
  by_cases h : i < 23
  · simp [h]; omega
  · simp [h]

theorem mask8 (i : Nat) : (0xff#32).getLsbD i = decide (i < 8) := by
  have : (0xff#32 : W) = BitVec.ofNat 32 (2 ^ 8 - 1) := rfl
  rw [this, BitVec.getLsbD_ofNat, Nat.testBit_two_pow_sub_one]
  by_cases h : i < 8
  · simp [h]; omega
  · simp [h]

/-- The parts give back the float without its last bits. -/
theorem join_eq {nb : Nat} (h : nb ≤ 23) (w : W) :
    (w >>> 31) <<< 31 ||| expOf w <<< 23 ||| manOf nb w <<< (23 - nb) = (w >>> (23 - nb)) <<< (23 - nb) := by
  apply BitVec.eq_of_getLsbD_eq
  intro i hi
  simp only [BitVec.getLsbD_or, BitVec.getLsbD_shiftLeft, BitVec.getLsbD_ushiftRight, expOf, manOf, BitVec.getLsbD_and,
    mask23, mask8, hi, decide_true, Bool.true_and]
  by_cases c1 : i < 23 - nb
  · have a1 : i < 31 := by omega
    have a2 : i < 23 := by omega
    simp [c1, a1, a2]
  · by_cases c2 : i < 23
    · have a1 : i < 31 := by omega
      have e : 23 - nb + (i - (23 - nb)) = i := by omega
      simp [c1, a1, c2, e]
    · by_cases c3 : i < 31
      · have e : 23 - nb + (i - (23 - nb)) = i := by omega
        have e2 : 23 + (i - 23) = i := by omega
        have a3 : i - 23 < 8 := by omega
        simp [c1, c2, c3, e, e2, a3]
      · have e : 23 - nb + (i - (23 - nb)) = i := by omega
        have e2 : 31 + (i - 31) = i := by omega
        have a3 : ¬ i - 23 < 8 := by omega
        simp [c1, c2, c3, e, e2, a3]

/-! ## Range of the exponents -/

theorem fold_min {α : Type} (v : α → Nat) (l : List α) (m : Nat) :
    l.foldl (fun m k => if v k < m then v k else m) m ≤ m ∧
    (∀ k ∈ l, l.foldl (fun m k => if v k < m then v k else m) m ≤ v k) := by
  induction l generalizing m with
  | nil => simp
  | cons c cs ih =>
    have h := ih (if v c < m then v c else m)
    simp only [List.foldl_cons]
    have hm : (if v c < m then v c else m) ≤ m ∧ (if v c < m then v c else m) ≤ v c := by split <;> omega
    refine ⟨by omega, fun k hk => ?_⟩
    rcases List.mem_cons.1 hk with rfl | hk
    · omega
    · exact h.2 k hk

theorem fold_max {α : Type} (v : α → Nat) (l : List α) (m B : Nat) (hm : m < B) (hB : ∀ k ∈ l, v k < B) :
    m ≤ l.foldl (fun m k => if v k > m then v k else m) m ∧
    l.foldl (fun m k => if v k > m then v k else m) m < B ∧
    (∀ k ∈ l, v k ≤ l.foldl (fun m k => if v k > m then v k else m) m) := by
  induction l generalizing m with
  | nil => simp [hm]
  | cons c cs ih =>
    have hc := hB c (by simp)
    have h2 : m ≤ (if v c > m then v c else m) ∧ v c ≤ (if v c > m then v c else m) := by split <;> omega
    have h := ih (if v c > m then v c else m) (by split <;> omega) (fun k hk => hB k (by simp [hk]))
    simp only [List.foldl_cons]
    refine ⟨by omega, h.2.1, fun k hk => ?_⟩
    rcases List.mem_cons.1 hk with rfl | hk
    · omega
    · exact h.2.2 k hk

theorem expMin_le (fld : Nat → W) {n k : Nat} (hk : k < n) : expMin fld n ≤ (expOf (fld k)).toNat :=
  (fold_min (fun k => (expOf (fld k)).toNat) (List.range n) _).2 k (List.mem_range.2 hk)

theorem le_expMax (fld : Nat → W) {n k : Nat} (hk : k < n) : (expOf (fld k)).toNat ≤ expMax fld n :=
  (fold_max (fun k => (expOf (fld k)).toNat) (List.range n) _ 256 (expOf_lt _) (fun k _ => expOf_lt _)).2.2 k
    (List.mem_range.2 hk)

theorem expMin_lt (fld : Nat → W) (n : Nat) : expMin fld n < 256 :=
  Nat.lt_of_le_of_lt (fold_min (fun k => (expOf (fld k)).toNat) (List.range n) _).1 (expOf_lt _)

theorem expMax_lt (fld : Nat → W) (n : Nat) : expMax fld n < 256 :=
  (fold_max (fun k => (expOf (fld k)).toNat) (List.range n) _ 256 (expOf_lt _) (fun k _ => expOf_lt _)).2.1

theorem expBits_le (fld : Nat → W) (n : Nat) : expBits fld n ≤ 8 := by
  have := expMax_lt fld n
  exact bitLen_le (by omega)

theorem expRel_toNat (fld : Nat → W) {n k : Nat} (hk : k < n) :
    (expRel fld n k).toNat = (expOf (fld k)).toNat - expMin fld n := by
  have h1 := expMin_le fld hk
  have h2 := expOf_lt (fld k)
  rw [expRel, trunc8_toNat, BitVec.toNat_sub, BitVec.toNat_ofNat]
  omega

theorem expRel_lt (fld : Nat → W) {n k : Nat} (hk : k < n) : (expRel fld n k).toNat < 2 ^ expBits fld n := by
  have h1 := le_expMax fld hk
  have := lt_two_pow_bitLen (expMax fld n - expMin fld n)
  rw [expRel_toNat fld hk]
  unfold expBits
  omega

theorem expRel_back (fld : Nat → W) {n k : Nat} (hk : k < n) :
    trunc8 (expRel fld n k + BitVec.ofNat 32 (expMin fld n)) = expOf (fld k) := by
  have h1 := expMin_le fld hk
  have h2 := expOf_lt (fld k)
  apply BitVec.eq_of_toNat_eq
  rw [trunc8_toNat, BitVec.toNat_add, expRel_toNat fld hk, BitVec.toNat_ofNat]
  omega

theorem exp_const {fld : Nat → W} {n k : Nat} (h : expBits fld n = 0) (hk : k < n) :
    trunc8 (BitVec.ofNat 32 (expMin fld n)) = expOf (fld k) := by
  have h0 := bitLen_zero h
  have h1 := expMin_le fld hk
  have h3 := le_expMax fld hk
  have h2 := expOf_lt (fld k)
  apply BitVec.eq_of_toNat_eq
  rw [trunc8_toNat, BitVec.toNat_ofNat]
  omega

/-! ## The two words in front -/

theorem info_toNat {e n : Nat} {c : W} (he : e < 256) (hn : n < 256) (hc : c.toNat < 256) :
    (ieeeInfo e n c).toNat = e * 65536 + (n * 256 + c.toNat) := by
  have h1 : (BitVec.ofNat 32 (e % 256) <<< 16).toNat = e <<< 16 := by
    simp [BitVec.toNat_shiftLeft, Nat.shiftLeft_eq]; omega
  have h2 : (BitVec.ofNat 32 (n % 256) <<< 8).toNat = n <<< 8 := by
    simp [BitVec.toNat_shiftLeft, Nat.shiftLeft_eq]; omega
  rw [ieeeInfo, BitVec.or_assoc, BitVec.toNat_or, BitVec.toNat_or, h1, h2, ← Nat.shiftLeft_add_eq_or_of_lt (by omega : c.toNat < 2 ^ 8),
    ← Nat.shiftLeft_add_eq_or_of_lt (by rw [Nat.shiftLeft_eq]; omega), Nat.shiftLeft_eq, Nat.shiftLeft_eq]

theorem info_and {e n : Nat} {c m : W} (he : e < 256) (hn : n < 256) (hc : c.toNat < 256) (hm : m &&& 255#32 = m) :
    ieeeInfo e n c &&& m = c &&& m := by
  have h : ieeeInfo e n c &&& 255#32 = c &&& 255#32 := by
    apply BitVec.eq_of_toNat_eq
    have p : (255#32).toNat = 2 ^ 8 - 1 := rfl
    rw [BitVec.toNat_and, BitVec.toNat_and, p, Nat.and_two_pow_sub_one_eq_mod, Nat.and_two_pow_sub_one_eq_mod,
      info_toNat he hn hc]
    omega
  rw [← hm, BitVec.and_comm m, ← BitVec.and_assoc, ← BitVec.and_assoc, h]

theorem info_fields {e n : Nat} {c : W} (he : e < 256) (hn : n < 256) (hc : c.toNat < 256) :
    bitField (ieeeInfo e n c) 8 8 = n ∧ (ieeeInfo e n c).toNat >>> 16 = e := by
  rw [bitField, info_toNat he hn hc, Nat.shiftRight_eq_div_pow, Nat.shiftRight_eq_div_pow]
  omega

theorem header32_nbits : ∀ nbits < 24, bitField (header32 nbits) 10 5 = nbits := by decide

/-! ## Parts of the stream -/

variable {fld : Nat → W} {ni nj znbits : Nat}

theorem toWords_eq (n : Nat) : toWords (1 + 4 * n) = n + 1 := by unfold toWords; omega

theorem store_keep {mem m : List W} {p : Nat} {v : W} (h : store mem p v = some m) :
    m.length = mem.length ∧ m[p]? = some v ∧ ∀ j : Nat, j ≠ p → m[j]? = mem[j]? := by
  unfold store at h
  split at h
  · rename_i hp
    cases h
    exact ⟨by simp, by simp [hp], fun j hj => by rw [List.getElem?_set_ne (by omega)]⟩
  · cases h

theorem store_ok {mem : List W} {p : Nat} (v : W) (h : p < mem.length) : ∃ m, store mem p v = some m :=
  ⟨mem.set p v, by simp [store, h]⟩

/-- What the sign part leaves: read from any memory with the same words from the third up to `pos`, the signs come
back. -/
structure SignOK (fld : Nat → W) (npts : Nat) (mem : List W) (sg : SignOut) : Prop where
  len : sg.mem.length = mem.length
  pos2 : 2 ≤ sg.pos
  pos : 32 * sg.pos < 8 * ((npts + 6) / 7) + 160
  code : sg.code = 0 ∨ sg.code = 0x10 ∨ sg.code = 0x20
  back : ∀ (u : W) (disk : List W) (g : Nat → BitVec 8), sg.pos ≤ disk.length →
    (∀ j : Nat, 2 ≤ j → j < sg.pos → disk[j]? = sg.mem[j]?) →
    ∃ g', unSigns u disk npts sg.code g = some (g', sg.pos) ∧
      ∀ k, k < npts → (if sg.code = 0 then 0 else if sg.code = 0x10 then 0x80000000#32 else (g' k).setWidth 32 <<< 31) =
        (fld k >>> 31) <<< 31

theorem signPart_spec {npts : Nat} {mem : List W} (hn : 256 ≤ npts) (hbig : npts < 2 ^ 30)
    (room : 32 * 3 + 8 * ((npts + 6) / 7) + 32 ≤ 32 * mem.length) :
    ∃ sg, signPart fld npts mem = some sg ∧ SignOK fld npts mem sg := by
  unfold signPart
  by_cases hs : orAll fld npts >>> 31 = andAll fld npts >>> 31
  · rw [if_pos hs]
    refine ⟨_, rfl, rfl, Nat.le_refl _, by dsimp only; omega, ?_, ?_⟩
    · dsimp only; split <;> simp
    · intro u disk g _ _
      dsimp only
      have hsame := same_sign hs
      rw [shr31_eq (orAll fld npts)] at hsame ⊢
      by_cases hb : (orAll fld npts).getLsbD 31 = true
      · simp only [hb, if_true] at hsame ⊢
        refine ⟨fun k => if k < npts then 1 else g k, rfl, fun k hk => ?_⟩
        rw [hsame k hk]; decide
      · have hb' : (orAll fld npts).getLsbD 31 = false := by simpa using hb
        simp only [hb', Bool.false_eq_true, if_false] at hsame ⊢
        refine ⟨fun k => if k < npts then 0 else g k, rfl, fun k hk => ?_⟩
        rw [hsame k hk]; rfl
  · rw [if_neg hs]
    have hf : ∀ k, k < npts → (signOf (fld k)).toNat ≤ 1 := fun k _ => signOf_le _
    obtain ⟨m1, n, ts, e, hl, hseg, hok, hn4, hkeep⟩ := pack1bitRLE_spec (f := fun k => signOf (fld k)) hf (mem := mem) (base := 3) room
    rw [e]
    dsimp only
    rw [if_neg (by omega)]
    have hr := hseg.room
    obtain ⟨m, em⟩ := store_ok (mem := m1) (BitVec.ofNat 32 (4 * toWords (1 + 4 * n))) (show 2 < m1.length by omega)
    obtain ⟨ml, mv, mk⟩ := store_keep em
    rw [em, toWords_eq] at *
    refine ⟨_, rfl, by dsimp only; omega, by dsimp only; omega, by dsimp only; omega, by simp, ?_⟩
    intro u disk g hd hj
    dsimp only at hd hj ⊢
    have hseg' : Seg disk 3 n ts := by
      refine hseg.congr (by omega) fun j h1 h2 => ?_
      rw [hj j (by omega) (by omega), mk j (by omega)]
    obtain ⟨g', eg, hg⟩ := unpack1bitRLE_spec (u := u) (g := g) hf hseg' hok
    refine ⟨g', ?_, fun k hk => ?_⟩
    · have h2 := hj 2 (by omega) (by omega)
      rw [mv] at h2
      simp only [unSigns, h2, eg, Option.map_some, BitVec.toNat_ofNat, true_or, if_true]
      have : 3 + 4 * (n + 1) % 2 ^ 32 / 4 = 3 + (n + 1) := by omega
      rw [this]
    · rw [if_neg (by decide), if_neg (by decide), hg, if_pos hk]
      exact signOf_shift _

/-- What the exponent part leaves. -/
structure ExpOK (fld : Nat → W) (ni nj : Nat) (mem : List W) (pos : Nat) (m : List W) (p : Nat) (c : W) : Prop where
  len : m.length = mem.length
  pos1 : pos ≤ p
  pos2 : 32 * p ≤ 32 * pos + 8 * (ni * nj) + 64
  code : c = 0 ∨ c = 8
  keep : ∀ j : Nat, j < pos → m[j]? = mem[j]?
  back : ∀ (u : W) (disk : List W) (g : Nat → W) (d0 : Nat → Int), p ≤ disk.length →
    (∀ j : Nat, pos ≤ j → j < p → disk[j]? = m[j]?) →
    ∃ g', unExps u disk pos ni nj (expBits fld (ni * nj)) (expMin fld (ni * nj)) c g d0 = some (g', p) ∧
      ∀ k, k < ni * nj → g' k = expOf (fld k)

theorem exp_ok (hni : 2 ≤ ni) (hnj : 2 ≤ nj) (h : expBits fld (ni * nj) ≠ 0) :
    ParOK (expRel fld (ni * nj)) ni nj (expBits fld (ni * nj)) 4 := by
  have := expBits_le fld (ni * nj)
  exact ⟨fun k hk => expRel_lt fld hk, by omega, by omega, by omega, by decide, by decide, hni, hnj⟩

theorem tiles_toks_len {d : Nat → Int} {cont B : Nat} (ts : List (List Nat)) (h : ∀ c ∈ ts, TileOK d cont B c) :
    toksLen (ts.flatMap (pTile d cont)) ≤ ts.length * cont + (ts.map List.length).sum * (B + 1) := by
  induction ts with
  | nil => simp
  | cons c cs ih =>
    have h1 := pTile_len (h c (by simp))
    have h2 := ih fun c hc => h c (by simp [hc])
    simp only [List.flatMap_cons, toksLen_append, List.length_cons, List.map_cons, List.sum_cons, Nat.add_mul, Nat.one_mul] at *
    omega

theorem grid_count (hni : 1 ≤ ni) (hnj : 1 ≤ nj) : (nj - 1) * (ni - 1) + (ni + (nj - 1)) = ni * nj := by
  obtain ⟨a, rfl⟩ := Nat.exists_eq_add_of_le hni
  obtain ⟨b, rfl⟩ := Nat.exists_eq_add_of_le hnj
  have h1 : 1 + b - 1 = b := by omega
  have h2 : 1 + a - 1 = a := by omega
  rw [h1, h2, Nat.add_mul, Nat.mul_add a 1 b, Nat.mul_comm b a]
  omega

theorem exp_toks_len (hni : 2 ≤ ni) (hnj : 2 ≤ nj) (h : expBits fld (ni * nj) ≠ 0) :
    toksLen (parToks (expRel fld (ni * nj)) ni nj (expBits fld (ni * nj)) 4) ≤ 3 + 14 * (ni * nj) := by
  have ok := exp_ok hni hnj h
  have h8 := expBits_le fld (ni * nj)
  have ht := tiles_toks_len _ ok.tile
  have hcount := tiles_count ni nj
  have hsum := tiles_length (ni := ni) (nj := nj) (st := 3) (a0 := 2) (by omega)
  have hg := grid_count (ni := ni) (nj := nj) (by omega) (by omega)
  have e1 : nj + 1 - 2 = nj - 1 := by omega
  have e2 : ni + 1 - 2 = ni - 1 := by omega
  rw [e1, e2] at hsum
  rw [hsum] at ht
  rw [parToks, toksLen_append, pEdge_len]
  have h3 := Nat.mul_le_mul_left (ni + (nj - 1)) h8
  have h4 := Nat.mul_le_mul_left ((nj - 1) * (ni - 1)) (show expBits fld (ni * nj) + 1 + 1 ≤ 10 by omega)
  omega

theorem expPart_spec {mem : List W} {pos : Nat} (hni : 2 ≤ ni) (hnj : 2 ≤ nj) (hbig : ni * nj < 2 ^ 30)
    (room : 32 * pos + 14 * (ni * nj) + 96 ≤ 32 * mem.length) :
    expPart fld ni nj mem pos = some .refused ∨
    ∃ m p c, expPart fld ni nj mem pos = some (.ok m p c) ∧ ExpOK fld ni nj mem pos m p c := by
  unfold expPart
  by_cases h0 : expBits fld (ni * nj) = 0
  · rw [if_pos h0]
    refine Or.inr ⟨_, _, _, rfl, rfl, Nat.le_refl _, by omega, Or.inl rfl, fun _ _ => rfl, ?_⟩
    intro u disk g d0 _ _
    refine ⟨fun k => if k < ni * nj then trunc8 (BitVec.ofNat 32 (expMin fld (ni * nj))) else g k, by simp [unExps], ?_⟩
    intro k hk
    simp only [hk, if_true]
    exact exp_const h0 hk
  · rw [if_neg h0]
    have ok := exp_ok hni hnj h0
    have hl := exp_toks_len hni hnj h0
    obtain ⟨m1, n, e, hn⟩ := packPar_noCheck ok (mem := mem) (base := pos + 1) (by omega) (by omega)
    obtain ⟨l1, hseg, -, hkeep⟩ := packPar_ok ok e hn
    rw [e]
    dsimp only
    by_cases hbigE : 1 + 4 * n > ni * nj
    · rw [if_pos hbigE]; exact Or.inl rfl
    · rw [if_neg hbigE]
      right
      obtain ⟨m, em⟩ := store_ok (mem := m1) (BitVec.ofNat 32 (4 * toWords (1 + 4 * n))) (show pos < m1.length by omega)
      obtain ⟨ml, mv, mk⟩ := store_keep em
      rw [em, toWords_eq] at *
      refine ⟨_, _, _, rfl, by omega, by omega, by omega, Or.inr rfl, fun j hj => ?_, ?_⟩
      · rw [mk j (by omega), hkeep j (by omega)]
      · intro u disk g d0 hd hj
        have hseg' : Seg disk (pos + 1) n (parToks (expRel fld (ni * nj)) ni nj (expBits fld (ni * nj)) 4) := by
          refine hseg.congr (by omega) fun j h1 h2 => ?_
          rw [hj j (by omega) (by omega), mk j (by omega)]
        obtain ⟨g', eg, hg⟩ := unpackPar_spec (trunc := trunc8) (u := u) (g := g) (d0 := d0) ok
          (fun k hk => trunc8_id (by
            have := expRel_toNat fld hk
            have := expOf_lt (fld k)
            omega)) hseg'
        have h2 := hj pos (by omega) (by omega)
        rw [mv] at h2
        refine ⟨_, by
          simp only [unExps, h2, eg, Option.map_some, BitVec.toNat_ofNat, true_or, if_true]
          have : pos + 1 + 4 * (n + 1) % 2 ^ 32 / 4 = pos + 1 + (n + 1) := by omega
          rw [this], fun k hk => ?_⟩
        simp only [hk, if_true]
        rw [hg, if_pos hk]
        exact expRel_back fld hk

theorem man_ok (hni : 2 ≤ ni) (hnj : 2 ≤ nj) (h1 : 10 ≤ znbits) (h2 : znbits ≤ 32) :
    ParOK (fun k => manOf (znbits - 9) (fld k)) ni nj (znbits - 9) 5 :=
  ⟨fun k _ => manOf_lt (by omega) _, by omega, by omega, by omega, by decide, by decide, hni, hnj⟩

/-! ## Refusals -/

theorem pTiles_none {full : Nat → Nat → Bool} {d : Nat → Int} {cont : Nat} (ts : List (List Nat)) (s : Writer)
    (h : pTiles full d cont ts s = some none) : ∃ c ∈ ts, bitLen (pMax d c).toNat ≠ 0 := by
  induction ts generalizing s with
  | nil => simp [pTiles] at h
  | cons c cs ih =>
    simp only [pTiles] at h
    cases h1 : stuffAll (pTile d cont c) s with
    | none => rw [h1] at h; cases h
    | some s1 =>
      rw [h1] at h
      dsimp only at h
      split at h
      · rename_i hc
        exact ⟨c, by simp, hc.1⟩
      · obtain ⟨c', hm, hb⟩ := ih s1 h
        exact ⟨c', by simp [hm], hb⟩

/-- The coder refuses only when some tile is not constant. -/
theorem packPar_none {full : Nat → Nat → Bool} {f : Nat → W} {nbits cont base : Nat} {mem : List W}
    (h : packPar full f ni nj nbits cont mem base = some none) :
    ∃ c ∈ tiles ni nj 3 2, bitLen (pMax (pDiff f ni) c).toNat ≠ 0 := by
  unfold packPar at h
  cases e0 : startWrite mem base with
  | none => rw [e0] at h; cases h
  | some s =>
    rw [e0] at h
    dsimp only at h
    cases e1 : stuffAll (pEdge f ni nj nbits cont) s with
    | none => rw [e1] at h; cases h
    | some s1 =>
      rw [e1] at h
      dsimp only at h
      cases e2 : pTiles full (pDiff f ni) cont (tiles ni nj 3 2) s1 with
      | none => rw [e2] at h; cases h
      | some r =>
        rw [e2] at h
        cases r with
        | none => exact pTiles_none _ _ e2
        | some s2 =>
          dsimp only at h
          cases e3 : stuffAll trailer s2 with
          | none => rw [e3] at h; cases h
          | some s3 => rw [e3] at h; cases h

theorem expBits_const {n : Nat} {v : W} (h : ∀ k, k < n → fld k = v) (hn : 0 < n) : expBits fld n = 0 := by
  have hmin : ∀ (l : List Nat) (m : Nat), (∀ k ∈ l, (expOf (fld k)).toNat = m) →
      l.foldl (fun m k => if (expOf (fld k)).toNat < m then (expOf (fld k)).toNat else m) m = m := by
    intro l
    induction l with
    | nil => intros; rfl
    | cons c cs ih =>
      intro m hm
      rw [List.foldl_cons, if_neg (by rw [hm c (by simp)]; omega)]
      exact ih m fun k hk => hm k (by simp [hk])
  have hmax : ∀ (l : List Nat) (m : Nat), (∀ k ∈ l, (expOf (fld k)).toNat = m) →
      l.foldl (fun m k => if (expOf (fld k)).toNat > m then (expOf (fld k)).toNat else m) m = m := by
    intro l
    induction l with
    | nil => intros; rfl
    | cons c cs ih =>
      intro m hm
      rw [List.foldl_cons, if_neg (by rw [hm c (by simp)]; omega)]
      exact ih m fun k hk => hm k (by simp [hk])
  have hall : ∀ k ∈ List.range n, (expOf (fld k)).toNat = (expOf (fld 0)).toNat := by
    intro k hk
    rw [h k (List.mem_range.1 hk), h 0 hn]
  rw [expBits, expMin, expMax, hmin _ _ hall, hmax _ _ hall, Nat.sub_self, bitLen, if_pos rfl]

end Verif.Armn32
