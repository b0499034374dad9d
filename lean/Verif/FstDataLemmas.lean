import Verif.FstData
import Verif.CompactIntegerRound
import Verif.BurpValues

/-! Helper lemmas: what the readers take from memory; the words of a record. -/

namespace Verif.FstData

/-- Every bit string is a string of tokens. -/
theorem tokens_exist {b : Nat} (hb : b ≤ 32) : ∀ (n : Nat) (l : List Bool), l.length = n * b →
    ∃ ts : List W, ts.length = n ∧ (∀ t ∈ ts, t.toNat < 2 ^ b) ∧ tokBits b ts = l := by
  have one : ∀ (b : Nat) (l : List Bool), l.length = b → ∃ x, x < 2 ^ b ∧ toBits b x = l := by
    intro b
    induction b with
    | zero => intro l hl; exact ⟨0, by simp, by simpa using (List.eq_nil_of_length_eq_zero hl).symm⟩
    | succ b ih =>
      intro l hl
      match l with
      | [] => simp at hl
      | c :: t =>
        obtain ⟨x, hx, e⟩ := ih t (by simpa using hl)
        refine ⟨c.toNat * 2 ^ b + x, ?_, ?_⟩
        · rw [pow_succ]; cases c <;> simp <;> omega
        · rw [toBits, ← e, ← toBits_mod b (c.toNat * 2 ^ b + x), Nat.mul_add_mod_self_right, Nat.mod_eq_of_lt hx]
          congr 1
          cases c
          · simp [Nat.testBit_lt_two_pow hx]
          · simp [Nat.testBit_two_pow_add_eq, Nat.testBit_lt_two_pow hx]
  intro n
  induction n with
  | zero => intro l hl; exact ⟨[], rfl, by simp, by simpa using (List.eq_nil_of_length_eq_zero (by simpa using hl)).symm⟩
  | succ n ih =>
    intro l hl
    rw [Nat.add_mul, Nat.one_mul] at hl
    obtain ⟨ts, h1, h2, h3⟩ := ih (l.drop b) (by simp; omega)
    obtain ⟨x, hx, e⟩ := one b (l.take b) (by simp; omega)
    have hx32 : x < 2 ^ 32 := Nat.lt_of_lt_of_le hx (Nat.pow_le_pow_right (by decide) hb)
    have hxx : (BitVec.ofNat 32 x).toNat = x := by rw [BitVec.toNat_ofNat, Nat.mod_eq_of_lt hx32]
    refine ⟨BitVec.ofNat 32 x :: ts, by simp [h1], ?_, ?_⟩
    · intro t ht
      rcases List.mem_cons.1 ht with rfl | ht
      · rw [hxx]; exact hx
      · exact h2 t ht
    · rw [tokBits_cons, hxx, e, h3, List.take_append_drop]

/-- Unpacking depends only on the bits of the tokens. -/
theorem unpack_congr {k : Nat} (u : W) {mem mem' : List W} {n stride size off : Nat} {kind : UntokKind}
    {out : List (BitVec k)} (h1 : 1 ≤ size) (h2 : size ≤ 32) (hst : 1 ≤ stride)
    (he : ((memBits mem).drop off).take (n * size) = ((memBits mem').drop off).take (n * size))
    (hr : off + n * size < 32 * mem.length) (hr' : off + n * size < 32 * mem'.length)
    (hout : ∀ j, j < n → j * stride < out.length) :
    unpack u mem n stride size off kind out = unpack u mem' n stride size off kind out := by
  obtain ⟨ts, rfl, hlt, hts⟩ := tokens_exist h2 n (((memBits mem).drop off).take (n * size)) (by simp; omega)
  have hsplit : ∀ m : List W, ((memBits mem).drop off).take (ts.length * size) = ((memBits m).drop off).take (ts.length * size) →
      off + ts.length * size < 32 * m.length →
      ∃ rest, (memBits m).drop off = tokBits size ts ++ rest ∧ rest ≠ [] := by
    intro m hm hl
    refine ⟨((memBits m).drop off).drop (ts.length * size), ?_, ?_⟩
    · rw [hts, hm, List.take_append_drop]
    · intro h
      have := congrArg List.length h
      simp at this
      omega
  obtain ⟨r, b, nr⟩ := hsplit mem rfl hr
  obtain ⟨r', b', nr'⟩ := hsplit mem' he hr'
  obtain ⟨o, e, l, s, p⟩ := unpack_spec (u := u) (kind := kind) (out := out) h1 h2 hst hlt b nr hout
  obtain ⟨o', e', l', s', p'⟩ := unpack_spec (u := u) (kind := kind) (out := out) h1 h2 hst hlt b' nr' hout
  rw [e, e']
  congr 1
  apply List.ext_getElem?
  intro i
  by_cases c : ∃ j, j < ts.length ∧ i = j * stride
  · obtain ⟨j, hj, rfl⟩ := c
    rw [s j (by simpa using hj), s' j (by simpa using hj)]
  · have hn : ∀ j, j < ts.length → i ≠ j * stride := fun j hj h => c ⟨j, hj, h⟩
    rw [p i hn, p' i hn]

/-- Memory of the reader: the words of the record and zeros. -/
theorem bits_agree (d z : List W) {off len nw : Nat} (hnw : nw ≤ d.length) (h : off + len ≤ 32 * nw) :
    ((memBits (d.take nw ++ z)).drop off).take len = ((memBits d).drop off).take len := by
  have e : memBits d = memBits (d.take nw) ++ memBits (d.drop nw) := by
    rw [← memBits_append, List.take_append_drop]
  have hl : (memBits (d.take nw)).length = 32 * nw := by simp; omega
  rw [memBits_append, e, List.drop_append_of_le_length (by omega), List.drop_append_of_le_length (by omega),
    List.take_append_of_le_length (by simp; omega), List.take_append_of_le_length (by simp; omega)]

theorem unpack_record {k : Nat} (u : W) {d z : List W} {n size off nw : Nat} {kind : UntokKind} {out : List (BitVec k)}
    (h1 : 1 ≤ size) (h2 : size ≤ 32) (hnw : nw < d.length) (h : off + n * size ≤ 32 * nw) (hz : z ≠ [])
    (hout : n ≤ out.length) :
    unpack u (d.take nw ++ z) n 1 size off kind out = unpack u d n 1 size off kind out := by
  have := List.length_pos_iff.2 hz
  refine unpack_congr u h1 h2 (le_refl 1) (bits_agree d z (by omega) h) ?_ ?_ ?_
  · simp; omega
  · omega
  · intro j hj; omega

theorem moveUp_congr {ipk ipk' : List W} {nwr ninj : Nat} : ∀ (k : Nat) (f : List W),
    (∀ i, i ≤ k → ipk[i]? = ipk'[i]?) → Ieeepak.moveUp ipk nwr ninj k f = Ieeepak.moveUp ipk' nwr ninj k f := by
  intro k
  induction k with
  | zero => intro f _; rfl
  | succ k ih =>
    intro f h
    unfold Ieeepak.moveUp
    rw [h (k + 1) (le_refl _)]
    congr 1
    funext w
    congr 1
    funext f'
    exact ih f' fun i hi => h i (by omega)

/-- `ieeepak` reads only the words that hold the items. -/
theorem ieee_record (fld d z : List W) (n nb nw : Nat) (hn : 1 ≤ n) (hnb1 : 1 ≤ nb) (hnb : nb ≤ 32) (hnw : nw ≤ d.length)
    (h : n * nb ≤ 32 * nw) :
    Ieeepak.unpack fld (d.take nw ++ z) n (-(nb : Int)) = Ieeepak.unpack fld d n (-(nb : Int)) := by
  have hi : ∀ i, i < nw → (d.take nw ++ z)[i]? = d[i]? := by
    intro i hi
    rw [List.getElem?_append_left (by simp; omega), List.getElem?_take, if_pos hi]
  have hnbo : Ieeepak.nbitsOf (-(nb : Int)) = nb := by
    unfold Ieeepak.nbitsOf
    rw [if_neg (by omega), if_pos (by omega)]
    omega
  have hpos : 1 * 1 ≤ n * nb := Nat.mul_le_mul hn hnb1
  unfold Ieeepak.unpack
  simp only [hnbo]
  by_cases c : nb = 32
  · subst c
    have c1 : ¬ (((32 : Nat) : Int) > 32 ∨ n = 0) := by omega
    have c2 : ((32 : Nat) : Int) = 32 := rfl
    rw [if_neg c1, if_neg c1, if_pos c2, if_pos c2]
    have e : (d.take nw ++ z).take n = d.take n := by
      rw [List.take_append_of_le_length (by simp; omega), List.take_take, Nat.min_eq_left (by omega)]
    rw [e]
    by_cases c2 : n ≤ fld.length
    · rw [if_pos ⟨by simp; omega, c2⟩, if_pos ⟨by omega, c2⟩]
    · rw [if_neg (by tauto), if_neg (by tauto)]
  · have c1 : ¬ ((nb : Int) > 32 ∨ n = 0) := by omega
    have c2 : ¬ (nb : Int) = 32 := by omega
    rw [if_neg c1, if_neg c1, if_neg c2, if_neg c2]
    simp only [Int.toNat_natCast]
    rw [hi 0 (by omega), moveUp_congr (ipk := d.take nw ++ z) (ipk' := d) _ fld (fun i h => hi i (by omega))]

/-- An array with its first elements replaced. -/
theorem strided_one {α : Type} {o out xs : List α} (hs : Strided o 1 xs)
    (hp : ∀ p, (∀ j, j < xs.length → p ≠ j * 1) → o[p]? = out[p]?) :
    o = xs ++ out.drop xs.length := by
  apply List.ext_getElem?
  intro i
  by_cases h : i < xs.length
  · have := hs i h
    rw [Nat.mul_one] at this
    rw [this, List.getElem?_append_left h, List.getElem?_eq_getElem h]
  · rw [hp i (by intro j hj; omega), List.getElem?_append_right (by omega), List.getElem?_drop]
    congr 1; omega

theorem strided_self {α : Type} (xs t : List α) : Strided (xs ++ t) 1 xs := by
  intro j hj
  rw [Nat.mul_one, List.getElem?_append_left hj, List.getElem?_eq_getElem hj]

theorem swapPairs_get : ∀ (k : Nat) (l : List W), l.length = 2 * k → ∀ i < k,
    (swapPairs l)[2 * i]? = l[2 * i + 1]? ∧ (swapPairs l)[2 * i + 1]? = l[2 * i]?
  | 0, _, _, _, hi => absurd hi (by omega)
  | k + 1, l, h, i, hi => by
    match l, h with
    | a :: b :: t, h =>
      cases i with
      | zero => simp [swapPairs]
      | succ i =>
        have := swapPairs_get k t (by simp at h; omega) i (by omega)
        simpa [swapPairs, Nat.mul_add] using this
    | [], h => simp at h
    | [_], h => simp at h; omega

theorem swapPairs_swapPairs : ∀ (k : Nat) (l : List W), l.length = 2 * k → swapPairs (swapPairs l) = l ∧
    (swapPairs l).length = 2 * k
  | 0, l, h => by
    have : l = [] := List.eq_nil_of_length_eq_zero (by omega)
    subst this
    exact ⟨rfl, rfl⟩
  | k + 1, l, h => by
    match l, h with
    | a :: b :: t, h =>
      obtain ⟨e1, e2⟩ := swapPairs_swapPairs k t (by simp at h; omega)
      constructor
      · simp [swapPairs, e1]
      · simp [swapPairs, e2]; omega

end Verif.FstData
