import Verif.FstTurbo
import Verif.Props.Compress
import Verif.Props.FstReal

/-! # Property C87: compressed reals (data types 129 and 134) read back as if they were not compressed -/

namespace Verif.FstData

open Grid (Rounding)
open FloatPacker (F32 val expo)
open CompactFloat (compactPack compactUnpack fval missing headCount widths)
open Props.CompactFloat (Prec big)
open Props.FloatPacker (Finite IsSub)

theorem tok_zero (w : W) (t : List W) : (fieldTok true (w :: t) 0).toNat = w.toNat / 2 ^ 16 % 2 ^ 16 := by
  simp [fieldTok, Nat.shiftRight_eq_div_pow]

theorem tok_one (w : W) (t : List W) : (fieldTok true (w :: t) 1).toNat = w.toNat % 2 ^ 16 := by
  simp [fieldTok]

theorem tok_next (w : W) (t : List W) (k : Nat) : fieldTok true (w :: t) (k + 2) = fieldTok true t k := by
  simp [fieldTok]

/-- The tokens that `c_float_unpacker` takes are the values of `armn_compress`. -/
theorem tokens_get : ∀ (n : Nat) (l : List W) (k : Nat), k < n → (n + 1) / 2 ≤ l.length →
    (FloatPacker.tokens n l)[k]? = some (fieldTok true l k).toNat
  | 0, _, _, h, _ => by omega
  | 1, [], _, _, h => by simp at h
  | n + 2, [], _, _, h => by simp at h; omega
  | 1, w :: t, 0, _, _ => by rw [tok_zero]; simp [FloatPacker.tokens]
  | 1, w :: t, k + 1, h, _ => by omega
  | n + 2, w :: t, 0, _, _ => by rw [tok_zero]; simp [FloatPacker.tokens]
  | n + 2, w :: t, 1, _, _ => by rw [tok_one]; simp [FloatPacker.tokens]
  | n + 2, w :: t, k + 2, h, hl => by
    rw [tok_next, ← tokens_get n t k (by omega) (by simp at hl; omega)]
    simp [FloatPacker.tokens]

theorem tokens_length : ∀ (n : Nat) (l : List W), (n + 1) / 2 ≤ l.length → (FloatPacker.tokens n l).length = n
  | 0, _, _ => by simp [FloatPacker.tokens]
  | 1, [], h => by simp at h
  | n + 2, [], h => by simp at h; omega
  | 1, w :: t, _ => by simp [FloatPacker.tokens]
  | n + 2, w :: t, h => by
    simp only [FloatPacker.tokens, List.length_cons]
    rw [tokens_length n t (by simp at h; omega)]

theorem tokens_congr {n : Nat} {l l' : List W} (hl : (n + 1) / 2 ≤ l.length) (hl' : (n + 1) / 2 ≤ l'.length)
    (h : ∀ k, k < n → fieldTok true l k = fieldTok true l' k) : FloatPacker.tokens n l = FloatPacker.tokens n l' := by
  apply List.ext_getElem?
  intro k
  rcases Nat.lt_or_ge k n with hk | hk
  · rw [tokens_get n l k hk hl, tokens_get n l' k hk hl', h k hk]
  · rw [List.getElem?_eq_none (by rw [tokens_length n l hl]; exact hk), List.getElem?_eq_none (by rw [tokens_length n l' hl']; exact hk)]

/-- The same for the bits that the unpacker of type 1 takes. -/
theorem bits_congr : ∀ (n : Nat) (l l' : List W), (n + 1) / 2 ≤ l.length → (n + 1) / 2 ≤ l'.length →
    (∀ k, k < n → fieldTok true l k = fieldTok true l' k) → (memBits l).take (n * 16) = (memBits l').take (n * 16)
  | 0, _, _, _, _, _ => by simp
  | 1, [], _, h, _, _ => by simp at h
  | n + 2, [], _, h, _, _ => by simp at h; omega
  | 1, _ :: _, [], _, h, _ => by simp at h
  | n + 2, _ :: _, [], _, h, _ => by simp at h; omega
  | 1, w :: t, w' :: t', _, _, h => by
    have h0 := congrArg BitVec.toNat (h 0 (by omega))
    rw [tok_zero, tok_zero] at h0
    have a := w.isLt
    have b := w'.isLt
    rw [memBits_cons, memBits_cons, List.take_append_of_le_length (by simp), List.take_append_of_le_length (by simp)]
    have e := toBits_take 16 16 w.toNat
    have e' := toBits_take 16 16 w'.toNat
    rw [Nat.shiftRight_eq_div_pow, show w.toNat / 2 ^ 16 = w'.toNat / 2 ^ 16 by omega, ← Nat.shiftRight_eq_div_pow, ← e'] at e
    exact e
  | n + 2, w :: t, w' :: t', hl, hl', h => by
    have h0 := congrArg BitVec.toNat (h 0 (by omega))
    rw [tok_zero, tok_zero] at h0
    have h1 := congrArg BitVec.toNat (h 1 (by omega))
    rw [tok_one, tok_one] at h1
    have a := w.isLt
    have b := w'.isLt
    have e : w = w' := BitVec.eq_of_toNat_eq (by omega)
    have ih := bits_congr n t t' (by simp at hl; omega) (by simp at hl'; omega) (fun k hk => by
      have := h (k + 2) (by omega)
      rwa [tok_next, tok_next] at this)
    rw [e, memBits_cons, memBits_cons, show (n + 2) * 16 = 32 + n * 16 by ring, List.take_append, List.take_append]
    simp [ih]

/-- The values given to the compressor fit the number of bits. -/
theorem pack_tok (a : F32) (rest : List F32) (nb : Nat) (hnb : nb ≤ 16) (z : List W) (k : Nat) (hk : k < (a :: rest).length) :
    (fieldTok true ((FloatPacker.pack a rest nb).stream ++ z) k).toNat < 2 ^ nb := by
  have hp : (0 : Int) < 2 ^ nb := by positivity
  have h16 : 2 ^ nb ≤ 2 ^ 16 := Nat.pow_le_pow_right (by decide) hnb
  have hlen : (FloatPacker.pack a rest nb).stream.length = ((a :: rest).length + 1) / 2 := by
    simp only [FloatPacker.pack, words_length, List.length_map]
  have hg := tokens_get (a :: rest).length ((FloatPacker.pack a rest nb).stream ++ z) k hk (by simp [hlen])
  rw [tokens_append _ _ _ (by omega)] at hg
  obtain ⟨mi, sh, E, hs⟩ : ∃ mi sh E, (FloatPacker.pack a rest nb).stream =
      FloatPacker.words ((a :: rest).map fun x => (FloatPacker.token mi sh (2 ^ nb - 1) (FloatPacker.norm E x)).toNat) :=
    ⟨_, _, _, rfl⟩
  have hb : ∀ x : F32, (FloatPacker.token mi sh (2 ^ nb - 1) (FloatPacker.norm E x)).toNat < 2 ^ nb := by
    intro x
    have : FloatPacker.token mi sh (2 ^ nb - 1) (FloatPacker.norm E x) ≤ 2 ^ nb - 1 := min_le_right _ _
    have h2 : ((2 ^ nb : Nat) : Int) = 2 ^ nb := by push_cast; rfl
    omega
  have ht := Props.FloatPacker.tokens_words ((a :: rest).map fun x => (FloatPacker.token mi sh (2 ^ nb - 1) (FloatPacker.norm E x)).toNat)
    (by
      intro t ht
      obtain ⟨x, -, rfl⟩ := List.mem_map.1 ht
      exact Nat.lt_of_lt_of_le (hb x) h16)
  rw [List.length_map, ← hs] at ht
  rw [ht] at hg
  obtain ⟨x, -, hx⟩ := List.mem_map.1 (List.mem_of_getElem? hg)
  rw [← hx]
  exact hb x

theorem uncompress_length {swap : Bool} {u : W} {disk back : List W} {ni nj nb : Nat} {g : Nat → BitVec 16} {d0 : Nat → Int}
    (h : armnUncompress swap u disk ni nj nb g d0 = some back) : back.length = disk.length := by
  unfold armnUncompress at h
  split at h
  · simp at h; rw [h]
  · split at h
    · simp at h
    · split at h
      · simp only [Option.some.injEq] at h
        rw [← h, swapField_length]
        simp [wordsOf]
        omega
      · simp at h

theorem plan_turbo {t nb ni nj nk : Nat} (ht : t = 129 ∨ t = 134) (hnb : nb ≤ 16) (D : Dims ni nj nk nb) :
    plan false [] t (-(nb : Int)) ni nj nk = some ⟨t, t, nb, false⟩ := by
  have e := plan1_same (t := t) (nb := nb) (by omega)
  have := plan_neg (t := t) (nb := nb) (ni := ni) (nj := nj) (nk := nk) (by rcases ht with rfl | rfl <;> decide) (by omega) (by omega)
    D.hnb.1 (by rw [e]; exact D)
  have e2 : plan2 t nb = (t, nb) := by
    unfold plan2
    simp only [show ¬ (nb > 16 ∧ t ≠ 133) by omega, if_false]
    rw [if_neg (by omega), if_neg (by omega)]
  rw [e, e2] at this
  exact this

theorem cleared_length (nw : Nat) : (cleared nw).length = nw + 129 := by simp [cleared, writeArea]

/-- The record of type 6 for the same field. -/
theorem write_six {u : W} {R : Rounding} {len : Len} {ni nj nk nb : Nat} (a : F32) (rest : List F32) (m : Bool)
    (hx : (a :: rest).length = ni * nj * nk) :
    writeData u R ⟨6, 6, nb, m⟩ len ni nj nk (.words (a :: rest)) =
      some ⟨6, nb, m, (packedWords (FloatPacker.pack a rest nb) ++ cleared (nwords 6 (ni * nj * nk) nb)).take (nwords 6 (ni * nj * nk) nb)⟩ := by
  have ht : (a :: rest).take (ni * nj * nk) = a :: rest := by rw [← hx, List.take_length]
  unfold writeData
  simp only [ht]
  simp only [List.length_cons] at hx
  simp [hx]

/-- What `c_float_unpacker` makes of a header and a stream. -/
def unpacked (sub : F32 → F32 → F32) (P : FloatPacker.Packed) (n : Nat) (out : List W) : Option Field :=
  (FloatPacker.unpack sub ⟨P.h0, (BitVec.ofInt 32 P.h1).toInt, (BitVec.ofNat 32 P.h2).toNat, P.stream⟩ n).bind fun r =>
    if n ≤ out.length then some (.words (r.1 ++ out.drop n)) else none

theorem unpacked_congr (sub : F32 → F32 → F32) (P : FloatPacker.Packed) (n : Nat) (out l : List W)
    (h : FloatPacker.tokens n l = FloatPacker.tokens n P.stream) :
    (FloatPacker.unpack sub ⟨P.h0, (BitVec.ofInt 32 P.h1).toInt, (BitVec.ofNat 32 P.h2).toNat, l⟩ n).bind (fun r =>
      if n ≤ out.length then some (Field.words (r.1 ++ out.drop n)) else none) = unpacked sub P n out := by
  unfold unpacked FloatPacker.unpack
  dsimp only
  rw [h]

/-- Any record of type 6 that begins with the packed words, of sufficient length. -/
theorem read_six {u : W} {R : Rounding} {sub : F32 → F32 → F32} {len : Len} {ni nj nk nb : Nat} (P : FloatPacker.Packed) (t : List W) (m : Bool)
    (out : List W) (hl : ((packedWords P) ++ t).length ≤ (ni * nj * nk * 16 + 63) / 32 + 6)
    (hs : (ni * nj * nk + 1) / 2 ≤ P.stream.length) :
    readData u R sub ⟨6, nb, m, packedWords P ++ t⟩ len ni nj nk (.words out) = unpacked sub P (ni * nj * nk) out := by
  obtain ⟨t', hw⟩ : ∃ t', workField ⟨6, nb, m, packedWords P ++ t⟩ (ni * nj * nk) len = some (P.h0 :: BitVec.ofInt 32 P.h1 ::
      BitVec.ofNat 32 P.h2 :: (P.stream ++ t')) := by
    refine ⟨t ++ List.replicate (readArea 6 (ni * nj * nk) (packedWords P ++ t).length (len = .double) - (packedWords P ++ t).length) 0, ?_⟩
    unfold workField
    dsimp only
    rw [if_pos]
    · simp [packedWords]
    · unfold readArea keysLen
      dsimp only
      rw [if_pos (Or.inl rfl)]
      omega
  rw [← unpacked_congr sub P (ni * nj * nk) out _ (tokens_append _ P.stream t' hs)]
  unfold readData
  simp [hw, packedOf]

/-- C87.  A field of one level written with type 134 and at most 16 bits: the compressor may refuse, and then the record is of type
6.  In both cases the field that is read is the field that type 6 gives for the same values, whatever they are, if the record fits the
work field of the reader; the record never exceeds it by more than one word. -/
theorem C87_turbo_partial (u1 u2 u3 : W) (R : Rounding) (sub : F32 → F32 → F32) (level ni nj nb : Nat) (len : Len) (xs z out : List W)
    (g : Nat → BitVec 16) (d0 : Nat → Int) (D : Dims ni nj 1 nb) (hnb : nb ≤ 16) (hx : xs.length = ni * nj) (hz : z.length = ni * nj) :
    ∃ p p6 s s6, plan false [] 134 (-(nb : Int)) ni nj 1 = some p ∧ plan false [] 6 (-(nb : Int)) ni nj 1 = some p6 ∧
      write134 level p ni nj 1 xs z = some s ∧ writeData u1 R p6 len ni nj 1 (.words xs) = some s6 ∧
      s.nbits = nb ∧ (s.datyp = 6 ∨ s.datyp = 134) ∧ s.words.length ≤ (ni * nj * 16 + 63) / 32 + 7 ∧
      (s.datyp = 134 → s.words[0]? = some (BitVec.ofNat 32 s.words.length)) ∧
      (s.datyp = 6 ∨ s.words.length ≤ (ni * nj * 16 + 63) / 32 + 6 →
        readTurbo u2 R sub s len ni nj 1 g d0 (.words out) = readData u3 R sub s6 len ni nj 1 (.words out)) := by
  have hpos := D.pos
  obtain ⟨a, rest, rfl⟩ : ∃ z rest, xs = z :: rest := by
    cases xs with
    | nil => simp only [List.length_nil] at hx; omega
    | cons z rest => exact ⟨z, rest, rfl⟩
  have hx1 : (a :: rest).length = ni * nj * 1 := by omega
  have hn1 : ni * nj * 1 = ni * nj := Nat.mul_one _
  have ht : (a :: rest).take (ni * nj * 1) = a :: rest := by rw [← hx1, List.take_length]
  generalize hP : FloatPacker.pack a rest nb = P
  have hstream : P.stream.length = (ni * nj + 1) / 2 := by
    rw [← hP]
    simp only [FloatPacker.pack, words_length, List.length_map, hx]
  have hpl : (packedWords P).length = 3 + (ni * nj + 1) / 2 := by simp [packedWords, hstream]; omega
  have hp3 : (packedWords P).drop 3 = P.stream := rfl
  have hnw : nwords 134 (ni * nj * 1) nb = 2 * (((12 + 4 * ((ni * nj + 1) / 2)) * 8 + 32 + 63) / 64) := by
    rw [hn1]; rfl
  have hnw6 := nwords_six (ni * nj * 1) nb
  have hnw6' : nwords 6 (ni * nj * 1) nb = 2 * (((12 + 4 * ((ni * nj + 1) / 2)) * 8 + 63) / 64) := by
    rw [hn1]; rfl
  obtain ⟨c, hc⟩ : ∃ c, c = writeArea (nwords 134 (ni * nj * 1) nb) - 1 - (packedWords P).length := ⟨_, rfl⟩
  have hc' : 1 ≤ c := by rw [hc, hnw, hpl, writeArea]; omega
  obtain ⟨o, e, hol, ho⟩ := compress_outcome true u2 g d0 level ((packedWords P).drop 3 ++ List.replicate c 0) ni nj 1 nb z D.hnb.1
    D.hni.1 D.hnj.1 (by omega) (by omega) (by rw [hp3]; simp; omega) (by
      intro _ k hk
      rw [hp3, ← hP]
      exact pack_tok a rest nb hnb _ k (by omega))
  have hfl : o.fld.length = P.stream.length + c := by rw [hol, hp3]; simp
  have hp := plan_turbo (t := 134) (by omega) hnb D
  have hp6 := plan_same (t := 6) (by decide) (by omega) (by omega) (by omega) D
  have hread6 : readData u3 R sub ⟨6, nb, false, (packedWords P ++ cleared (nwords 6 (ni * nj * 1) nb)).take (nwords 6 (ni * nj * 1) nb)⟩ len ni nj 1
      (.words out) = unpacked sub P (ni * nj * 1) out := by
    rw [List.take_append, List.take_of_length_le (by omega)]
    refine read_six P _ false out ?_ (by omega)
    simp only [List.length_append, List.length_take, cleared_length]
    omega
  have hw : write134 level ⟨134, 134, nb, false⟩ ni nj 1 (a :: rest) z = some (if o.ret < 0 then
          ⟨6, nb, false, (packedWords P ++ (0 :: ((packedWords P).take 3 ++ o.fld)).drop (packedWords P).length).take (nwords 134 (ni * nj * 1) nb)⟩
        else ⟨134, nb, false, (BitVec.ofNat 32 (wordsFor (16 + 12 + o.ret.toNat)) :: ((packedWords P).take 3 ++ o.fld)).take
          (wordsFor (16 + 12 + o.ret.toNat))⟩) := by
    unfold write134
    dsimp only
    rw [ht]
    dsimp only
    rw [if_neg (by simp only [List.length_cons] at hx1; omega), hP, ← hc, e]
    rfl
  rcases ho with ⟨hr, hf⟩ | ⟨bytes, hr, -, hlt, hdec⟩
  · rw [if_pos (by omega)] at hw
    refine ⟨_, _, _, _, hp, hp6, hw, write_six a rest false hx1, rfl, Or.inl rfl, ?_, ?_, ?_⟩
    · simp only [List.length_take]; omega
    · intro h; simp at h
    · intro _
      rw [hP, hread6]
      unfold readTurbo
      dsimp only
      rw [if_neg (by omega), if_neg (by omega), List.take_append, List.take_of_length_le (by omega)]
      refine read_six P _ false out ?_ (by omega)
      simp only [List.length_append, List.length_take]
      omega
  · rw [if_neg (by omega)] at hw
    have hk : (BitVec.ofNat 32 (wordsFor (16 + 12 + o.ret.toNat)) :: ((packedWords P).take 3 ++ o.fld)).take (wordsFor (16 + 12 + o.ret.toNat)) =
        BitVec.ofNat 32 (wordsFor (28 + bytes)) :: P.h0 :: BitVec.ofInt 32 P.h1 :: BitVec.ofNat 32 P.h2 :: o.fld.take (wordsFor (28 + bytes) - 4) := by
      rw [hr]
      obtain ⟨k, hk⟩ : ∃ k, wordsFor (28 + bytes) = k + 4 := ⟨wordsFor (28 + bytes) - 4, by unfold wordsFor; omega⟩
      simp [hk, packedWords]
    rw [hk] at hw
    have hlen : (o.fld.take (wordsFor (28 + bytes) - 4)).length = wordsFor (28 + bytes) - 4 := by
      rw [List.length_take, hfl, hstream, hc, hpl, hnw]
      unfold wordsFor writeArea
      omega
    have hw4 : 4 + bytes / 4 ≤ wordsFor (28 + bytes) := by unfold wordsFor; omega
    refine ⟨_, _, _, _, hp, hp6, hw, write_six a rest false hx1, rfl, Or.inr rfl, ?_, ?_, ?_⟩
    · simp only [List.length_cons, hlen]
      unfold wordsFor
      omega
    · intro _
      simp only [List.length_cons, hlen, List.getElem?_cons_zero]
      congr 2
      omega
    · intro h
      have hfit : wordsFor (28 + bytes) ≤ (ni * nj * 16 + 63) / 32 + 6 := by
        rcases h with h | h
        · simp at h
        · simp only [List.length_cons, hlen] at h
          omega
      obtain ⟨k, hkk⟩ : ∃ k, k = readArea 134 (ni * nj * 1) (wordsFor (28 + bytes)) (len = .double) := ⟨_, rfl⟩
      have hka : k = (ni * nj * 16 + 63) / 32 + 26 := by
        rw [hkk]
        unfold readArea
        dsimp only
        rw [if_pos (Or.inr rfl), hn1]
        omega
      have hlen4 : (BitVec.ofNat 32 (wordsFor (28 + bytes)) :: P.h0 :: BitVec.ofInt 32 P.h1 :: BitVec.ofNat 32 P.h2 ::
          o.fld.take (wordsFor (28 + bytes) - 4)).length = wordsFor (28 + bytes) := by
        simp only [List.length_cons, hlen]
        omega
      have hwf : workField ⟨134, nb, false, BitVec.ofNat 32 (wordsFor (28 + bytes)) :: P.h0 :: BitVec.ofInt 32 P.h1 :: BitVec.ofNat 32 P.h2 ::
          o.fld.take (wordsFor (28 + bytes) - 4)⟩ (ni * nj * 1) len = some (BitVec.ofNat 32 (wordsFor (28 + bytes)) :: P.h0 ::
            BitVec.ofInt 32 P.h1 :: BitVec.ofNat 32 P.h2 :: (o.fld.take (wordsFor (28 + bytes) - 4) ++ List.replicate (k - wordsFor (28 + bytes)) 0)) := by
        unfold workField
        dsimp only
        rw [hlen4, ← hkk, if_pos (by unfold keysLen; omega)]
        simp
      have hdl : (o.fld.take (wordsFor (28 + bytes) - 4) ++ List.replicate (k - wordsFor (28 + bytes)) (0 : W)).length = k - 4 := by
        rw [List.length_append, hlen, List.length_replicate]
        omega
      obtain ⟨back, eb, hb⟩ := hdec (o.fld.take (wordsFor (28 + bytes) - 4) ++ List.replicate (k - wordsFor (28 + bytes)) 0)
        (by rw [hdl]; omega) (by rw [hdl]; omega)
        (by rw [List.take_append_of_le_length (by omega), List.take_take, min_eq_left (by omega)])
      have hbl : (ni * nj + 1) / 2 ≤ back.length := by
        have := uncompress_length eb
        rw [this, hdl]
        omega
      have htok : FloatPacker.tokens (ni * nj * 1) back = FloatPacker.tokens (ni * nj * 1) P.stream := by
        rw [← tokens_append _ P.stream (List.replicate c 0) (by omega)]
        refine tokens_congr (by omega) (by simp; omega) fun k hk => ?_
        have := hb k (by omega)
        rwa [hp3] at this
      rw [hP, hread6, ← unpacked_congr sub P (ni * nj * 1) out _ htok]
      rw [hn1] at hwf ⊢
      unfold readTurbo
      simp only [BitVec.ofNat_eq_ofNat] at hwf eb
      simp [hwf, eb, packedOf]

/-- C87.  Reals written with type 129 and 16 bits (one level) come back as precisely as those of type 1 with 16 bits (C84), whether
the compressor refuses or not.  With fewer bits the field is lost (`C59_narrow_witness`, `C87_narrow_witness`). -/
theorem C87_real16_partial {R : Rounding} (hR : Prec R) (u2 : W) (sub : F32 → F32 → F32) (level ni nj : Nat) (len : Len) (hlen : len ≠ .double)
    (xs z out : List W) (g : Nat → BitVec 16) (d0 : Nat → Int) (D : Dims ni nj 1 16) (hx : xs.length = ni * nj) (hz : z.length = ni * nj)
    (mn mx : W) (hmn : mn ∈ xs) (hmx : mx ∈ xs) (hall : ∀ x ∈ xs, val mn ≤ val x ∧ val x ≤ val mx)
    (hbig : |fval mn| ≤ big ∧ |fval mx| ≤ big) (hnorm : val mn = 0 ∨ 1 ≤ expo mn) :
    ∃ p s ys step, plan false [] 129 (-16) ni nj 1 = some p ∧ write129 R level p ni nj 1 xs z = some s ∧
      (s.datyp = 1 ∨ s.datyp = 129) ∧ s.nbits = 16 ∧ (s.datyp = 129 → s.words[0]? = some (BitVec.ofNat 32 s.words.length)) ∧
      readTurbo u2 R sub s len ni nj 1 g d0 (.words out) = some (.reals ys) ∧ ys.length = xs.length ∧
      0 ≤ step ∧ step * (2 ^ 16 - 1) ≤ 2 * (fval mx - fval mn) * (1 + 1 / 2 ^ 52) ∧
      ∀ (i : Nat) x y, xs[i]? = some x → ys[i]? = some y →
        fval mn ≤ y ∧ (val x = val mn → y = fval x) ∧
        |y - fval x| ≤ step * (1 + 1 / 2 ^ 23) + |fval x| * (1 / 2 ^ 24 + 1 / 2 ^ 50) + (fval x - fval mn) / 2 ^ 41 + 1 / 2 ^ 149 ∧
        ∀ (j : Nat) x' y', xs[j]? = some x' → ys[j]? = some y' → val x ≤ val x' → y ≤ y' := by
  have hpos := D.pos
  have hsize := D.size
  have hn1 : ni * nj * 1 = ni * nj := Nat.mul_one _
  have hp := plan_turbo (t := 129) (by omega) (le_refl 16) D
  have hnw : nwords 129 (ni * nj) 16 = 2 * ((ni * nj * 16 + 128 + 32 + 63) / 64) := rfl
  generalize hNW : nwords 129 (ni * nj) 16 = nw at hnw
  obtain ⟨d, ys, step, ⟨w0, w4, e1, e4, hs, hc⟩, hpk, hup, dl, yl, hkeep, s0, s1, hy⟩ :=
    Props.CompactFloat.compact_core hR u2 none xs (16 + 64 * max 16 16) 16 false (cleared nw) 1 160 mn mx (by decide) (by decide) (by decide)
      (by simp) (by simp; omega) (by rw [cleared_length, hnw, hx]; omega) ⟨hmn, rfl⟩ ⟨hmx, rfl⟩ (fun x hx _ => hall x hx) hbig hnorm
  rw [cleared_length] at dl
  obtain ⟨o, e, hol, ho⟩ := compress_outcome true u2 g d0 level (d.drop 5) ni nj 1 16 z (by decide)
    D.hni.1 D.hnj.1 (by omega) (by omega) (by rw [List.length_drop]; omega) (by
      intro _ k hk
      exact BitVec.isLt _)
  rw [List.length_drop] at hol
  have ht : xs.take (ni * nj) = xs := by rw [← hx, List.take_length]
  have hy' : ∀ (ys : List ℚ) (step : ℚ), (∀ (i : Nat) x y, xs[i]? = some x → ys[i]? = some y →
        (∀ t, none = some t → val x = val t → y = fval t) ∧
        (missing none x = false → fval mn ≤ y ∧ (val x = val mn → y = fval x) ∧
          |y - fval x| ≤ step * (1 + 1 / 2 ^ 23) + |fval x| * (1 / 2 ^ 24 + 1 / 2 ^ 50) + (fval x - fval mn) / 2 ^ 41 + 1 / 2 ^ 149 ∧
          ∀ (j : Nat) x' y', xs[j]? = some x' → ys[j]? = some y' → missing none x' = false → val x ≤ val x' → y ≤ y')) →
      ∀ (i : Nat) x y, xs[i]? = some x → ys[i]? = some y →
        fval mn ≤ y ∧ (val x = val mn → y = fval x) ∧
        |y - fval x| ≤ step * (1 + 1 / 2 ^ 23) + |fval x| * (1 / 2 ^ 24 + 1 / 2 ^ 50) + (fval x - fval mn) / 2 ^ 41 + 1 / 2 ^ 149 ∧
        ∀ (j : Nat) x' y', xs[j]? = some x' → ys[j]? = some y' → val x ≤ val x' → y ≤ y' := by
    intro ys step hy i x y hxi hyi
    obtain ⟨h1, h2, h3, h4⟩ := (hy i x y hxi hyi).2 rfl
    exact ⟨h1, h2, h3, fun j x' y' hxj hyj h => h4 j x' y' hxj hyj rfl h⟩
  rcases ho with ⟨hr, hf⟩ | ⟨bytes, hr, hb1, hlt, hdec⟩
  · obtain ⟨d', ys', step', ⟨w0', w3', d0', d3', hs', hc'⟩, hpk', hup', dl', yl', -, s0', s1', hy2⟩ :=
      Props.CompactFloat.compact_core hR u2 none xs 16 16 true d 0 120 mn mx (by decide) (by decide) (by decide)
        (by simp) (by simp) (by rw [dl, hnw, hx]; omega) ⟨hmn, rfl⟩ ⟨hmx, rfl⟩ (fun x hx _ => hall x hx) hbig hnorm
    refine ⟨_, ⟨1, 16, false, d'.take nw⟩, ys', step', hp, ?_, Or.inl rfl, rfl, by simp, ?_, yl', s0', s1', hy' ys' step' hy2⟩
    · unfold write129
      simp only [hn1, hNW, ht, hpk, Option.bind_some, e]
      rw [if_neg (by omega), if_pos (by omega), hf, List.take_append_drop, hpk']
      rfl
    · obtain ⟨t, hz', ez⟩ := work_default ⟨1, 16, false, d'.take nw⟩ (ni * nj) len (by simp) (by simp)
      have hrr := float_record R u2 d' t xs.length 16 nw w0' w3' (by decide) (by decide) d0' d3' hs' hc' (by omega)
        (by rw [dl', dl]; omega) (by rw [hx, hnw]; omega) hz'
      rw [hup', hx] at hrr
      unfold readTurbo readData
      cases len with
      | double => exact absurd rfl hlen
      | _ => simp [ez, hrr]
  · have hwk : 5 + bytes / 4 ≤ wordsFor (16 + bytes) := by unfold wordsFor; omega
    have hwk2 : wordsFor (16 + bytes) ≤ (ni * nj * 16 + 63) / 32 + 6 := by unfold wordsFor; omega
    generalize hK : wordsFor (16 + bytes) = k at hwk hwk2
    have hset : (d.set 0 (BitVec.ofNat 32 k)).take 5 = BitVec.ofNat 32 k :: (d.drop 1).take 4 := by
      cases d with
      | nil => simp at dl
      | cons w t => simp
    have h5 : (BitVec.ofNat 32 k :: (d.drop 1).take 4).length = 5 := by simp; omega
    obtain ⟨area, ha⟩ : ∃ area, area = readArea 129 (ni * nj) k (len = .double) := ⟨_, rfl⟩
    have hak : area = (ni * nj * 16 + 63) / 32 + 26 := by
      rw [ha]
      unfold readArea
      dsimp only
      rw [if_neg (by omega), if_neg (by omega), if_pos (by omega)]
      omega
    have hft : (o.fld.take (k - 5)).length = k - 5 := by
      rw [List.length_take]
      omega
    have hwords : ((d.set 0 (BitVec.ofNat 32 k)).take 5 ++ o.fld).take k = (BitVec.ofNat 32 k :: (d.drop 1).take 4) ++ o.fld.take (k - 5) := by
      rw [hset, List.take_append, h5, List.take_of_length_le (by omega)]
    have hwl : ((BitVec.ofNat 32 k :: (d.drop 1).take 4) ++ o.fld.take (k - 5)).length = k := by
      rw [List.length_append, h5, hft]
      omega
    have hwf : workField ⟨129, 16, false, (BitVec.ofNat 32 k :: (d.drop 1).take 4) ++ o.fld.take (k - 5)⟩ (ni * nj) len =
        some ((BitVec.ofNat 32 k :: (d.drop 1).take 4) ++ (o.fld.take (k - 5) ++ List.replicate (area - k) 0)) := by
      unfold workField
      dsimp only
      rw [hwl, ← ha, if_pos (by unfold keysLen; omega), List.append_assoc]
    have hdl : (o.fld.take (k - 5) ++ List.replicate (area - k) (0 : W)).length = area - 5 := by
      rw [List.length_append, hft, List.length_replicate]
      omega
    obtain ⟨back, eb, hb⟩ := hdec (o.fld.take (k - 5) ++ List.replicate (area - k) 0) (by rw [hdl]; omega) (by rw [hdl]; omega)
      (by rw [List.take_append_of_le_length (by omega), List.take_take, min_eq_left (by omega)])
    have hbl : back.length = area - 5 := by rw [uncompress_length eb, hdl]
    have hbits := bits_congr (ni * nj) back (d.drop 5) (by omega) (by rw [List.length_drop]; omega) hb
    have hun : compactUnpack R u2 none ((BitVec.ofNat 32 k :: (d.drop 1).take 4) ++ back) 1 160 (ni * nj) = some ys := by
      rw [← hup, hx]
      have hi : ∀ (i : Nat), 1 ≤ i → i ≤ 4 → ((BitVec.ofNat 32 k :: (d.drop 1).take 4) ++ back)[i]? = d[i]? := by
        intro i h1 h4
        rw [List.getElem?_append_left (by omega)]
        obtain ⟨j, rfl⟩ : ∃ j, i = j + 1 := ⟨i - 1, by omega⟩
        rw [List.getElem?_cons_succ, List.getElem?_take, if_pos (by omega), List.getElem?_drop, Nat.add_comm]
      obtain ⟨w2, e2⟩ : ∃ w, d[2]? = some w := ⟨_, List.getElem?_eq_getElem (by omega)⟩
      obtain ⟨w3, e3⟩ : ∃ w, d[3]? = some w := ⟨_, List.getElem?_eq_getElem (by omega)⟩
      unfold compactUnpack
      simp only [Nat.reduceAdd] at e4 ⊢
      rw [hi 1 (by omega) (by omega), hi 2 (by omega) (by omega), hi 3 (by omega) (by omega), hi 4 (by omega) (by omega), e1, e2, e3, e4]
      dsimp only
      rw [hx] at hc
      rw [hs, hc, unpack_congr u2 (mem' := d) (by decide) (by decide) (le_refl 1) ?_ ?_ ?_ ?_]
      · have a1 : (memBits ((BitVec.ofNat 32 k :: (d.drop 1).take 4) ++ back)).drop 160 = memBits back := by
          have := memBits_drop ((BitVec.ofNat 32 k :: (d.drop 1).take 4) ++ back) 5
          rw [List.drop_left' h5] at this
          exact this
        have a2 : (memBits d).drop 160 = memBits (d.drop 5) := memBits_drop d 5
        rw [a1, a2, hbits]
      · rw [List.length_append, h5, hbl]; omega
      · omega
      · intro j hj
        rw [List.length_replicate]
        omega
    refine ⟨_, ⟨129, 16, false, (BitVec.ofNat 32 k :: (d.drop 1).take 4) ++ o.fld.take (k - 5)⟩, ys, step, hp, ?_, Or.inr rfl, rfl, ?_, ?_, yl, s0, s1,
      hy' ys step hy⟩
    · unfold write129
      simp only [hn1, hNW, ht, hpk, Option.bind_some, e]
      rw [if_neg (by omega), if_neg (by omega), hr, Int.toNat_natCast, hK, hwords]
    · intro _
      simp only [hwl]
      simp
    · have m5 : ((BitVec.ofNat 32 k :: (d.drop 1).take 4) ++ (o.fld.take (k - 5) ++ List.replicate (area - k) (0 : W))).drop 5 =
          o.fld.take (k - 5) ++ List.replicate (area - k) 0 := List.drop_left' h5
      have m5' : ((BitVec.ofNat 32 k :: (d.drop 1).take 4) ++ (o.fld.take (k - 5) ++ List.replicate (area - k) (0 : W))).take 5 =
          BitVec.ofNat 32 k :: (d.drop 1).take 4 := List.take_left' h5
      unfold readTurbo
      dsimp only
      rw [hn1, hwf, if_neg (by omega), if_pos rfl]
      cases len with
      | double => exact absurd rfl hlen
      | _ =>
        simp only [Option.bind_some]
        rw [m5, m5', eb, Option.bind_some, hun]
        rfl

/-- A field of 16 values, all eighths between 1 and 2. -/
def eighths : List W := (List.range 16).map fun i => FloatPacker.mk false 127 ((i * i * 7919 + i * 31) % 8 * 2 ^ 20)

/-- Written with type 134 and 8 bits it is compressed and comes back. -/
theorem C87_accepted_witness : (write134 1 ⟨134, 134, 8, false⟩ 4 4 1 eighths (List.replicate 16 0)).bind (fun s =>
      (readTurbo 0 ⟨id, id⟩ (fun a _ => a) s .word 4 4 1 (fun _ => 0) (fun _ => 0) (.words (List.replicate 16 0))).map fun f => (s.datyp, f)) =
    some (134, .words eighths) := by
  decide +kernel

/-- With 10 bits the record has 16 words after the keys; the reader clears 36 words of a work field that has less: the sizes of lines
1340 and 2193 do not agree. -/
theorem C87_overrun_witness : ∃ s, write134 1 ⟨134, 134, 10, false⟩ 4 4 1 eighths (List.replicate 16 0) = some s ∧ s.datyp = 134 ∧
    s.words.length = (4 * 4 * 1 * 16 + 63) / 32 + 7 ∧
    readTurbo 0 ⟨id, id⟩ (fun a _ => a) s .word 4 4 1 (fun _ => 0) (fun _ => 0) (.words (List.replicate 16 0)) = none := by
  cases h : write134 1 ⟨134, 134, 10, false⟩ 4 4 1 eighths (List.replicate 16 0) with
  | none => revert h; decide +kernel
  | some s =>
    have : (write134 1 ⟨134, 134, 10, false⟩ 4 4 1 eighths (List.replicate 16 0)).map (fun s => (s.datyp, s.words.length,
      readTurbo 0 ⟨id, id⟩ (fun a _ => a) s .word 4 4 1 (fun _ => 0) (fun _ => 0) (.words (List.replicate 16 0)))) = some (134, 16, none) := by
      decide +kernel
    rw [h] at this
    simp only [Option.map_some, Option.some.injEq, Prod.mk.injEq] at this
    exact ⟨s, rfl, this.1, this.2.1, this.2.2⟩

/-- The hypotheses of `C87_turbo_partial` are met by the field above. -/
example := C87_turbo_partial 0 0 0 ⟨id, id⟩ (fun a _ => a) 1 4 4 8 .word eighths (List.replicate 16 0) (List.replicate 16 0) (fun _ => 0) (fun _ => 0)
  ⟨by decide, by decide, by decide, by decide, by decide⟩ (by decide) (by decide) (by decide)

/-- Those of `C87_real16_partial` too: 1, 2, 3/2, 1. -/
example (u : W) (sub : F32 → F32 → F32) : ∃ s ys, write129 ⟨Props.Grid.nearest 24, Props.Grid.nearest 53⟩ 1 ⟨129, 129, 16, false⟩ 2 2 1
      [0x3f800000#32, 0x40000000#32, 0x3fc00000#32, 0x3f800000#32] [0, 0, 0, 0] = some s ∧
    readTurbo u ⟨Props.Grid.nearest 24, Props.Grid.nearest 53⟩ sub s .word 2 2 1 (fun _ => 0) (fun _ => 0) (.words []) = some (.reals ys) ∧ ys.length = 4 := by
  have D : Dims 2 2 1 16 := ⟨by decide, by decide, by decide, by decide, by decide⟩
  obtain ⟨p, s, ys, step, h1, h2, -, -, -, h3, h4, -⟩ := C87_real16_partial Props.CompactFloat.prec_nearest u sub 1 2 2 .word (by decide)
    [0x3f800000#32, 0x40000000#32, 0x3fc00000#32, 0x3f800000#32] [0, 0, 0, 0] [] (fun _ => 0) (fun _ => 0) D rfl rfl 0x3f800000#32 0x40000000#32
    (by decide) (by decide)
    (by
      intro x hx
      simp only [List.mem_cons, List.not_mem_nil, or_false] at hx
      rcases hx with rfl | rfl | rfl | rfl <;> decide +kernel)
    (by
      have f1 : CompactFloat.fval 0x3f800000#32 = 1 := by
        unfold CompactFloat.fval; rw [show FloatPacker.val 0x3f800000#32 = 2 ^ 149 by decide +kernel]; norm_num
      have f2 : CompactFloat.fval 0x40000000#32 = 2 := by
        unfold CompactFloat.fval; rw [show FloatPacker.val 0x40000000#32 = 2 ^ 150 by decide +kernel]; norm_num
      rw [f1, f2]
      unfold Props.CompactFloat.big
      norm_num)
    (Or.inr (by decide))
  have e := plan_turbo (t := 129) (nb := 16) (by omega) (le_refl _) D
  rw [show (-((16 : Nat) : Int)) = -16 by rfl, h1] at e
  simp only [Option.some.injEq] at e
  subst e
  exact ⟨s, ys, h2, h3, h4⟩

/-- Type 129 with 4 bits: the tokens are stored on 16 bits and read on 4; the second value, 7/4, comes back as 1. -/
theorem C87_narrow_witness : (write129 ⟨id, id⟩ 1 ⟨129, 129, 4, false⟩ 4 4 1 eighths (List.replicate 16 0)).bind (fun s =>
      (readTurbo 0 ⟨id, id⟩ (fun a _ => a) s .word 4 4 1 (fun _ => 0) (fun _ => 0) (.words [])).map fun f =>
        (s.datyp, match f with | .reals l => l[1]? | _ => none)) = some (129, some 1) ∧
    eighths[1]? = some 0x3fe00000#32 := by
  decide +kernel

/-- Two levels: the tenth value, 7/4, comes back as 1 although type 6 keeps it (only the first level is compressed, C52). -/
theorem C87_levels_witness : (write134 1 ⟨134, 134, 4, false⟩ 4 2 2 eighths (List.replicate 16 0)).bind (fun s =>
      (readTurbo 0 ⟨id, id⟩ (fun a _ => a) s .word 4 2 2 (fun _ => 0) (fun _ => 0) (.words (List.replicate 16 0))).map fun f =>
        (s.datyp, match f with | .words l => l[9]? | _ => none)) = some (134, some 0x3f800000#32) ∧ eighths[9]? = some 0x3fe00000#32 ∧
    (writeData 0 ⟨id, id⟩ ⟨6, 6, 4, false⟩ .word 4 2 2 (.words eighths)).bind (fun s =>
      readData 0 ⟨id, id⟩ (fun a _ => a) s .word 4 2 2 (.words (List.replicate 16 0))) = some (.words eighths) := by
  decide +kernel

end Verif.FstData
