import Verif.ArmnCompress
import Verif.CompactIntegerMinMax

/-! # Sequences of tokens of various widths: helper lemmas -/

namespace Verif

/-- Bits of a token sequence. -/
def toksBits (l : List Tok) : List Bool := l.flatMap fun t => toBits t.1 t.2.toNat

/-- Total width. -/
def toksLen (l : List Tok) : Nat := (l.map (·.1)).sum

@[simp] theorem toksBits_nil : toksBits [] = [] := rfl
@[simp] theorem toksBits_cons (t : Tok) (l : List Tok) : toksBits (t :: l) = toBits t.1 t.2.toNat ++ toksBits l := rfl
@[simp] theorem toksBits_append (a b : List Tok) : toksBits (a ++ b) = toksBits a ++ toksBits b := by
  simp [toksBits]
@[simp] theorem toksLen_nil : toksLen [] = 0 := rfl
@[simp] theorem toksLen_cons (t : Tok) (l : List Tok) : toksLen (t :: l) = t.1 + toksLen l := by simp [toksLen]
@[simp] theorem toksLen_append (a b : List Tok) : toksLen (a ++ b) = toksLen a + toksLen b := by
  simp [toksLen]

theorem toksBits_length (l : List Tok) : (toksBits l).length = toksLen l := by
  induction l with
  | nil => rfl
  | cons t l ih => simp [ih]

/-- Every token fits its width, and no width exceeds 31. -/
def TokOK (t : Tok) : Prop := t.1 ≤ 31 ∧ t.2.toNat < 2 ^ t.1

theorem stuffAll_spec (l : List Tok) (s : Writer) (wf : s.WF) (ok : ∀ t ∈ l, TokOK t)
    (room : s.pos + toksLen l ≤ 32 * (s.mem.length + 1)) :
    ∃ s', stuffAll l s = some s' ∧ s'.WF ∧ s'.bits = s.bits ++ toksBits l ∧
      s'.pos = s.pos + toksLen l ∧ s'.mem.length = s.mem.length := by
  induction l generalizing s with
  | nil => exact ⟨s, rfl, wf, by simp, by simp, rfl⟩
  | cons t l ih =>
    obtain ⟨w, t⟩ := t
    have h := ok (w, t) (by simp)
    simp only [toksLen_cons] at room
    obtain ⟨s1, e1, wf1, b1, p1, l1, -⟩ := stuff_spec (tok := t) (bits := w) wf (by have := h.1; simp at this; omega) h.2
      (by have := h.1; simp at this; omega)
      (by
        intro hlt
        have := wf.1
        simp only [Writer.pos] at room
        omega)
    obtain ⟨s2, e2, wf2, b2, p2, l2⟩ := ih s1 wf1 (fun t ht => ok t (by simp [ht])) (by rw [p1, l1]; omega)
    refine ⟨s2, ?_, wf2, ?_, ?_, by rw [l2, l1]⟩
    · simp [stuffAll, e1, e2]
    · rw [b2, b1]; simp
    · rw [p2, p1]; simp; omega

/-- Reading a token that is at the head of the stream. -/
theorem extract_tok {u : W} {mem : List W} {w : Nat} {t : W} {s : Reader} {rest : List Bool} (wf : s.WF)
    (h1 : 1 ≤ w) (h2 : w ≤ 32) (ht : t.toNat < 2 ^ w) (hr : rest ≠ [])
    (hs : s.bits mem = toBits w t.toNat ++ rest) :
    ∃ s', extract u mem w s = some (t, s') ∧ s'.WF ∧ s'.bits mem = rest := by
  have hpos := List.length_pos_iff.2 hr
  obtain ⟨tok, s', e, wf', lt, hb⟩ := extract_spec (u := u) (mem := mem) (size := w) wf h1 h2 (by rw [hs]; simp; omega)
  rw [hs] at hb
  have hl := List.append_inj hb (by simp)
  have : t = tok := BitVec.eq_of_toNat_eq (toBits_inj ht lt hl.1)
  exact ⟨s', this ▸ e, wf', hl.2.symm⟩

theorem bitLen_div (v k : Nat) (h : 2 ^ k ≤ v) : bitLen v = k + bitLen (v / 2 ^ k) := by
  induction k generalizing v with
  | zero => simp
  | succ k ih =>
    have h0 : v ≠ 0 := by have := Nat.two_pow_pos (k + 1); omega
    rw [bitLen, if_neg h0, ih (v / 2) (by rw [Nat.pow_succ] at h; omega), Nat.div_div_eq_div_mul, Nat.pow_succ, Nat.mul_comm 2]
    omega

theorem needRaw_eq (v : Nat) : needRaw v = bitLen v := by
  unfold needRaw
  split
  · subst v; simp [bitLen]
  · split
    · rfl
    · split
      · rfl
      · exact (bitLen_div v 8 (by omega)).symm

/-- `packTokens` leaves header, tokens and zero padding in the complete words of the buffer. -/
theorem packTokens_spec (hdr : W) (toks : List Tok) (z : List W) (ok : ∀ t ∈ toks, TokOK t)
    (hz : 2 ≤ z.length) (room : 32 + toksLen toks ≤ 32 * z.length) :
    ∃ z' n pad, packTokens hdr toks z = some (z', n) ∧ z'.length = z.length ∧ n ≤ z.length ∧ 1 ≤ n ∧
      32 * n = 32 + toksLen toks + pad.length ∧ pad.length < 32 ∧
      z'.take n = hdr :: (z'.take n).drop 1 ∧
      memBits (z'.take n) = toBits 32 hdr.toNat ++ toksBits toks ++ pad := by
  have h0 : 0 < z.length := by omega
  have h1 : 1 < z.length := by omega
  let s0 : Writer := { mem := (z.set 0 hdr).set 1 0, ptr := 1, last := 0, space := 32 }
  have hlen : s0.mem.length = z.length := by simp [s0]
  obtain ⟨s, e, wf, b, p, l⟩ := stuffAll_spec (toks ++ trailer) s0 ⟨by simp [s0], by simp [s0]; omega⟩
    (by
      intro t ht
      rcases List.mem_append.1 ht with ht | ht
      · exact ok t ht
      · simp [trailer] at ht; subst ht; simp [TokOK])
    (by rw [hlen]; simp [Writer.pos, s0, trailer]; omega)
  have hm : s0.mem.take 1 = [hdr] := by
    cases z with
    | nil => simp at h0
    | cons a z => cases z <;> simp [s0]
  have hb0 : s0.bits = toBits 32 hdr.toNat := by
    have : s0.bits = memBits (s0.mem.take 1) ++ [] := by simp [Writer.bits, s0]
    rw [this, hm]; simp
  have ptail : toksLen trailer = 32 := rfl
  have hpos : 32 * s.ptr + (32 - s.space) = 32 + toksLen toks + 32 := by
    have : s.pos = s0.pos + (toksLen toks + 32) := by rw [p]; simp [ptail]
    simp [Writer.pos, s0] at this; omega
  have hsp := wf.1
  have hptr : 1 ≤ s.ptr := by omega
  have hbits := b
  rw [hb0, toksBits_append] at hbits
  simp only [Writer.bits] at hbits
  have hplen : (memBits (s.mem.take s.ptr)).length = 32 * s.ptr := by
    simp; have := wf.2; omega
  have hsplit : memBits (s.mem.take s.ptr) = toBits 32 hdr.toNat ++ toksBits toks ++
      (toksBits trailer).take (32 * s.ptr - (32 + toksLen toks)) := by
    have := congrArg (List.take (32 * s.ptr)) hbits
    rw [List.take_append_of_le_length (by omega), List.take_of_length_le (by omega)] at this
    rw [this, List.append_assoc, List.take_append, List.take_append]
    simp only [toBits_length, toksBits_length]
    rw [List.take_of_length_le (by simp; omega), List.take_of_length_le (by rw [toksBits_length]; omega)]
    congr 3
    omega
  have hs32 : 1 ≤ 32 - s.space := by
    rcases Nat.lt_or_ge s.space 32 with h | h
    · omega
    · -- the last `stuff` of 16 bits never leaves a full register
      exfalso
      have hspace : s.space = 32 := by omega
      rw [show toks ++ trailer = (toks ++ [(16, 0)]) ++ [(16, (0 : W))] by simp [trailer]] at e
      have key : ∀ (l : List Tok) (a b : Writer), stuffAll (l ++ [(16, 0)]) a = some b → a.space ≤ 32 → b.space < 32 := by
        intro l
        induction l with
        | nil =>
          intro a b h ha
          simp only [List.nil_append, stuffAll] at h
          cases hst : stuff 0 16 a with
          | none => rw [hst] at h; simp at h
          | some c =>
            rw [hst] at h; simp at h; subst h
            unfold stuff at hst
            split at hst
            · simp at hst; subst hst; simp; omega
            · simp only at hst
              split at hst
              · split at hst
                · cases hst
                · simp at hst; subst hst; simp; omega
              · cases hst
        | cons t l ih =>
          intro a b h ha
          simp only [List.cons_append, stuffAll] at h
          cases hst : stuff t.2 t.1 a with
          | none => rw [hst] at h; simp at h
          | some c =>
            rw [hst] at h; simp at h
            refine ih c b h ?_
            unfold stuff at hst
            split at hst
            · split at hst
              · simp at hst; subst hst; simp; omega
              · cases hst
            · simp only at hst
              split at hst
              · split at hst
                · cases hst
                · simp at hst; subst hst; simp
              · cases hst
      have := key _ _ _ e (by simp [s0])
      omega
  refine ⟨s.mem, s.ptr, (toksBits trailer).take (32 * s.ptr - (32 + toksLen toks)), ?_, by rw [l, hlen], ?_, hptr, ?_, ?_, ?_, hsplit⟩
  · have c1 : 1 < (z.set 0 hdr).length := by simpa using h1
    simp only [packTokens, store, h0, c1, if_true]
    rw [show ({ mem := (z.set 0 hdr).set 1 0, ptr := 1, last := 0, space := 32 } : Writer) = s0 from rfl, e]
    rfl
  · have := wf.2; rw [l, hlen] at this; exact this
  · simp [toksBits_length, ptail]; omega
  · simp [toksBits_length, ptail]; omega
  · have := hsplit
    cases hc : s.mem.take s.ptr with
    | nil =>
      exfalso
      rw [hc] at hplen; simp at hplen; omega
    | cons a m =>
      rw [hc] at this
      simp only [memBits_cons, List.append_assoc] at this
      have h := (List.append_inj this (by simp)).1
      have : a = hdr := BitVec.eq_of_toNat_eq (toBits_inj a.isLt hdr.isLt h)
      subst this
      simp

/-- The decoder starts at the first token. -/
theorem startDecode_spec {mem : List W} (h : 2 ≤ mem.length) :
    ∃ s, startDecode mem = some s ∧ s.WF ∧ s.bits mem = (memBits mem).drop 32 := by
  have h1 : 1 < mem.length := by omega
  have hg : mem[1]? = some mem[1] := List.getElem?_eq_getElem h1
  refine ⟨{ ptr := 1, word := mem[1], avail := 32 }, by simp [startDecode, hg], ⟨by simp, by simp, by simp⟩, ?_⟩
  have := memBits_drop mem 1
  rw [Nat.mul_one] at this
  rw [this, drop_eq_cons hg, memBits_cons]
  simp only [Reader.bits, Nat.sub_self, Nat.shiftRight_zero]

end Verif
