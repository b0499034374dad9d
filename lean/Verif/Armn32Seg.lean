import Verif.Armn32
import Verif.ArmnRound

/-! # Streams inside a larger array: helper lemmas for `Armn32` -/

namespace Verif.Armn32

open Verif

/-- A successful `stuff` had room for its word. -/
theorem stuff_room {tok : W} {bits : Nat} {s s' : Writer} (h : stuff tok bits s = some s') :
    s.space < bits → s.ptr < s.mem.length := by
  intro c
  unfold stuff at h
  rw [if_neg (by omega)] at h
  dsimp only at h
  split at h
  · cases hs : store s.mem s.ptr (s.last <<< s.space ||| tok >>> (bits - s.space)) with
    | none => rw [hs] at h; cases h
    | some m => exact (store_eq hs).1
  · cases h

/-- A `stuff` leaves the words in front of the pointer alone. -/
theorem stuff_keep {tok : W} {bits : Nat} {s s' : Writer} (h : stuff tok bits s = some s') :
    s.ptr ≤ s'.ptr ∧ ∀ j : Nat, j < s.ptr → s'.mem[j]? = s.mem[j]? := by
  unfold stuff at h
  split at h
  · split at h
    · cases h; exact ⟨Nat.le_refl _, fun _ _ => rfl⟩
    · cases h
  · dsimp only at h
    split at h
    · cases hs : store s.mem s.ptr (s.last <<< s.space ||| tok >>> (bits - s.space)) with
      | none => rw [hs] at h; cases h
      | some m =>
        rw [hs] at h
        cases h
        obtain ⟨-, rfl⟩ := store_eq hs
        refine ⟨Nat.le_succ _, fun j hj => ?_⟩
        exact List.getElem?_set_ne (by omega)
    · cases h

theorem stuffAll_append (a b : List Tok) (s : Writer) :
    stuffAll (a ++ b) s = (stuffAll a s).bind (stuffAll b) := by
  induction a generalizing s with
  | nil => rfl
  | cons t a ih =>
    obtain ⟨w, t⟩ := t
    simp only [List.cons_append, stuffAll]
    cases stuff t w s with
    | none => rfl
    | some s1 => exact ih s1

theorem stuffAll_some (l : List Tok) (s s' : Writer) (wf : s.WF) (ok : ∀ t ∈ l, TokOK t) (h : stuffAll l s = some s') :
    s'.WF ∧ s'.bits = s.bits ++ toksBits l ∧ s'.pos = s.pos + toksLen l ∧ s'.mem.length = s.mem.length ∧
      s.ptr ≤ s'.ptr ∧ ∀ j : Nat, j < s.ptr → s'.mem[j]? = s.mem[j]? := by
  induction l generalizing s with
  | nil => cases h; exact ⟨wf, by simp, by simp, rfl, Nat.le_refl _, fun _ _ => rfl⟩
  | cons t l ih =>
    obtain ⟨w, t⟩ := t
    simp only [stuffAll] at h
    cases h1 : stuff t w s with
    | none => rw [h1] at h; cases h
    | some s1 =>
      rw [h1] at h
      have ht := ok (w, t) (by simp)
      obtain ⟨s2, e2, wf2, b2, p2, l2, -⟩ := stuff_spec (tok := t) (bits := w) wf (by have := ht.1; simp at this; omega) ht.2
        (by have := ht.1; simp at this; omega) (stuff_room h1)
      rw [h1] at e2
      cases e2
      obtain ⟨wf3, b3, p3, l3, q3, k3⟩ := ih s1 wf2 (fun t ht => ok t (by simp [ht])) h
      obtain ⟨q1, k1⟩ := stuff_keep h1
      refine ⟨wf3, by rw [b3, b2]; simp, by rw [p3, p2]; simp; omega, by rw [l3, l2], by omega, fun j hj => ?_⟩
      rw [k3 j (by omega), k1 j hj]

/-- The last token of a stream leaves something in the register. -/
theorem stuffAll_space (l : List Tok) (s s' : Writer) (h : stuffAll (l ++ trailer) s = some s') (hs : s.space ≤ 32) :
    s'.space < 32 := by
  have one : ∀ (tok : W) (w : Nat) (a b : Writer), stuff tok w a = some b → a.space ≤ 32 → b.space ≤ 32 ∧ (0 < w → b.space < 32) := by
    intro tok w a b h ha
    unfold stuff at h
    split at h
    · split at h
      · cases h; simp; omega
      · cases h
    · dsimp only at h
      split at h
      · cases hs : store a.mem a.ptr (a.last <<< a.space ||| tok >>> (w - a.space)) with
        | none => rw [hs] at h; cases h
        | some m => rw [hs] at h; cases h; simp; omega
      · cases h
  induction l generalizing s with
  | nil =>
    simp only [List.nil_append, trailer, stuffAll] at h
    cases h1 : stuff 0 16 s with
    | none => rw [h1] at h; cases h
    | some s1 =>
      rw [h1] at h
      dsimp only at h
      cases h2 : stuff 0 16 s1 with
      | none => rw [h2] at h; cases h
      | some s2 =>
        rw [h2] at h
        cases h
        exact (one _ _ _ _ h2 (one _ _ _ _ h1 hs).1).2 (by omega)
  | cons t l ih =>
    obtain ⟨w, t⟩ := t
    simp only [List.cons_append, stuffAll] at h
    cases h1 : stuff t w s with
    | none => rw [h1] at h; cases h
    | some s1 => rw [h1] at h; exact ih s1 h (one _ _ _ _ h1 hs).1

/-- The words from `b` on hold the tokens, in `n` words, and one more word follows. -/
structure Seg (mem : List W) (b n : Nat) (toks : List Tok) : Prop where
  room : b + n < mem.length
  bits : ∃ pad, memBits ((mem.drop b).take n) = toksBits toks ++ pad

theorem Seg.congr {mem mem' : List W} {b n : Nat} {toks : List Tok} (h : Seg mem b n toks)
    (hl : b + n < mem'.length) (hk : ∀ j : Nat, b ≤ j → j < b + n → mem'[j]? = mem[j]?) : Seg mem' b n toks := by
  refine ⟨hl, ?_⟩
  have : (mem'.drop b).take n = (mem.drop b).take n := by
    apply List.ext_getElem?
    intro i
    simp only [List.getElem?_take, List.getElem?_drop]
    split
    · exact hk _ (by omega) (by omega)
    · rfl
  rw [this]
  exact h.bits

/-- Reading at the start of a stream. -/
theorem Seg.start {mem : List W} {b n : Nat} {toks : List Tok} (h : Seg mem b n toks) :
    ∃ s rest, startRead mem b = some s ∧ s.WF ∧ rest ≠ [] ∧ s.bits mem = toksBits toks ++ rest := by
  obtain ⟨hr, pad, hb⟩ := h
  have hlt : b < mem.length := by omega
  have hg : mem[b]? = some mem[b] := List.getElem?_eq_getElem hlt
  refine ⟨{ ptr := b, word := mem[b], avail := 32 }, pad ++ memBits (mem.drop (b + n)), by simp [startRead, hg],
    ⟨by simp, by simp, by simp⟩, ?_, ?_⟩
  · intro h
    have := congrArg List.length h
    simp at this
    omega
  · have e : mem.drop b = (mem.drop b).take n ++ mem.drop (b + n) := by
      rw [← List.drop_drop, List.take_append_drop]
    have e2 : (Reader.bits mem { ptr := b, word := mem[b], avail := 32 }) = memBits (mem.drop b) := by
      rw [drop_eq_cons hg, memBits_cons]
      simp only [Reader.bits, Nat.sub_self, Nat.shiftRight_zero]
    rw [e2, e, memBits_append, hb, List.append_assoc]

theorem startWrite_eq {mem : List W} {base : Nat} {s : Writer} (h : startWrite mem base = some s) :
    base < mem.length ∧ s = { mem := mem.set base 0, ptr := base, last := 0, space := 32 } := by
  unfold startWrite at h
  cases hs : store mem base 0 with
  | none => rw [hs] at h; cases h
  | some m =>
    rw [hs] at h
    obtain ⟨h1, rfl⟩ := store_eq hs
    exact ⟨h1, by simpa using h.symm⟩

theorem startWrite_some {mem : List W} {base : Nat} (h : base < mem.length) :
    startWrite mem base = some { mem := mem.set base 0, ptr := base, last := 0, space := 32 } := by
  simp [startWrite, store, h]

/-- A stream written from word `base` on. -/
theorem stream_spec {mem : List W} {base : Nat} {toks : List Tok} {s s' : Writer} (hs : startWrite mem base = some s)
    (ok : ∀ t ∈ toks, TokOK t) (h : stuffAll (toks ++ trailer) s = some s') (room : s'.ptr < mem.length) :
    s'.mem.length = mem.length ∧ base ≤ s'.ptr ∧ Seg s'.mem base (s'.ptr - base) toks ∧
      32 * (s'.ptr - base) < toksLen toks + 32 ∧ toksLen toks ≤ 32 * (s'.ptr - base) ∧
      ∀ j : Nat, j < base → s'.mem[j]? = mem[j]? := by
  obtain ⟨hb, rfl⟩ := startWrite_eq hs
  have hok : ∀ t ∈ toks ++ trailer, TokOK t := by
    intro t ht
    rcases List.mem_append.1 ht with ht | ht
    · exact ok t ht
    · simp [trailer] at ht; subst ht; simp [TokOK]
  obtain ⟨wf, b, p, l, q, k⟩ := stuffAll_some _ _ _ ⟨by simp, by simp; omega⟩ hok h
  have hsp := stuffAll_space _ _ _ h (by simp)
  have hl : s'.mem.length = mem.length := by rw [l]; simp
  have ptail : toksLen trailer = 32 := rfl
  simp only [Writer.pos, toksLen_append, ptail] at p
  simp only at q k
  have hk : ∀ j : Nat, j < base → s'.mem[j]? = mem[j]? := fun j hj => by
    rw [k j hj]; exact List.getElem?_set_ne (by omega)
  refine ⟨hl, q, ⟨by omega, ?_⟩, by omega, by omega, hk⟩
  refine ⟨(toksBits trailer).take (32 * (s'.ptr - base) - toksLen toks), ?_⟩
  have e1 : memBits ((s'.mem.drop base).take (s'.ptr - base)) = ((memBits (s'.mem.take s'.ptr)).drop (32 * base)) := by
    rw [memBits_drop, List.drop_take]
  have hpl : (memBits (s'.mem.take s'.ptr)).length = 32 * s'.ptr := by simp; omega
  have hbl : (memBits ((mem.set base 0).take base)).length = 32 * base := by simp; omega
  have hb0 : Writer.bits { mem := mem.set base 0, ptr := base, last := 0, space := 32 } = memBits ((mem.set base 0).take base) := by
    simp [Writer.bits]
  rw [hb0] at b
  simp only [Writer.bits, toksBits_append] at b
  have b' := congrArg (fun l => (l.take (32 * s'.ptr)).drop (32 * base)) b
  rw [List.take_append_of_le_length (by omega), List.take_of_length_le (by omega)] at b'
  rw [e1, b', List.take_append, List.drop_append_of_le_length (by rw [List.length_take]; omega),
    List.drop_of_length_le (by rw [List.length_take]; omega), List.nil_append, hbl, List.take_append]
  rw [List.take_of_length_le (by rw [toksBits_length]; omega), toksBits_length]
  congr 2
  omega

/-- Room is enough for a stream to be written. -/
theorem stream_some {mem : List W} {base : Nat} {toks : List Tok} (ok : ∀ t ∈ toks, TokOK t)
    (hb : base < mem.length) (room : 32 * base + toksLen toks + 32 ≤ 32 * mem.length) :
    ∃ s s', startWrite mem base = some s ∧ stuffAll (toks ++ trailer) s = some s' ∧ s'.ptr < mem.length := by
  have hok : ∀ t ∈ toks ++ trailer, TokOK t := by
    intro t ht
    rcases List.mem_append.1 ht with ht | ht
    · exact ok t ht
    · simp [trailer] at ht; subst ht; simp [TokOK]
  have ptail : toksLen trailer = 32 := rfl
  obtain ⟨s', e, wf, -, p, l⟩ := stuffAll_spec (toks ++ trailer)
    { mem := mem.set base 0, ptr := base, last := 0, space := 32 } ⟨by simp, by simp; omega⟩ hok
    (by simp only [Writer.pos, toksLen_append, ptail, List.length_set]; omega)
  refine ⟨_, s', startWrite_some hb, e, ?_⟩
  have hsp := stuffAll_space _ _ _ e (by simp)
  simp only [Writer.pos, toksLen_append, ptail] at p
  omega

end Verif.Armn32
