import Verif.FstCvt
import Mathlib.Tactic

namespace Verif.FstCvt

/-! # C164: names as words and as characters -/

theorem fit_length (n : Nat) (s : List Nat) : (fit n s).length = n := by simp [fit]

theorem fit_get (n i : Nat) (s : List Nat) (h : i < n) : (fit n s)[i]? = some (s.getD i blank) := by
  rw [fit, List.getElem?_take_of_lt h, List.getElem?_append, List.getD_eq_getElem?_getD]
  split
  · rename_i h1; rw [List.getElem?_eq_getElem h1]; rfl
  · rename_i h1
    rw [List.getElem?_replicate, if_pos (by omega), List.getElem?_eq_none (by omega)]; rfl

theorem fit_self {n : Nat} {s : List Nat} (h : s.length = n) : fit n s = s := by
  rw [fit, ← h, List.take_left]

theorem ext_get {n : Nat} {a b : List Nat} (ha : a.length = n) (hb : b.length = n) (h : ∀ i < n, a.getD i blank = b.getD i blank) : a = b := by
  refine List.ext_getElem? fun i => ?_
  by_cases hi : i < n
  · have := h i hi
    simp only [List.getD_eq_getElem?_getD, List.getElem?_eq_getElem (by omega : i < a.length), List.getElem?_eq_getElem (by omega : i < b.length),
      Option.getD_some] at this
    rw [List.getElem?_eq_getElem (by omega), List.getElem?_eq_getElem (by omega), this]
  · rw [List.getElem?_eq_none (by omega), List.getElem?_eq_none (by omega)]

theorem fit_getD (n i : Nat) (s : List Nat) : (fit n s).getD i blank = if i < n then s.getD i blank else blank := by
  split
  · rename_i h; rw [List.getD_eq_getElem?_getD, fit_get n i s h]; rfl
  · rename_i h; rw [List.getD_eq_getElem?_getD, List.getElem?_eq_none (by rw [fit_length]; omega)]; rfl

theorem take_getD (n i : Nat) (s : List Nat) : (s.take n).getD i blank = if i < n then s.getD i blank else blank := by
  rw [List.getD_eq_getElem?_getD, List.getElem?_take]
  split
  · rw [List.getD_eq_getElem?_getD]
  · rfl

theorem drop_getD (n i : Nat) (s : List Nat) : (s.drop n).getD i blank = s.getD (n + i) blank := by
  rw [List.getD_eq_getElem?_getD, List.getElem?_drop, List.getD_eq_getElem?_getD]

theorem append_getD (i : Nat) (s t : List Nat) : (s ++ t).getD i blank = if i < s.length then s.getD i blank else t.getD (i - s.length) blank := by
  simp only [List.getD_eq_getElem?_getD, List.getElem?_append]
  split <;> rfl

theorem isBlank_iff {s : List Nat} : isBlank s = true ↔ s = List.replicate s.length blank := by
  rw [isBlank, List.all_eq_true, List.eq_replicate_iff]
  simp

theorem replicate_getD (n i : Nat) : (List.replicate n blank).getD i blank = blank := by
  rw [List.getD_eq_getElem?_getD, List.getElem?_replicate]
  split <;> rfl

theorem blank_getD {s : List Nat} (h : isBlank s = true) (i : Nat) : s.getD i blank = blank := by
  have := replicate_getD s.length i
  rwa [← isBlank_iff.1 h] at this

/-- A string without the character 255 gives no word -1 by reading. -/
theorem fit_ne {s : List Nat} (h : 255 ∉ s) (w : Nat) : fit 4 (fit w s) ≠ minus1 ∧ fit 4 s ≠ minus1 := by
  have key : s.getD 0 blank ≠ 255 := by
    cases s with
    | nil => decide
    | cons a s => rw [List.getD_cons_zero]; rintro rfl; exact h List.mem_cons_self
  constructor
  · intro e
    have := congrArg (fun l => l.getD 0 blank) e
    simp only [fit_getD, minus1, List.getD_cons_zero] at this
    split at this
    · split at this
      · exact key this
      · exact absurd this (by decide)
    · exact absurd this (by decide)
  · intro e
    have := congrArg (fun l => l.getD 0 blank) e
    simp only [fit_getD, minus1, List.getD_cons_zero] at this
    split at this
    · exact key this
    · exact absurd this (by decide)

theorem write_read (w v n : Nat) (s : List Nat) (hw : w ≤ n) (hv : w ≤ v) (h4 : v ≤ 4) :
    writeA w n (readA v s) = some (fit n (s.take w)) := by
  rw [writeA, if_pos hw]
  refine congrArg some (ext_get (fit_length _ _) (fit_length _ _) fun i hi => ?_)
  simp only [readA, fit_getD, take_getD]
  by_cases a : i < w
  · simp only [if_pos hi, if_pos a, if_pos (by omega : i < 4), if_pos (by omega : i < v)]
  · simp only [if_pos hi, if_neg a]

theorem fit_take_self {n w : Nat} {s : List Nat} (hn : s.length = n) (h : w = n) : fit n (s.take w) = s := by
  rw [h, ← hn, List.take_length, fit_self rfl]

/-- One name of `n` characters through its word. -/
theorem name_roundtrip (w v n : Nat) (s : List Nat) (hw : w ≤ n) (hv : w ≤ v) (h4 : v ≤ 4) (hc : 255 ∉ s) :
    (if (if isBlank s then minus1 else readA v s) = minus1 then some (List.replicate n blank)
      else writeA w n (if isBlank s then minus1 else readA v s)) = some (fit n (s.take w)) := by
  by_cases hb : isBlank s = true
  · simp only [hb, if_true]
    refine congrArg some (ext_get (by simp) (fit_length _ _) fun i hi => ?_)
    rw [fit_getD, take_getD, if_pos hi, blank_getD hb, replicate_getD, ite_self]
  · simp only [hb, Bool.false_eq_true, if_false]
    rw [if_neg (show readA v s ≠ minus1 from (fit_ne hc v).1), write_read w v n s hw hv h4]

theorem fit_parts3 (s : List Nat) : fit 4 s ++ fit 4 (s.drop 4) ++ fit 4 (s.drop 8) = fit 12 s := by
  refine ext_get (n := 12) (by simp [fit_length]) (fit_length _ _) fun i hi => ?_
  simp only [append_getD, List.length_append, fit_length, fit_getD, drop_getD]
  by_cases a : i < 4
  · simp [a, (by omega : i < 8), hi]
  · by_cases b : i < 8
    · simp [a, b, hi, (by omega : i - 4 < 4), (by omega : 4 + (i - 4) = i)]
    · simp [b, hi, (by omega : i - 8 < 4), (by omega : 8 + (i - 8) = i)]

theorem fit_parts2 (s : List Nat) : fit 4 s ++ fit 4 (s.drop 4) = fit 8 s := by
  refine ext_get (n := 8) (by simp [fit_length]) (fit_length _ _) fun i hi => ?_
  simp only [append_getD, fit_length, fit_getD, drop_getD]
  by_cases a : i < 4
  · simp [a, hi]
  · simp [a, hi, (by omega : i - 4 < 4), (by omega : 4 + (i - 4) = i)]

/-- C164.  Names of 2 or 4 characters, types of 1 or 2, grid types of 1 and labels of 8 or 12, written as words and read back, are
the same, whatever the third word of the label was. -/
theorem C164 (c : Chars) (e3 : List Nat) (hn : c.nom.length = 2 ∨ c.nom.length = 4) (ht : c.typ.length = 1 ∨ c.typ.length = 2)
    (hg : c.grtp.length = 1) (he : c.etik.length = 8 ∨ c.etik.length = 12)
    (h255 : 255 ∉ c.nom ∧ 255 ∉ c.typ ∧ 255 ∉ c.grtp ∧ 255 ∉ c.etik) :
    toChars (toWords c e3) c.nom.length c.typ.length c.grtp.length c.etik.length = some c := by
  obtain ⟨nom, typ, grtp, etik⟩ := c
  simp only at hn ht hg he h255
  obtain ⟨cn, ct, cg, ce⟩ := h255
  have a1 : (if (if isBlank nom then minus1 else readA 4 nom) = minus1 then some (List.replicate nom.length blank)
      else if nom.length > 2 then writeA 4 nom.length (if isBlank nom then minus1 else readA 4 nom)
      else writeA 2 nom.length (if isBlank nom then minus1 else readA 4 nom)) = some nom := by
    rcases hn with h | h
    · rw [if_neg (by omega : ¬ nom.length > 2), name_roundtrip 2 4 _ nom (by omega) (by omega) le_rfl cn, fit_take_self rfl h.symm]
    · rw [if_pos (by omega : nom.length > 2), name_roundtrip 4 4 _ nom (by omega) le_rfl le_rfl cn, fit_take_self rfl h.symm]
  have a2 : (if (if isBlank typ then minus1 else readA 2 typ) = minus1 then some (List.replicate typ.length blank)
      else if typ.length > 1 then writeA 2 typ.length (if isBlank typ then minus1 else readA 2 typ)
      else writeA 1 typ.length (if isBlank typ then minus1 else readA 2 typ)) = some typ := by
    rcases ht with h | h
    · rw [if_neg (by omega : ¬ typ.length > 1), name_roundtrip 1 2 _ typ (by omega) (by omega) (by omega) ct, fit_take_self rfl h.symm]
    · rw [if_pos (by omega : typ.length > 1), name_roundtrip 2 2 _ typ (by omega) le_rfl (by omega) ct, fit_take_self rfl h.symm]
  have a3 : (if (if isBlank grtp then minus1 else readA 1 grtp) = minus1 then some (List.replicate grtp.length blank)
      else writeA 1 grtp.length (if isBlank grtp then minus1 else readA 1 grtp)) = some grtp := by
    rw [name_roundtrip 1 1 _ grtp (by omega) le_rfl (by omega) cg, fit_take_self rfl hg.symm]
  have a4 : (if (if isBlank etik then minus1 else fit 4 etik) = minus1 then some (List.replicate etik.length blank)
      else if etik.length > 8 then (if 12 ≤ etik.length then some (fit etik.length ((if isBlank etik then minus1 else fit 4 etik) ++ fit 4 (etik.drop 4) ++
        (if etik.length > 8 then fit 4 (etik.drop 8) else e3))) else none)
      else (if 8 ≤ etik.length then some (fit etik.length ((if isBlank etik then minus1 else fit 4 etik) ++ fit 4 (etik.drop 4))) else none)) = some etik := by
    by_cases hb : isBlank etik = true
    · simp only [hb, if_true]; exact congrArg some (isBlank_iff.1 hb).symm
    · simp only [hb, Bool.false_eq_true, if_false, if_neg (fit_ne ce 4).2]
      rcases he with h | h
      · rw [if_neg (by omega : ¬ etik.length > 8), if_pos (by omega : 8 ≤ etik.length), fit_parts2, ← h, fit_self rfl, fit_self rfl]
      · rw [if_pos (by omega : etik.length > 8), if_pos (by omega : etik.length > 8), if_pos (by omega : 12 ≤ etik.length), fit_parts3, ← h, fit_self rfl, fit_self rfl]
  simp only [toWords, toChars, a1, a2, a3, a4, Option.bind_some]

/-- C164.  The word of a name, the word -1 too, comes back from a string of four characters unless it is blank (it is -1 then). -/
theorem C164_words (w : Words) (ln : w.nom.length = 4) (hn : w.nom ≠ List.replicate 4 blank) :
    ∀ c, toChars w 4 2 1 12 = some c → (toWords c w.e3).nom = w.nom := by
  intro c h
  unfold toChars at h
  by_cases hm : w.nom = minus1
  · rw [if_pos hm, Option.bind_some] at h
    rw [Option.bind_eq_some_iff] at h; obtain ⟨x, _, h⟩ := h
    rw [Option.bind_eq_some_iff] at h; obtain ⟨y, _, h⟩ := h
    rw [Option.bind_eq_some_iff] at h; obtain ⟨z, _, h⟩ := h
    rw [← Option.some.inj h, hm]; rfl
  · rw [if_neg hm, if_pos (by decide), writeA, if_pos (by decide), Option.bind_some, ← ln, List.take_length, fit_self rfl] at h
    rw [Option.bind_eq_some_iff] at h; obtain ⟨x, _, h⟩ := h
    rw [Option.bind_eq_some_iff] at h; obtain ⟨y, _, h⟩ := h
    rw [Option.bind_eq_some_iff] at h; obtain ⟨z, _, h⟩ := h
    rw [← Option.some.inj h]
    simp only [toWords]
    rw [if_neg, readA, ← ln, fit_self rfl, fit_self rfl]
    intro hb
    have := isBlank_iff.1 hb
    rw [ln] at this
    exact hn this

/-- C164.  Exactly which lengths are accepted: for words which are not -1 the write fails for names of 0, 1 and 3 characters, for
types and grid types of none, for labels under 8 and for those of 9 to 11. -/
theorem C164_lengths (w : Words) (nn nt ng ne : Nat) (h : w.nom ≠ minus1 ∧ w.typ ≠ minus1 ∧ w.grtp ≠ minus1 ∧ w.e1 ≠ minus1) :
    (toChars w nn nt ng ne).isSome = true ↔ (nn = 2 ∨ 4 ≤ nn) ∧ 1 ≤ nt ∧ 1 ≤ ng ∧ (ne = 8 ∨ 12 ≤ ne) := by
  obtain ⟨h1, h2, h3, h4⟩ := h
  unfold toChars
  simp only [if_neg h1, if_neg h2, if_neg h3, if_neg h4, writeA]
  have e1 : (nn = 2 ∨ 4 ≤ nn) ↔ (nn > 2 ∧ 4 ≤ nn) ∨ (¬ nn > 2 ∧ 2 ≤ nn) := by omega
  have e2 : 1 ≤ nt ↔ (nt > 1 ∧ 2 ≤ nt) ∨ (¬ nt > 1 ∧ 1 ≤ nt) := by omega
  have e4 : (ne = 8 ∨ 12 ≤ ne) ↔ (ne > 8 ∧ 12 ≤ ne) ∨ (¬ ne > 8 ∧ 8 ≤ ne) := by omega
  refine Iff.trans ?_ (and_congr e1.symm (and_congr e2.symm (and_congr_right fun _ => e4.symm)))
  by_cases a : nn > 2 <;> by_cases b : nt > 1 <;> by_cases d : ne > 8 <;> simp only [a, b, d, if_true, if_false, true_and, not_true_eq_false,
    false_and, or_false, false_or, not_false_eq_true]
  all_goals
    (split
     · rename_i g1
       rw [Option.bind_some]
       split
       · rename_i g2
         rw [Option.bind_some]
         split
         · rename_i g3
           rw [Option.bind_some]
           split
           · rename_i g4; simp [g1, g2, g3, g4]
           · rename_i g4; simp [g4]
         · rename_i g3; simp [g3]
       · rename_i g2; simp [g2]
     · rename_i g1; simp [g1])

example : toWords ⟨[84, 84], [80], [71], [82, 49, 32, 32, 32, 32, 32, 32]⟩ [0, 0, 0, 0]
    = ⟨[84, 84, 32, 32], [80, 32, 32, 32], [71, 32, 32, 32], [82, 49, 32, 32], [32, 32, 32, 32], [0, 0, 0, 0]⟩ := by decide +kernel

/-- C164.  A label which begins with the characters of the word -1 is lost. -/
theorem C164_label_witness : toChars (toWords ⟨[84, 84], [80], [71], [255, 255, 255, 255, 82, 49, 32, 32]⟩ [0, 0, 0, 0]) 2 1 1 8
    = some ⟨[84, 84], [80], [71], List.replicate 8 32⟩ := by decide +kernel


end Verif.FstCvt
