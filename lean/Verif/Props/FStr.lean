import Verif.FStr
import Mathlib.Tactic

namespace Verif.FStr

/-! # Strings of Fortran and C: what is kept -/

theorem toF_nil (n : Nat) : toF [] n = List.replicate n 32 := by
  induction n with
  | zero => rfl
  | succ n ih => rw [toF, ih, List.replicate_succ]

theorem toF_eq (s : List Nat) (n : Nat) : toF s n = s.take n ++ List.replicate (n - s.length) 32 := by
  induction n generalizing s with
  | zero => simp [toF]
  | succ n ih =>
    cases s with
    | nil => simp [toF_nil]
    | cons c cs => simp [toF, ih]

/-- A C string in a Fortran string of `n` characters: the characters, then blanks. -/
theorem C149_to_fortran (s : List Nat) (n i : Nat) :
    (toF s n).length = n ∧ (toF s n)[i]? = if i < n then some (s.getD i 32) else none := by
  refine ⟨by rw [toF_eq]; simp; omega, ?_⟩
  induction n generalizing s i with
  | zero => simp [toF]
  | succ n ih =>
    cases s with
    | nil => cases i with
      | zero => simp [toF]
      | succ i => simp [toF, ih]
    | cons c cs => cases i with
      | zero => simp [toF]
      | succ i => simp [toF, ih]

theorem strip_spec (r : List Nat) :
    (strip r = none ∧ ∀ c ∈ r, c = 32) ∨
    ∃ k t, strip r = some t ∧ r = List.replicate k 32 ++ t ∧ t ≠ [] ∧ t.head? ≠ some 32 := by
  induction r with
  | nil => left; simp [strip]
  | cons c cs ih =>
    by_cases h : c = 32
    · subst h
      rcases ih with ⟨h1, h2⟩ | ⟨k, t, h1, h2, h3, h4⟩
      · left; simpa [strip, h1] using h2
      · right; exact ⟨k + 1, t, by simp [strip, h1], by rw [h2]; simp [List.replicate_succ], h3, h4⟩
    · right; exact ⟨0, c :: cs, by simp [strip, h], by simp, by simp, by simpa using h⟩

theorem takeWhile_all {s : List Nat} (h : ∀ c ∈ s, c ≠ 0) : s.takeWhile (· != 0) = s := by
  induction s with
  | nil => rfl
  | cons c cs ih =>
    have := h c (by simp)
    simp [this, ih fun d hd => h d (by simp [hd])]

/-- A Fortran string with some character which is not a blank: the blanks at its end, and only those, are taken away. -/
theorem C149_to_c (f : List Nat) (h0 : ∀ c ∈ f, c ≠ 0) (hb : ∃ c ∈ f, c ≠ 32) :
    ∃ t k, toC f true = some t ∧ f = t ++ List.replicate k 32 ∧ t ≠ [] ∧ t.getLast? ≠ some 32 := by
  have hl : 0 < f.length := by obtain ⟨c, hc, _⟩ := hb; exact List.length_pos_of_mem hc
  rcases strip_spec f.reverse with ⟨_, h2⟩ | ⟨k, t, h1, h2, h3, h4⟩
  · obtain ⟨c, hc, hne⟩ := hb
    exact absurd (h2 c (by simpa using hc)) hne
  · have hf : f = t.reverse ++ List.replicate k 32 := by
      have := congrArg List.reverse h2
      simpa using this
    refine ⟨t.reverse, k, ?_, hf, by simpa using h3, by simpa using h4⟩
    have ha : ∀ c ∈ t.reverse, c ≠ 0 := fun c hc => h0 c (by rw [hf]; simp at hc ⊢; exact Or.inl hc)
    simp only [toC, hl, and_self, if_true, h1, Option.map_some, takeWhile_all ha]

example : toC [65, 32, 66, 32, 32] true = some [65, 32, 66] := by decide +kernel

/-- Without removal of blanks a string without NUL is kept. -/
theorem C149_to_c_keep (f : List Nat) (h0 : ∀ c ∈ f, c ≠ 0) : toC f false = some f := by
  simp [toC, takeWhile_all h0]

/-- Removal of blanks leaves the string on its left side exactly when the string is not empty and all blank: the counter
of the loop is not changed. -/
theorem C149_blank_witness (f : List Nat) : toC f true = none ↔ f ≠ [] ∧ ∀ c ∈ f, c = 32 := by
  by_cases hl : 0 < f.length
  · rcases strip_spec f.reverse with ⟨h1, h2⟩ | ⟨k, t, h1, h2, h3, h4⟩
    · simp only [toC, hl, and_self, if_true, h1, Option.map_none, true_iff]
      exact ⟨by intro h; simp [h] at hl, fun c hc => h2 c (by simpa using hc)⟩
    · simp only [toC, hl, and_self, if_true, h1, Option.map_some, reduceCtorEq, false_iff, not_and]
      intro _ hall
      cases t with
      | nil => exact h3 rfl
      | cons c cs =>
        have : c ∈ f := by
          have : c ∈ f.reverse := by rw [h2]; simp
          simpa using this
        exact h4 (by simp [hall c this])
  · have : f = [] := by cases f <;> simp_all
    subst this
    simp [toC]

example : toC [32, 32] true = none := by decide +kernel

/-- A C string goes through a Fortran string which is long enough. -/
theorem C149_round_trip (s : List Nat) (n : Nat) (h0 : ∀ c ∈ s, c ≠ 0) (hs : s ≠ []) (hl : s.getLast? ≠ some 32)
    (hn : s.length ≤ n) : toC (toF s n) true = some s := by
  have hf : toF s n = s ++ List.replicate (n - s.length) 32 := by rw [toF_eq, List.take_of_length_le hn]
  have hlen : 0 < (toF s n).length := by
    rw [hf]; cases s <;> simp_all
  have hst : ∀ k (t : List Nat), t ≠ [] → t.head? ≠ some 32 → strip (List.replicate k 32 ++ t) = some t := by
    intro k t ht hh
    induction k with
    | zero => cases t with
      | nil => exact absurd rfl ht
      | cons c cs => simp at hh; simp [strip, hh]
    | succ k ih => simpa [List.replicate_succ, strip] using ih
  have := hst (n - s.length) s.reverse (by simpa using hs) (by simpa using hl)
  simp only [toC, hlen, and_self, if_true]
  rw [hf, List.reverse_append, List.reverse_replicate, this]
  simp [takeWhile_all h0]

example : toC (toF [65, 32, 66] 6) true = some [65, 32, 66] := by decide +kernel

/-- An array of Fortran strings becomes the array of the C strings. -/
theorem C149_array (n : Nat) (ss : List (List Nat))
    (h : ∀ s ∈ ss, (∀ c ∈ s, c ≠ 0) ∧ s ≠ [] ∧ s.getLast? ≠ some 32 ∧ s.length ≤ n) :
    fill (ss.map fun s => toF s n).flatten n true ss.length = some ss := by
  induction ss with
  | nil => rfl
  | cons s ss ih =>
    obtain ⟨h1, h2, h3, h4⟩ := h s (by simp)
    have hl := (C149_to_fortran s n 0).1
    simp only [List.map_cons, List.flatten_cons, List.length_cons, fill]
    rw [List.take_left' hl, List.drop_left' hl, C149_round_trip s n h1 h2 h3 h4, ih fun t ht => h t (by simp [ht])]

example : fill [65, 32, 32, 66, 67, 32] 3 true 2 = some [[65], [66, 67]] := by decide +kernel

theorem back_spec (s : List Nat) (m : Nat) :
    back s m ≤ m ∧ (∀ i, back s m < i → i ≤ m → pad (s.getD i 0) = true) ∧
    (back s m = 0 ∨ pad (s.getD (back s m) 0) = false) := by
  induction m with
  | zero => simp [back]; omega
  | succ m ih =>
    obtain ⟨h1, h2, h3⟩ := ih
    by_cases hp : pad (s.getD (m + 1) 0) = true
    · simp only [back, hp, if_true]
      refine ⟨by omega, fun i hi hm => ?_, h3⟩
      by_cases he : i = m + 1
      · rw [he]; exact hp
      · exact h2 i hi (by omega)
    · simp only [back, hp]
      refine ⟨by simp, fun i hi hm => ?_, Or.inr ?_⟩
      · simp at hi; omega
      · simpa using hp

/-- The length of a string: all after it is blank or NUL and the last character within is neither. -/
theorem C149_length (s : List Nat) (hs : s ≠ []) :
    ∃ n, ftnStrLen s = some n ∧ n ≤ s.length ∧
      (∀ i, n ≤ i → ∀ c, s[i]? = some c → c = 32 ∨ c = 0) ∧
      (n = 0 ∨ ∃ c, s[n - 1]? = some c ∧ c ≠ 32 ∧ c ≠ 0) := by
  have hl : 0 < s.length := by cases s <;> simp_all
  obtain ⟨h1, h2, h3⟩ := back_spec s (s.length - 1)
  have hpad : ∀ i c, s[i]? = some c → pad (s.getD i 0) = true → c = 32 ∨ c = 0 := by
    intro i c hc hp
    rw [List.getD_eq_getElem?_getD, hc] at hp
    simpa [pad] using hp
  have hlt : ∀ i c, s[i]? = some c → i < s.length := fun i c hc => by
    by_contra hn
    rw [List.getElem?_eq_none (by omega)] at hc
    simp at hc
  by_cases hp : pad (s.getD (back s (s.length - 1)) 0) = true
  · have hz : back s (s.length - 1) = 0 := by
      rcases h3 with h3 | h3
      · exact h3
      · rw [hp] at h3; simp at h3
    refine ⟨0, by rw [hz] at hp; simp only [ftnStrLen, Nat.ne_of_gt hl, if_false, hz, hp, if_true], by omega, fun i _ c hc => ?_, Or.inl rfl⟩
    have := hlt i c hc
    by_cases hi : i = 0
    · rw [hz] at hp; rw [hi] at hc; exact hpad 0 c hc hp
    · exact hpad i c hc (h2 i (by omega) (by omega))
  · refine ⟨back s (s.length - 1) + 1, by simp only [ftnStrLen, Nat.ne_of_gt hl, if_false, hp]; simp, by omega, fun i hi c hc => ?_, Or.inr ?_⟩
    · have := hlt i c hc
      exact hpad i c hc (h2 i (by omega) (by omega))
    · have hb : back s (s.length - 1) < s.length := by omega
      refine ⟨s[back s (s.length - 1)], by simp [hb], ?_⟩
      rw [List.getD_eq_getElem?_getD, List.getElem?_eq_getElem hb] at hp
      simpa [pad] using hp

example : ftnStrLen [65, 32, 66, 0, 32] = some 3 := by decide +kernel
example : ftnStrLen [32, 32] = some 0 := by decide +kernel

/-- A string without characters is read far outside. -/
theorem C149_length_zero_witness : ftnStrLen [] = none := rfl

/-- Small letters: each capital letter becomes the small one, all other characters are kept, the string is cut or filled with blanks. -/
theorem C149_lower (s : List Nat) (n i : Nat) :
    (up2low s n)[i]? = if i < n then
      some (if 65 ≤ s.getD i 32 ∧ s.getD i 32 ≤ 90 then s.getD i 32 + 32 else s.getD i 32) else none := by
  simp only [up2low, List.getElem?_append, List.length_map, List.length_take, List.getElem?_map, List.getElem?_take,
    List.getElem?_replicate, List.getD_eq_getElem?_getD]
  by_cases h1 : i < n <;> by_cases h2 : i < s.length
  · rw [if_pos (by omega)]; simp [h1, h2]
  · rw [if_neg (by omega), if_pos (by omega), if_pos h1, List.getElem?_eq_none (by omega)]; simp
  · rw [if_neg (by omega), if_neg (by omega), if_neg h1]
  · rw [if_neg (by omega), if_neg (by omega), if_neg h1]

/-- Capital letters. -/
theorem C149_upper (s : List Nat) (n i : Nat) :
    (low2up s n)[i]? = if i < n then
      some (if 97 ≤ s.getD i 32 ∧ s.getD i 32 ≤ 122 then s.getD i 32 - 32 else s.getD i 32) else none := by
  simp only [low2up, List.getElem?_append, List.length_map, List.length_take, List.getElem?_map, List.getElem?_take,
    List.getElem?_replicate, List.getD_eq_getElem?_getD]
  by_cases h1 : i < n <;> by_cases h2 : i < s.length
  · rw [if_pos (by omega)]; simp [h1, h2]
  · rw [if_neg (by omega), if_pos (by omega), if_pos h1, List.getElem?_eq_none (by omega)]; simp
  · rw [if_neg (by omega), if_neg (by omega), if_neg h1]
  · rw [if_neg (by omega), if_neg (by omega), if_neg h1]

theorem getD_of {s : List Nat} {i x : Nat} (h : s[i]? = some x) : s.getD i 32 = x := by
  rw [List.getD_eq_getElem?_getD, h]; rfl

/-- Change to small letters forgets only the case: the capital form afterwards is the one of the string itself, and the other way round; each change done twice is done once. -/
theorem C149_case (s : List Nat) (n : Nat) :
    low2up (up2low s n) n = low2up s n ∧ up2low (low2up s n) n = up2low s n ∧
    up2low (up2low s n) n = up2low s n ∧ low2up (low2up s n) n = low2up s n := by
  refine ⟨List.ext_getElem? fun i => ?_, List.ext_getElem? fun i => ?_, List.ext_getElem? fun i => ?_,
    List.ext_getElem? fun i => ?_⟩
  all_goals
    by_cases h : i < n
    · have h1 := C149_lower s n i
      have h2 := C149_upper s n i
      rw [if_pos h] at h1 h2
      have g1 := getD_of h1
      have g2 := getD_of h2
      simp only [C149_lower, C149_upper, if_pos h, g1, g2]
      congr 1
      split_ifs <;> omega
    · simp only [C149_lower, C149_upper, if_neg h]

example : up2low [72, 105, 33] 5 = [104, 105, 33, 32, 32] ∧ low2up [72, 105, 33] 2 = [72, 73] := by decide +kernel

/-- The value of an environment variable: the name ends at its first blank; the value is cut or filled with blanks, a variable
which is not set is blank. -/
theorem C149_getenvc (env : List Nat → Option (List Nat)) (n m : List Nat) (k : Nat) (hn : n ≠ []) (hb : ∀ c ∈ n, c ≠ 32) (len i : Nat) :
    (getenvc env (n ++ List.replicate k 32 ++ (if k = 0 then [] else m)) len)[i]? =
      if i < len then some (((env n).getD []).getD i 32) else none := by
  have ht : (n ++ List.replicate k 32 ++ (if k = 0 then [] else m)).takeWhile (· != 32) = n := by
    have h1 : ∀ (n r : List Nat), (∀ c ∈ n, c ≠ 32) → (n ++ r).takeWhile (· != 32) = n ++ r.takeWhile (· != 32) := by
      intro n r hb
      induction n with
      | nil => rfl
      | cons c cs ih =>
        have := hb c (by simp)
        simp [this, ih fun d hd => hb d (by simp [hd])]
    rw [List.append_assoc, h1 n _ hb]
    cases k with
    | zero => simp
    | succ k => simp [List.replicate_succ]
  have hl : ¬ (n ++ List.replicate k 32 ++ (if k = 0 then [] else m)).length + 1 = 1 := by
    cases n with
    | nil => exact absurd rfl hn
    | cons c cs => simp
  simp only [getenvc, ht]
  cases env n with
  | none =>
    simp [List.getElem?_replicate]
  | some v =>
    simp only [if_neg hl, Option.getD_some, List.drop_replicate]
    rw [← toF_eq]
    exact (C149_to_fortran v len i).2

example : getenvc (fun n => if n = [65, 66] then some [49, 50] else none) [65, 66, 32, 67] 4 = [49, 50, 32, 32] := by decide +kernel

/-- The byte of character `i` is in the word `i / 4`, counted from the other end of the word on a machine with the low byte first. -/
theorem C149_byte_place (little : Bool) (i : Nat) :
    (i ^^^ order little) / 4 = i / 4 ∧ (i ^^^ order little) % 4 = if little then 3 - i % 4 else i % 4 := by
  have e : i ^^^ order little = 4 * (i / 4) + ((i % 4) ^^^ order little) := by
    have h1 : (i ^^^ order little) / 4 = i / 4 := by
      have := Nat.shiftRight_xor_distrib (a := i) (b := order little) (i := 2)
      rw [Nat.shiftRight_eq_div_pow, Nat.shiftRight_eq_div_pow, Nat.shiftRight_eq_div_pow] at this
      cases little <;> simpa [order] using this
    have h2 : (i ^^^ order little) % 4 = (i % 4) ^^^ order little := by
      have := Nat.xor_mod_two_pow (a := i) (b := order little) (n := 2)
      cases little <;> simpa [order] using this
    omega
  have hlt : i % 4 < 4 := Nat.mod_lt _ (by omega)
  rw [e]
  generalize i % 4 = m at *
  have : m = 0 ∨ m = 1 ∨ m = 2 ∨ m = 3 := by omega
  rcases this with rfl | rfl | rfl | rfl <;> cases little <;> simp [order] <;> omega

theorem place_inj (little : Bool) {i j : Nat} (h : i ^^^ order little = j ^^^ order little) : i = j := by
  have := congrArg (· ^^^ order little) h
  simpa [Nat.xor_assoc] using this

/-- All bytes but those of the characters are kept. -/
theorem C149_bytes_frame (little : Bool) (s : List Nat) (r : Nat → Nat) (i fin a : Nat)
    (h : ∀ k, k < s.length → i + k ≤ fin → a ≠ (i + k) ^^^ order little) : strgr4a little s r i fin a = r a := by
  induction s generalizing r i with
  | nil => rfl
  | cons c cs ih =>
    simp only [strgr4a]
    by_cases hi : i ≤ fin
    · rw [if_pos hi, ih _ _ fun k hk hf => by
        have := h (k + 1) (by simp; omega) (by omega)
        rwa [show i + 1 + k = i + (k + 1) from by omega]]
      rw [if_neg (by simpa using h 0 (by simp) (by omega))]
    · rw [if_neg hi]

theorem strgr4a_at (little : Bool) (s : List Nat) (r : Nat → Nat) (i fin k : Nat) (hk : k < s.length) (hf : i + k ≤ fin) :
    strgr4a little s r i fin ((i + k) ^^^ order little) = s[k] := by
  induction s generalizing r i k with
  | nil => simp at hk
  | cons c cs ih =>
    rw [strgr4a, if_pos (by omega)]
    cases k with
    | zero =>
      rw [C149_bytes_frame _ _ _ _ _ _ fun m _ _ he => by have := place_inj little he; omega]
      simp
    | succ k =>
      have := ih (fun a => if a = i ^^^ order little then c else r a) (i + 1) k (by simpa using hk) (by omega)
      rw [show i + (k + 1) = i + 1 + k from by omega, this]
      simp

theorem r4astrg_get (little : Bool) (d : List Nat) (r : Nat → Nat) (i fin k : Nat) (hk : k < d.length) :
    (r4astrg little d r i fin)[k]? = some (if i + k ≤ fin then r ((i + k) ^^^ order little) else d[k]) := by
  induction d generalizing i k with
  | nil => simp at hk
  | cons c cs ih =>
    rw [r4astrg]
    by_cases hi : i ≤ fin
    · rw [if_pos hi]
      cases k with
      | zero => simp [hi]
      | succ k =>
        have := ih (i + 1) k (by simpa using hk)
        simp only [List.getElem?_cons_succ, this, List.getElem_cons_succ]
        rw [show i + (k + 1) = i + 1 + k from by omega]
    · rw [if_neg hi, if_neg (by omega)]
      exact List.getElem?_eq_getElem hk

theorem r4astrg_length (little : Bool) (d : List Nat) (r : Nat → Nat) (i fin : Nat) :
    (r4astrg little d r i fin).length = d.length := by
  induction d generalizing i with
  | nil => rfl
  | cons c cs ih => rw [r4astrg]; split_ifs <;> simp [ih]

/-- Characters put into words come back: those which fit from `i` to `fin`; the rest of the string read into is kept. -/
theorem C149_bytes (little : Bool) (s d : List Nat) (r : Nat → Nat) (i fin : Nat) (hl : d.length = s.length) :
    r4astrg little d (strgr4a little s r i fin) i fin = s.take (fin + 1 - i) ++ d.drop (fin + 1 - i) := by
  apply List.ext_getElem?
  intro k
  by_cases hk : k < s.length
  · rw [r4astrg_get _ _ _ _ _ _ (by omega)]
    by_cases hf : i + k ≤ fin
    · rw [if_pos hf, strgr4a_at _ _ _ _ _ _ hk hf, List.getElem?_append_left (by simp; omega), List.getElem?_take,
        if_pos (by omega), List.getElem?_eq_getElem hk]
    · rw [if_neg hf, List.getElem?_append_right (by simp; omega), List.getElem?_drop, List.getElem?_eq_getElem]
      · congr 1
        congr 1
        simp
        omega
      · simp
        omega
  · rw [List.getElem?_eq_none (by rw [r4astrg_length]; omega), List.getElem?_eq_none (by simp; omega)]

example : r4astrg true [0, 0, 0] (strgr4a true [65, 66, 67] (fun _ => 9) 2 3) 2 3 = [65, 66, 0] ∧
    strgr4a true [65, 66, 67] (fun _ => 9) 2 3 1 = 65 ∧ strgr4a true [65, 66, 67] (fun _ => 9) 2 3 3 = 9 := by decide +kernel

/-- A Fortran string kept with its blanks ends in C at the first NUL. -/
theorem C149_nul (s t : List Nat) (h : 0 ∉ s) : toC (s ++ 0 :: t) false = some s := by
  simp only [toC, Bool.false_eq_true, false_and, if_false, Option.some.injEq]
  induction s with
  | nil => simp
  | cons c s ih =>
    simp only [List.mem_cons, not_or] at h
    simp [Ne.symm h.1, ih h.2]

example : 0 ∉ [65, 32] ∧ toC [65, 32, 0, 66] false = some [65, 32] := by decide +kernel

end Verif.FStr
