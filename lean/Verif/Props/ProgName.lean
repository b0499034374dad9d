import Verif.ProgName
import Mathlib.Tactic
import Mathlib.Data.Nat.Digits.Lemmas

namespace Verif.ProgName

/-! # C156: a name of an output file can be read back -/

/-- The number which digits mean. -/
def val (l : List ℕ) : ℕ := l.foldl (fun a c => a * 10 + (c - 48)) 0

def isDigit (c : ℕ) : Bool := 48 ≤ c && c ≤ 57

/-- What a name says. -/
structure Said where
  pre : List ℕ
  date : ℕ
  hour : ℕ
  time : Option (ℕ × ℕ)
  pe : Option (ℕ × ℕ)
  num : ℕ
  unit : List ℕ
deriving DecidableEq

/-- The number and the unit, after the underscore. -/
def tailOf (pre : List ℕ) (date hour : ℕ) (time pe : Option (ℕ × ℕ)) (t : List ℕ) : Said :=
  { pre := pre, date := date, hour := hour, time := time, pe := pe, num := val (t.takeWhile isDigit), unit := (t.dropWhile isDigit).takeWhile (· != 32) }

/-- A reader of names `ppYYYYMMDDhh[mnss][-XX-YY]_ddd[U]`. -/
def readName (s : List ℕ) : Said :=
  let rest := s.drop 12
  let d := rest.takeWhile isDigit
  let rest2 := rest.dropWhile isDigit
  let time := if d = [] then none else some (val (d.take 2), val (d.drop 2))
  if rest2.head? = some 45 then
    tailOf (s.take 2) (val ((s.drop 2).take 8)) (val ((s.drop 10).take 2)) time (some (val ((rest2.drop 1).take 2), val ((rest2.drop 4).take 2))) (rest2.drop 7)
  else tailOf (s.take 2) (val ((s.drop 2).take 8)) (val ((s.drop 10).take 2)) time none (rest2.drop 1)

theorem dig_length (k n : ℕ) : (dig k n).length = k := by
  induction k generalizing n with
  | zero => rfl
  | succ k ih => simp [dig, ih]

theorem dig_digit (k n : ℕ) : ∀ c ∈ dig k n, isDigit c = true := by
  induction k generalizing n with
  | zero => simp [dig]
  | succ k ih =>
    intro c hc
    simp only [dig, List.mem_append, List.mem_singleton] at hc
    rcases hc with hc | rfl
    · exact ih _ c hc
    · simp [isDigit]; omega

theorem dig_val (k n : ℕ) : val (dig k n) = n % 10 ^ k := by
  induction k generalizing n with
  | zero => simp [dig, val, Nat.mod_one]
  | succ k ih =>
    have := ih (n / 10)
    simp only [val] at this
    simp only [dig, val, List.foldl_append, List.foldl_cons, List.foldl_nil, this]
    rw [show 48 + n % 10 - 48 = n % 10 by omega, pow_succ, Nat.mul_comm (10 ^ k) 10, Nat.mod_mul]
    omega

theorem dec_val (k n : ℕ) : val (dec k n) = n := by
  rw [dec, dig_val]
  apply Nat.mod_eq_of_lt
  exact lt_of_lt_of_le (Nat.lt_base_pow_length_digits (by norm_num)) (Nat.pow_le_pow_right (by norm_num) (le_max_right _ _))

theorem dec_digit (k n : ℕ) : ∀ c ∈ dec k n, isDigit c = true := dig_digit _ _

theorem dec_length (k n : ℕ) (h : n < 10 ^ k) : (dec k n).length = k := by
  rw [dec, dig_length]
  exact max_eq_left ((Nat.digits_length_le_iff (by norm_num) n).2 h)

theorem dec_length_le (k n b : ℕ) (h : n < 10 ^ b) (hk : k ≤ b) : (dec k n).length ≤ b := by
  rw [dec, dig_length]
  exact max_le hk ((Nat.digits_length_le_iff (by norm_num) n).2 h)

theorem take_digits (l : List ℕ) (c : ℕ) (t : List ℕ) (h : ∀ x ∈ l, isDigit x = true) (hc : isDigit c = false) :
    (l ++ c :: t).takeWhile isDigit = l ∧ (l ++ c :: t).dropWhile isDigit = c :: t := by
  induction l with
  | nil => simp [hc]
  | cons x l ih =>
    have hx := h x (by simp)
    have := ih (fun y hy => h y (by simp [hy]))
    simp [hx, this]

theorem take_digits_nil (l : List ℕ) (h : ∀ x ∈ l, isDigit x = true) : l.takeWhile isDigit = l ∧ l.dropWhile isDigit = [] := by
  induction l with
  | nil => simp
  | cons x l ih =>
    have hx := h x (by simp)
    have := ih (fun y hy => h y (by simp [hy]))
    simp [hx, this]

/-- The end of a name: number, unit, blanks. -/
theorem tail_spec (pre : List ℕ) (date hour : ℕ) (time pe : Option (ℕ × ℕ)) (k n b : ℕ) (u : List ℕ) (hb : 1 ≤ b)
    (hu : ∀ c, u.head? = some c → isDigit c = false) :
    tailOf pre date hour time pe (dec k n ++ units u ++ List.replicate b 32) =
      { pre := pre, date := date, hour := hour, time := time, pe := pe, num := n, unit := units u } := by
  have hbl : List.replicate b 32 = 32 :: List.replicate (b - 1) 32 := by
    obtain ⟨c, rfl⟩ : ∃ c, b = c + 1 := ⟨b - 1, by omega⟩
    rfl
  have hspace : ∀ j, (List.replicate j 32).takeWhile (fun c : ℕ => c != 32) = [] := by
    intro j; cases j <;> simp [List.replicate_succ]
  rcases hcase : units u with _ | ⟨c, cs⟩
  · rw [List.append_nil, tailOf, hbl]
    have := take_digits (dec k n) 32 (List.replicate (b - 1) 32) (dec_digit k n) rfl
    rw [this.1, this.2, dec_val, ← hbl, hspace]
  · obtain ⟨hd, hns, rfl⟩ : isDigit c = false ∧ c ≠ 32 ∧ cs = [] := by
      unfold units at hcase
      cases u with
      | nil => simp at hcase
      | cons x xs =>
        have hx := hu x rfl
        simp only at hcase
        split at hcase
        · simp at hcase
        · rename_i hne
          simp only [List.cons.injEq] at hcase
          obtain ⟨rfl, rfl⟩ := hcase
          refine ⟨?_, ?_, rfl⟩
          · unfold tolower; split
            · simp [isDigit]; omega
            · exact hx
          · unfold tolower; split <;> omega
    rw [tailOf, List.append_assoc]
    have := take_digits (dec k n) c (List.replicate b 32) (dec_digit k n) hd
    simp only [List.cons_append, List.nil_append]
    rw [this.1, this.2, dec_val]
    simp [hns, hspace]

/-- The small letter of a capital one. -/
def low (c : ℕ) : ℕ := if c ∈ List.range' 65 26 then c + 97 - 65 else c

theorem low_eq : low = tolower := by
  funext c
  simp only [low, tolower, List.mem_range'_1]
  split <;> split <;> omega

/-- What was asked for. -/
def asked (r : Req) : Said :=
  { pre := (r.pre.take 2).map low
    date := r.date.toNat
    hour := r.hour.toNat
    time := if r.min ≠ -1 ∧ r.sec ≠ -1 then some (r.min.toNat, r.sec.toNat) else none
    pe := if r.npex ≠ -1 ∧ r.npey ≠ -1 then some (r.npex.toNat, r.npey.toNat) else none
    num := r.num.toNat
    unit := if r.unit.head? = some 32 ∨ r.unit.head? = some 0 then [] else (r.unit.take 1).map low }

theorem asked_unit (u : List ℕ) : (if u.head? = some 32 ∨ u.head? = some 0 then [] else (u.take 1).map low) = units u := by
  rw [low_eq]
  cases u with
  | nil => rfl
  | cons c t => simp [units]

/-- The parts of an accepted name. -/
theorem fname_parts (r : Req) (s : List ℕ) (h : fname r = some s) :
    ∃ c1 c2 k, (r.pre.take 2).map tolower = [c1, c2] ∧ 3 ≤ k ∧ k ≤ 9 ∧ (0 ≤ r.date ∧ r.date ≤ 99999999) ∧ (0 ≤ r.hour ∧ r.hour ≤ 23) ∧
      0 ≤ r.num ∧ (r.min ≠ -1 ∧ r.sec ≠ -1 → 0 ≤ r.min ∧ r.min ≤ 59 ∧ 0 ≤ r.sec ∧ r.sec ≤ 59) ∧
      (r.npex ≠ -1 ∧ r.npey ≠ -1 → 0 ≤ r.npex ∧ r.npex ≤ 99 ∧ 0 ≤ r.npey ∧ r.npey ≤ 99) ∧
      s = [c1, c2] ++ (dec 8 r.date.toNat ++ (dec 2 r.hour.toNat ++
        ((if r.min ≠ -1 ∧ r.sec ≠ -1 then dec 2 r.min.toNat ++ dec 2 r.sec.toNat else []) ++
        ((if r.npex ≠ -1 ∧ r.npey ≠ -1 then 45 :: dec 2 r.npex.toNat ++ 45 :: dec 2 r.npey.toNat else []) ++
        95 :: (dec k r.num.toNat ++ units r.unit))))) := by
  unfold fname at h
  split at h
  · rename_i c1 c2 t hp
    simp only at h
    by_cases g1 : (!(isalpha c1 && isalpha c2)) = true
    · rw [if_pos g1] at h; exact absurd h (by simp)
    rw [if_neg g1] at h
    by_cases g2 : r.date < 0 ∨ r.date > 99999999
    · rw [if_pos g2] at h; exact absurd h (by simp)
    rw [if_neg g2] at h
    by_cases g3 : r.hour < 0 ∨ r.hour > 23
    · rw [if_pos g3] at h; exact absurd h (by simp)
    rw [if_neg g3] at h
    by_cases g4 : r.num < 0
    · rw [if_pos g4] at h; exact absurd h (by simp)
    rw [if_neg g4] at h
    by_cases g5 : r.min ≠ -1 ∧ r.sec ≠ -1 ∧ (r.min < 0 ∨ r.min > 59 ∨ r.sec < 0 ∨ r.sec > 59)
    · rw [if_pos g5] at h; exact absurd h (by simp)
    rw [if_neg g5] at h
    by_cases g6 : r.npex ≠ -1 ∧ r.npey ≠ -1 ∧ (r.npex < 0 ∨ r.npex > 99 ∨ r.npey < 0 ∨ r.npey > 99)
    · rw [if_pos g6] at h; exact absurd h (by simp)
    rw [if_neg g6] at h
    refine ⟨tolower c1, tolower c2, (if r.numlen < 3 ∨ r.numlen > 9 then 3 else r.numlen).toNat, by simp [hp], ?_, ?_, by omega, by omega,
      by omega, by omega, by omega, ?_⟩
    · split <;> omega
    · split <;> omega
    · rw [← Option.some.inj h]
      simp only [List.append_assoc, List.cons_append]
  · exact absurd h (by simp)

/-- **C156**.  An accepted name which fits in `f_nom` with a blank after it, of a unit which is not a digit, can be read back:
prefix in small letters, date, hour, minutes and seconds, processor, number and unit. -/
theorem C156 (l1 : ℕ) (r : Req) (f : List ℕ) (h : progFilename l1 r = (f, 0)) (hn : r.num < 2 ^ 31) (hl : 35 ≤ l1)
    (hu : ∀ c, r.unit.head? = some c → isDigit c = false) : readName f = asked r := by
  unfold progFilename at h
  rw [if_neg (by omega)] at h
  cases hs : fname r with
  | none => rw [hs] at h; simp at h
  | some s =>
    rw [hs] at h
    obtain ⟨c1, c2, k, hp, hk1, hk2, hd, hh, hnum, hms, hpe, he⟩ := fname_parts r s hs
    have hf : f = fit l1 s := (Prod.ext_iff.1 h).1.symm
    have l8 : (dec 8 r.date.toNat).length = 8 := dec_length _ _ (by omega)
    have l2 : (dec 2 r.hour.toNat).length = 2 := dec_length _ _ (by omega)
    have lu : (units r.unit).length ≤ 1 := by
      unfold units
      split
      · simp
      · split <;> simp
    have ln : (dec k r.num.toNat).length ≤ 10 := dec_length_le _ _ _ (by omega) (by omega)
    -- minutes and seconds
    generalize hA : (if r.min ≠ -1 ∧ r.sec ≠ -1 then dec 2 r.min.toNat ++ dec 2 r.sec.toNat else []) = A at he
    generalize hB : (if r.npex ≠ -1 ∧ r.npey ≠ -1 then 45 :: dec 2 r.npex.toNat ++ 45 :: dec 2 r.npey.toNat else []) = B at he
    have lA : A.length ≤ 4 := by
      rw [← hA]; split
      · rename_i c
        have := hms c
        rw [List.length_append, dec_length 2 _ (by omega), dec_length 2 _ (by omega)]
      · simp
    have lB : B.length ≤ 6 := by
      rw [← hB]; split
      · rename_i c
        have := hpe c
        simp only [List.cons_append, List.length_cons, List.length_append]
        rw [dec_length 2 _ (by omega), dec_length 2 _ (by omega)]
      · simp
    have ls : s.length ≤ 34 := by
      rw [he]
      simp only [List.length_append, List.length_cons, List.length_nil]
      omega
    have hfit : f = s ++ List.replicate (l1 - s.length) 32 := by rw [hf, fit, List.take_of_length_le (by omega)]
    obtain ⟨b, hb⟩ : ∃ b, b = l1 - s.length := ⟨_, rfl⟩
    rw [← hb] at hfit
    have hb1 : 1 ≤ b := by omega
    -- the name with its blanks
    have hf2 : f = [c1, c2] ++ (dec 8 r.date.toNat ++ (dec 2 r.hour.toNat ++
        (A ++ (B ++ 95 :: (dec k r.num.toNat ++ units r.unit ++ List.replicate b 32))))) := by
      rw [hfit, he]; simp only [List.append_assoc, List.cons_append]
    have t2 : f.take 2 = [c1, c2] := by rw [hf2]; rfl
    have d2 : f.drop 2 = dec 8 r.date.toNat ++ (dec 2 r.hour.toNat ++
        (A ++ (B ++ 95 :: (dec k r.num.toNat ++ units r.unit ++ List.replicate b 32)))) := by rw [hf2]; rfl
    have d10 : f.drop 10 = dec 2 r.hour.toNat ++
        (A ++ (B ++ 95 :: (dec k r.num.toNat ++ units r.unit ++ List.replicate b 32))) := by
      rw [show 10 = 2 + 8 from rfl, ← List.drop_drop, d2, List.drop_left' l8]
    have d12 : f.drop 12 = A ++ (B ++ 95 :: (dec k r.num.toNat ++ units r.unit ++ List.replicate b 32)) := by
      rw [show 12 = 10 + 2 from rfl, ← List.drop_drop, d10, List.drop_left' l2]
    have tt8 : (f.drop 2).take 8 = dec 8 r.date.toNat := by rw [d2, List.take_left' l8]
    have tt2 : (f.drop 10).take 2 = dec 2 r.hour.toNat := by rw [d10, List.take_left' l2]
    have Adig : ∀ x ∈ A, isDigit x = true := by
      rw [← hA]
      intro x hx
      split at hx
      · rcases List.mem_append.1 hx with hx | hx
        · exact dec_digit _ _ x hx
        · exact dec_digit _ _ x hx
      · simp at hx
    have htime : (if A = [] then none else some (val (A.take 2), val (A.drop 2))) =
        if r.min ≠ -1 ∧ r.sec ≠ -1 then some (r.min.toNat, r.sec.toNat) else none := by
      rw [← hA]
      by_cases c : r.min ≠ -1 ∧ r.sec ≠ -1
      · have := hms c
        have q1 : (dec 2 r.min.toNat).length = 2 := dec_length 2 _ (by omega)
        rw [if_pos c, if_pos c, if_neg (by intro h0; have := congrArg List.length h0; simp [q1] at this),
          List.take_left' q1, List.drop_left' q1, dec_val, dec_val]
      · rw [if_neg c, if_neg c, if_pos rfl]
    unfold readName
    simp only [t2, tt8, tt2, dec_val, d12]
    by_cases c : r.npex ≠ -1 ∧ r.npey ≠ -1
    · have hp2 := hpe c
      have q1 : (dec 2 r.npex.toNat).length = 2 := dec_length 2 _ (by omega)
      have q2 : (dec 2 r.npey.toNat).length = 2 := dec_length 2 _ (by omega)
      rw [if_pos c] at hB
      have hB' : B ++ 95 :: (dec k r.num.toNat ++ units r.unit ++ List.replicate b 32) =
          45 :: (dec 2 r.npex.toNat ++ (45 :: (dec 2 r.npey.toNat ++ (95 :: (dec k r.num.toNat ++ units r.unit ++ List.replicate b 32))))) := by
        rw [← hB]; simp only [List.append_assoc, List.cons_append]
      rw [hB']
      have := take_digits A 45 (dec 2 r.npex.toNat ++ (45 :: (dec 2 r.npey.toNat ++
        (95 :: (dec k r.num.toNat ++ units r.unit ++ List.replicate b 32))))) Adig rfl
      rw [this.1, this.2, htime, if_pos List.head?_cons]
      have e1 : (List.drop 1 (45 :: (dec 2 r.npex.toNat ++ (45 :: (dec 2 r.npey.toNat ++
        (95 :: (dec k r.num.toNat ++ units r.unit ++ List.replicate b 32))))))).take 2 = dec 2 r.npex.toNat := by
        rw [List.drop_one, List.tail_cons, List.take_left' q1]
      have e4 : List.drop 4 (45 :: (dec 2 r.npex.toNat ++ (45 :: (dec 2 r.npey.toNat ++
        (95 :: (dec k r.num.toNat ++ units r.unit ++ List.replicate b 32)))))) =
          dec 2 r.npey.toNat ++ (95 :: (dec k r.num.toNat ++ units r.unit ++ List.replicate b 32)) := by
        rw [List.drop_succ_cons, show 3 = 2 + 1 from rfl, ← List.drop_drop, List.drop_left' q1]; rfl
      have e7 : List.drop 7 (45 :: (dec 2 r.npex.toNat ++ (45 :: (dec 2 r.npey.toNat ++
        (95 :: (dec k r.num.toNat ++ units r.unit ++ List.replicate b 32)))))) =
          dec k r.num.toNat ++ units r.unit ++ List.replicate b 32 := by
        rw [show 7 = 4 + (2 + 1) from rfl, ← List.drop_drop, e4, ← List.drop_drop, List.drop_left' q2]; rfl
      rw [e1, e4, e7, List.take_left' q2, dec_val, dec_val, tail_spec _ _ _ _ _ _ _ _ _ hb1 hu]
      simp only [asked, if_pos c, asked_unit]
      simp only [low_eq, hp]
    · rw [if_neg c] at hB
      subst hB
      rw [List.nil_append]
      have := take_digits A 95 (dec k r.num.toNat ++ units r.unit ++ List.replicate b 32) Adig rfl
      rw [this.1, this.2, htime, if_neg (by simp), List.drop_one, List.tail_cons, tail_spec _ _ _ _ _ _ _ _ _ hb1 hu]
      simp only [asked, if_neg c, asked_unit]
      simp only [low_eq, hp]

/-- C156.  No name is longer than 34 characters, so that 50 are enough. -/
theorem C156_fits (r : Req) (s : List ℕ) (h : fname r = some s) (hn : r.num < 2 ^ 31) : s.length ≤ 34 := by
  obtain ⟨c1, c2, k, hp, hk1, hk2, hd, hh, hnum, hms, hpe, he⟩ := fname_parts r s h
  have l8 : (dec 8 r.date.toNat).length = 8 := dec_length _ _ (by omega)
  have l2 : (dec 2 r.hour.toNat).length = 2 := dec_length _ _ (by omega)
  have lu : (units r.unit).length ≤ 1 := by
    unfold units
    split
    · simp
    · split <;> simp
  have ln : (dec k r.num.toNat).length ≤ 10 := dec_length_le _ _ _ (by omega) (by omega)
  have lA : (if r.min ≠ -1 ∧ r.sec ≠ -1 then dec 2 r.min.toNat ++ dec 2 r.sec.toNat else []).length ≤ 4 := by
    split
    · rename_i c
      have := hms c
      rw [List.length_append, dec_length 2 _ (by omega), dec_length 2 _ (by omega)]
    · simp
  have lB : (if r.npex ≠ -1 ∧ r.npey ≠ -1 then 45 :: dec 2 r.npex.toNat ++ 45 :: dec 2 r.npey.toNat else []).length ≤ 6 := by
    split
    · rename_i c
      have := hpe c
      simp only [List.cons_append, List.length_cons, List.length_append]
      rw [dec_length 2 _ (by omega), dec_length 2 _ (by omega)]
    · simp
  rw [he]
  simp only [List.length_append, List.length_cons, List.length_nil]
  omega

/-- The characters of a string. -/
def chars (s : String) : List ℕ := s.toList.map Char.toNat

def sample : Req :=
  { pre := chars "MD", date := 20010104, hour := 12, min := 30, sec := 59, npex := 5, npey := 1, num := 24, numlen := 8, unit := chars "H" }

example : progFilename 50 sample = (fit 50 (chars "md20010104123059-05-01_00000024h"), 0) ∧ sample.num < 2 ^ 31 ∧
    readName (fit 50 (chars "md20010104123059-05-01_00000024h")) = asked sample := by decide +kernel

/-- C156.  In 16 characters the number is cut: two numbers have the same name and no error is given. -/
theorem C156_cut_witness :
    progFilename 16 { sample with min := -1, npex := -1, num := 240 } = progFilename 16 { sample with min := -1, npex := -1, num := 24 } ∧
    (progFilename 16 { sample with min := -1, npex := -1, num := 240 }).2 = 0 := by decide +kernel

/-- C156.  Minutes without seconds are not in the name, and a digit as unit is part of the number. -/
theorem C156_lost_witness :
    progFilename 50 { sample with min := 30, sec := -1 } = progFilename 50 { sample with min := 31, sec := -1 } ∧
    progFilename 50 { sample with num := 12, numlen := 3, unit := chars "3" } = progFilename 50 { sample with num := 123, numlen := 4, unit := [] } := by
  decide +kernel

/-- A letter, small or capital. -/
def letter (c : ℕ) : Prop := c ∈ List.range' 65 26 ∨ c ∈ List.range' 97 26

theorem letter_iff (c : ℕ) : letter c ↔ isalpha c = true := by
  simp only [letter, isalpha, List.mem_range'_1, Bool.or_eq_true, Bool.and_eq_true, decide_eq_true_eq]
  omega

/-- C156.  When a name is given. -/
theorem C156_accept (l1 : ℕ) (r : Req) : (progFilename l1 r).2 = 0 ↔
    16 ≤ l1 ∧ (∃ c1 c2 t, r.pre = c1 :: c2 :: t ∧ letter c1 ∧ letter c2) ∧ (0 ≤ r.date ∧ r.date ≤ 99999999) ∧
    (0 ≤ r.hour ∧ r.hour ≤ 23) ∧ 0 ≤ r.num ∧ (r.min ≠ -1 ∧ r.sec ≠ -1 → 0 ≤ r.min ∧ r.min ≤ 59 ∧ 0 ≤ r.sec ∧ r.sec ≤ 59) ∧
    (r.npex ≠ -1 ∧ r.npey ≠ -1 → 0 ≤ r.npex ∧ r.npex ≤ 99 ∧ 0 ≤ r.npey ∧ r.npey ≤ 99) := by
  constructor
  · intro h
    unfold progFilename at h
    split at h
    · simp at h
    · rename_i hl
      cases hs : fname r with
      | none => rw [hs] at h; simp at h
      | some s =>
        obtain ⟨-, -, k, -, -, -, hd, hh, hnum, hms, hpe, -⟩ := fname_parts r s hs
        refine ⟨by omega, ?_, hd, hh, hnum, hms, hpe⟩
        unfold fname at hs
        split at hs
        · rename_i c1 c2 t hp
          refine ⟨c1, c2, t, hp, ?_⟩
          rw [letter_iff, letter_iff]
          simp only at hs
          split at hs
          · exact absurd hs (by simp)
          · rename_i g; simpa using g
        · exact absurd hs (by simp)
  · rintro ⟨hl, ⟨c1, c2, t, hp, a1, a2⟩, hd, hh, hnum, hms, hpe⟩
    rw [letter_iff] at a1 a2
    unfold progFilename
    rw [if_neg (by omega)]
    have : ∃ s, fname r = some s := by
      unfold fname
      rw [hp]
      simp only
      rw [if_neg (by simp [a1, a2]), if_neg (by omega), if_neg (by omega), if_neg (by omega), if_neg (by omega), if_neg (by omega)]
      exact ⟨_, rfl⟩
    obtain ⟨s, hs⟩ := this
    rw [hs]

example : (progFilename 50 sample).2 = 0 ∧ (progFilename 50 { sample with hour := 24 }).2 = -1 ∧ (progFilename 15 sample).2 = -1 := by decide +kernel


end Verif.ProgName
