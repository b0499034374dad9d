import Verif.Bufr
import Verif.Props.Grid
import Mathlib.Data.List.GetD
import Mathlib.Tactic.Linarith
import Mathlib.Tactic.NormNum
import Mathlib.Tactic.Positivity
import Mathlib.Tactic.Ring

/-!
C63: names of elements and types of blocks are coded without loss.
C64: the table of elements is sorted and searched correctly.
C65: conversion of units.
-/
namespace Props.Bufr

open Verif.Bufr

/-! ### C63 -/

theorem and2 (x : Nat) : x &&& 3 = x % 4 := Nat.and_two_pow_sub_one_eq_mod x 2
theorem and4 (x : Nat) : x &&& 15 = x % 16 := Nat.and_two_pow_sub_one_eq_mod x 4
theorem and6 (x : Nat) : x &&& 63 = x % 64 := Nat.and_two_pow_sub_one_eq_mod x 6
theorem and7 (x : Nat) : x &&& 127 = x % 128 := Nat.and_two_pow_sub_one_eq_mod x 7
theorem and8 (x : Nat) : x &&& 255 = x % 256 := Nat.and_two_pow_sub_one_eq_mod x 8

theorem or_shift (a b k : Nat) (h : a < 2 ^ k) : a ||| b <<< k = a + b * 2 ^ k := by
  rw [Nat.or_comm, ← Nat.shiftLeft_add_eq_or_of_lt h, Nat.shiftLeft_eq, Nat.add_comm]

theorem cov_eq (a b c : Nat) (ha : a < 4) (hb : b < 64) (hc : c < 256) :
    cov (a * 100000 + b * 1000 + c) = a * 2 ^ 14 + b * 2 ^ 8 + c := by
  have e1 : (a * 100000 + b * 1000 + c) % 100000 = b * 1000 + c := by omega
  have e2 : (b * 1000 + c) % 1000 = c := by clear e1; omega
  have e3 : (b * 1000 + c) / 1000 = b := by clear e1 e2; omega
  have e4 : (a * 100000 + b * 1000 + c) / 100000 = a := by clear e1 e2 e3; omega
  rw [cov, e1, e2, e3, e4, and6, and2, or_shift _ _ 8 (by omega), or_shift _ _ 14 (by omega)]
  omega

theorem dcv_eq (x : Nat) : dcv x = x / 2 ^ 14 % 4 * 100000 + x / 2 ^ 8 % 64 * 1000 + x % 256 := by
  rw [dcv, and2, and6, and8, Nat.shiftRight_eq_div_pow, Nat.shiftRight_eq_div_pow]

/-- An element `ABBCCC` takes two, six and eight bits and comes back. -/
theorem C63_name (a b c : Nat) (ha : a < 4) (hb : b < 64) (hc : c < 256) :
    cov (a * 100000 + b * 1000 + c) < 2 ^ 16 ∧
    cov (a * 100000 + b * 1000 + c) = a * 2 ^ 14 + b * 2 ^ 8 + c ∧
    dcv (cov (a * 100000 + b * 1000 + c)) = a * 100000 + b * 1000 + c := by
  rw [cov_eq a b c ha hb hc, dcv_eq]
  omega

/-- Every code of 16 bits stands for one element. -/
theorem C63_code (x : Nat) (h : x < 2 ^ 16) : cov (dcv x) = x := by
  rw [dcv_eq, cov_eq _ _ _ (by omega) (by omega) (by omega)]
  omega

/-- Lists. -/
theorem C63_list (l : List Nat) (h : ∀ x ∈ l, ∃ a b c, a < 4 ∧ b < 64 ∧ c < 256 ∧ x = a * 100000 + b * 1000 + c) :
    dcl (col l) = l := by
  rw [dcl, col, List.map_map]
  conv_rhs => rw [← List.map_id l]
  apply List.map_congr_left
  intro x hx
  obtain ⟨a, b, c, ha, hb, hc, rfl⟩ := h x hx
  exact (C63_name a b c ha hb hc).2.2

/-- The last three digits are not masked: elements over 255 take the code of another element. -/
theorem C63_collision_witness : cov 12260 = cov 13004 ∧ dcv (cov 12260) = 13004 := by decide

/-- Parts of a block type. -/
theorem C63_type (nat typ stp : Nat) (h1 : nat < 16) (h2 : typ < 128) (h3 : stp < 16) :
    typOf nat typ stp < 2 ^ 15 ∧ ofTyp (typOf nat typ stp) = (nat, typ, stp) := by
  have e : typOf nat typ stp = stp + typ * 2 ^ 4 + nat * 2 ^ 11 := by
    rw [typOf, and4, and7, and4, or_shift _ _ 4 (by omega), or_shift _ _ 11 (by omega)]
    omega
  rw [e, ofTyp, and4, and7, and4, Nat.shiftRight_eq_div_pow, Nat.shiftRight_eq_div_pow]
  refine ⟨by omega, ?_⟩
  rw [Prod.mk.injEq, Prod.mk.injEq]
  omega

/-- And back. -/
theorem C63_type_back (btyp : Nat) (h : btyp < 2 ^ 15) :
    typOf (ofTyp btyp).1 (ofTyp btyp).2.1 (ofTyp btyp).2.2 = btyp := by
  rw [ofTyp]
  dsimp only
  rw [typOf]
  simp only [and4, and7]
  rw [Nat.shiftRight_eq_div_pow, Nat.shiftRight_eq_div_pow, or_shift _ _ 4 (by omega), or_shift _ _ 11 (by omega)]
  omega

/-- Temperature, 012001, and air temperature at 2 m, 012004. -/
example : cov 12001 = 3073 ∧ dcv 3076 = 12004 ∧ dcl (col [12001, 363255, 0]) = [12001, 363255, 0] := by decide

/-! ### C64 -/

theorem swap_perm (t : List Row) (i j : Nat) (a b : Row) (hi : t[i]? = some a) (hj : t[j]? = some b) :
    ((t.set j a).set i b).Perm t := by
  obtain ⟨h1, e1⟩ := List.getElem?_eq_some_iff.1 hi
  obtain ⟨h2, e2⟩ := List.getElem?_eq_some_iff.1 hj
  have := List.set_set_perm (as := t) h2 h1
  rw [e1, e2] at this
  exact this

theorem sink_perm (m : Nat) (hm : 1 ≤ m) : ∀ (fuel j : Nat) (t : List Row), j < fuel → j < t.length →
    ∃ r, sink m fuel j t = some r ∧ r.Perm t
  | 0, _, _, h, _ => absurd h (by omega)
  | fuel + 1, j, t, h, hj => by
    rw [sink]
    split
    · exact ⟨t, rfl, List.Perm.refl _⟩
    · rename_i hjm
      have e1 : t[j - m]? = some t[j - m] := List.getElem?_eq_getElem _
      have e2 : t[j]? = some t[j] := List.getElem?_eq_getElem _
      rw [e1, e2]
      dsimp only
      split
      · exact ⟨t, rfl, List.Perm.refl _⟩
      · obtain ⟨r, h1, h2⟩ := sink_perm m hm fuel (j - m) ((t.set j t[j - m]).set (j - m) t[j]) (by omega)
          (by rw [List.length_set, List.length_set]; omega)
        exact ⟨r, h1, h2.trans (swap_perm t (j - m) j _ _ e1 e2)⟩

theorem pass_perm (m : Nat) (hm : 1 ≤ m) : ∀ (n i : Nat) (t : List Row), i + n ≤ t.length →
    ∃ r, pass m n i t = some r ∧ r.Perm t
  | 0, i, t, _ => ⟨t, rfl, List.Perm.refl _⟩
  | n + 1, i, t, h => by
    obtain ⟨s, h1, h2⟩ := sink_perm m hm (i + 1) i t (by omega) (by omega)
    obtain ⟨r, h3, h4⟩ := pass_perm m hm n (i + 1) s (by rw [h2.length_eq]; omega)
    exact ⟨r, by rw [pass, h1]; exact h3, h4.trans h2⟩

/-- Code at a position. -/
def key (t : List Row) (i : Nat) : Int := (t.getD i ⟨0, 0, 0⟩).code

theorem key_of (t : List Row) (i : Nat) (r : Row) (h : t[i]? = some r) : key t i = r.code := by
  rw [key, List.getD_eq_getElem?_getD, h]
  rfl

theorem key_set (t : List Row) (i k : Nat) (r : Row) (h : i < t.length) :
    key (t.set i r) k = if k = i then r.code else key t k := by
  unfold key
  rw [List.getD_eq_getElem?_getD, List.getD_eq_getElem?_getD, List.getElem?_set]
  by_cases hk : k = i
  · rw [if_pos hk.symm, if_pos h, if_pos hk]
    rfl
  · rw [if_neg (fun h => hk h.symm), if_neg hk]

/-- Positions up to `i` are in order. -/
def Upto (t : List Row) (i : Nat) : Prop := ∀ a b, a < b → b ≤ i → key t a ≤ key t b

theorem sink_sorted (i : Nat) : ∀ (fuel j : Nat) (t r : List Row), j ≤ i → i < t.length →
    (∀ a b, a < b → b ≤ i → b ≠ j → key t a ≤ key t b) → sink 1 fuel j t = some r → Upto r i
  | 0, _, _, _, _, _, _, h => absurd h (by simp [sink])
  | fuel + 1, j, t, r, hj, hi, hinv, h => by
    rw [sink] at h
    split at h
    · rename_i h0
      cases h
      intro a b hab hb
      exact hinv a b hab hb (by omega)
    · rename_i h0
      have e1 : t[j - 1]? = some t[j - 1] := List.getElem?_eq_getElem (by omega)
      have e2 : t[j]? = some t[j] := List.getElem?_eq_getElem (by omega)
      rw [e1, e2] at h
      dsimp only at h
      rw [← key_of t _ _ e1, ← key_of t _ _ e2] at h
      split at h
      · rename_i hlt
        cases h
        intro a b hab hb
        by_cases hbj : b = j
        · subst hbj
          by_cases ha : a = b - 1
          · subst ha; omega
          · have := hinv a (b - 1) (by omega) (by omega) (by omega)
            omega
        · exact hinv a b hab hb hbj
      · rename_i hge
        refine sink_sorted i fuel (j - 1) _ r (by omega) (by rw [List.length_set, List.length_set]; exact hi) ?_ h
        intro a b hab hb hbj
        have k1 := key_of t _ _ e1
        have k2 := key_of t _ _ e2
        have hset : ∀ x, key ((t.set j t[j - 1]).set (j - 1) t[j]) x =
            if x = j - 1 then key t j else if x = j then key t (j - 1) else key t x := by
          intro x
          rw [key_set _ _ _ _ (by rw [List.length_set]; omega), key_set _ _ _ _ (by omega), ← k1, ← k2]
        rw [hset, hset, if_neg hbj]
        by_cases hb' : b = j
        · rw [if_pos hb']
          by_cases ha : a = j - 1
          · rw [if_pos ha]; omega
          · rw [if_neg ha, if_neg (by omega)]
            exact hinv a (j - 1) (by omega) (by omega) (by omega)
        · rw [if_neg hb']
          by_cases ha : a = j - 1
          · rw [if_pos ha]
            exact hinv j b (by omega) hb hb'
          · rw [if_neg ha]
            by_cases ha' : a = j
            · rw [if_pos ha']
              exact hinv (j - 1) b (by omega) hb hb'
            · rw [if_neg ha']
              exact hinv a b hab hb hb'

theorem pass_sorted : ∀ (n i : Nat) (t r : List Row), 1 ≤ i → i + n ≤ t.length → Upto t (i - 1) → pass 1 n i t = some r →
    Upto r (i + n - 1)
  | 0, i, t, r, _, _, h, hr => by
    cases hr
    exact h
  | n + 1, i, t, r, hi, hl, h, hr => by
    obtain ⟨s, h1, h2⟩ := sink_perm 1 (by omega) (i + 1) i t (by omega) (by omega)
    rw [pass, h1] at hr
    have hs : Upto s i := sink_sorted i (i + 1) i t s (by omega) (by omega)
      (fun a b hab hb hbi => h a b hab (by omega)) h1
    have := pass_sorted n (i + 1) s r (by omega) (by rw [h2.length_eq]; omega) hs hr
    rw [show i + 1 + n - 1 = i + (n + 1) - 1 by omega] at this
    exact this

theorem shell_spec : ∀ (fuel m : Nat) (t : List Row), m < fuel → m ≤ t.length →
    ∃ r, shell fuel m t = some r ∧ r.Perm t ∧ (1 < m ∨ Upto t (t.length - 1) → Upto r (t.length - 1))
  | 0, _, _, h, _ => absurd h (by omega)
  | fuel + 1, m, t, h, hm => by
    rw [shell]
    split
    · rename_i h1
      obtain ⟨s, s1, s2⟩ := pass_perm ((m + 2) / 3) (by omega) (t.length - (m + 2) / 3) ((m + 2) / 3) t (by omega)
      obtain ⟨r, r1, r2, r3⟩ := shell_spec fuel ((m + 2) / 3) s (by omega) (by rw [s2.length_eq]; omega)
      refine ⟨r, by dsimp only; rw [s1]; exact r1, r2.trans s2, fun _ => ?_⟩
      rw [s2.length_eq] at r3
      apply r3
      by_cases hlast : (m + 2) / 3 = 1
      · right
        rw [hlast] at s1
        have := pass_sorted (t.length - 1) 1 t s (by omega) (by omega) (fun a b hab hb => by omega) s1
        rw [show 1 + (t.length - 1) - 1 = t.length - 1 by omega] at this
        exact this
      · left; omega
    · rename_i h1
      exact ⟨t, rfl, List.Perm.refl _, fun h => h.resolve_left (by omega)⟩

/-- Sorted by code. -/
def Sorted (t : List Row) : Prop := t.Pairwise fun a b => a.code ≤ b.code

theorem sorted_of_upto (t : List Row) (h : Upto t (t.length - 1)) : Sorted t := by
  rw [Sorted, List.pairwise_iff_getElem]
  intro i j hi hj hij
  have := h i j hij (by omega)
  rwa [key_of t i _ (List.getElem?_eq_getElem hi), key_of t j _ (List.getElem?_eq_getElem hj)] at this

/-- Sorting ends, keeps the rows and puts them in order. -/
theorem C64_sort (t : List Row) : ∃ r, sort t = some r ∧ r.Perm t ∧ Sorted r := by
  obtain ⟨r, h1, h2, h3⟩ := shell_spec (t.length + 1) t.length t (by omega) (by omega)
  refine ⟨r, h1, h2, sorted_of_upto r ?_⟩
  rw [h2.length_eq]
  apply h3
  by_cases h : 1 < t.length
  · exact Or.inl h
  · exact Or.inr fun a b hab hb => by omega

theorem look_spec (elem : Int) (t : List Row) (hs : Sorted t) : ∀ (fuel debut fin : Nat), fin - debut ≤ fuel →
    debut < fin → fin ≤ t.length + 1 → (∀ k, k < debut → key t k < elem) → (∀ k, fin ≤ k + 1 → k < t.length → elem < key t k) →
    (look elem t fuel debut fin = some (-1) ∧ ∀ r ∈ t, r.code ≠ elem) ∨
    (∃ (k : Nat) (r : Row), look elem t fuel debut fin = some ((k : Int) + 1) ∧ t[k]? = some r ∧ r.code = elem)
  | 0, debut, fin, h, h1, _, _, _ => absurd h (by omega)
  | fuel + 1, debut, fin, h, h1, h2, hlo, hhi => by
    have hsorted : ∀ a b, a < b → b < t.length → key t a ≤ key t b := by
      intro a b hab hb
      have := List.pairwise_iff_getElem.1 hs a b (by omega) hb hab
      rwa [key_of t a _ (List.getElem?_eq_getElem (by omega)), key_of t b _ (List.getElem?_eq_getElem hb)]
    rw [look]
    obtain ⟨m, hm⟩ : ∃ m, m = (debut + fin) / 2 := ⟨_, rfl⟩
    rw [← hm]
    split
    · rename_i hd
      rw [if_neg (by omega : ¬ m = 0)]
      obtain ⟨r, e⟩ : ∃ r, t[m - 1]? = some r := ⟨_, List.getElem?_eq_getElem (by omega)⟩
      rw [e]
      dsimp only
      have k1 := key_of t _ _ e
      by_cases c1 : elem ≠ r.code
      · rw [if_pos c1]
        by_cases c2 : elem > r.code
        · rw [if_pos c2]
          refine look_spec elem t hs fuel m fin (by omega) (by omega) h2 (fun k hk => ?_) hhi
          by_cases hk' : k = m - 1
          · subst hk'; omega
          · have := hsorted k (m - 1) (by omega) (by omega)
            omega
        · rw [if_neg c2]
          refine look_spec elem t hs fuel debut m (by omega) (by omega) (by omega) hlo (fun k hk hkl => ?_)
          by_cases hk' : k = m - 1
          · subst hk'; omega
          · have := hsorted (m - 1) k (by omega) hkl
            omega
      · rw [if_neg c1]
        refine Or.inr ⟨m - 1, _, ?_, e, ?_⟩
        · rw [show ((m - 1 : Nat) : Int) + 1 = m by omega]
        · rw [not_not] at c1
          exact c1.symm
    · rename_i hd
      refine Or.inl ⟨rfl, fun r hr => ?_⟩
      obtain ⟨k, hk, rfl⟩ := List.getElem_of_mem hr
      have kk := key_of t k _ (List.getElem?_eq_getElem hk)
      by_cases hkd : k < debut
      · have := hlo k hkd
        omega
      · have := hhi k (by omega) hk
        omega

/-- In a sorted table an element is found exactly when it is there. -/
theorem C64_search (t : List Row) (hs : Sorted t) (elem : Int) : ∃ o, rowOf elem t = some o ∧
    (∀ r, o = some r → r ∈ t ∧ r.code = elem) ∧ (o = none → ∀ r ∈ t, r.code ≠ elem) := by
  rcases look_spec elem t hs (t.length + 1) 0 (t.length + 1) (by omega) (by omega) (by omega) (fun k h => by omega)
    (fun k h1 h2 => by omega) with ⟨h1, h2⟩ | ⟨k, r, h1, h2, h3⟩
  · refine ⟨none, ?_, fun r h => by simp at h, fun _ => h2⟩
    rw [rowOf, bufrchr, h1]
    rfl
  · refine ⟨some r, ?_, fun r' h => ?_, fun h => by simp at h⟩
    · rw [rowOf, bufrchr, h1]
      dsimp only
      rw [if_pos (by omega), show ((k : Int) + 1).toNat - 1 = k by omega, h2]
      rfl
    · cases h
      exact ⟨List.mem_of_getElem? h2, h3⟩

/-- The rows of the user are found if their codes are above those of the table.  Missing: other codes, see the witness. -/
theorem C64_user_partial (t usr : List Row) (hs : Sorted t) (h : ∀ a ∈ t, ∀ b ∈ usr, a.code ≤ b.code) :
    ∃ s, mrbsct t usr = some s ∧ s.Perm (t ++ usr) ∧ Sorted s := by
  obtain ⟨r, h1, h2, h3⟩ := C64_sort usr
  refine ⟨t ++ r, by rw [mrbsct, h1]; rfl, List.Perm.append_left t h2, ?_⟩
  rw [Sorted, List.pairwise_append]
  exact ⟨hs, h3, fun a ha b hb => h a ha b (h2.mem_iff.1 hb)⟩

/-- A row of the user with a lower code is never found: its values are left unconverted. -/
theorem C64_user_witness (R : Real4) (manque : ℚ) (tbl : List Int) (rval : List ℚ) :
    mrbsct [⟨2817, 0, 0⟩, ⟨3073, 1, 0⟩] [⟨1025, 2, 0⟩] = some [⟨2817, 0, 0⟩, ⟨3073, 1, 0⟩, ⟨1025, 2, 0⟩] ∧
    cvt0 R manque [⟨2817, 0, 0⟩, ⟨3073, 1, 0⟩, ⟨1025, 2, 0⟩] 1025 tbl rval = some (tbl, rval) := ⟨by decide, rfl⟩

/-- It can also hide a row of the table itself. -/
theorem C64_hidden_witness :
    rowOf 3073 [⟨2817, 0, 0⟩, ⟨3073, 1, 0⟩] = some (some ⟨3073, 1, 0⟩) ∧
    (mrbsct [⟨2817, 0, 0⟩, ⟨3073, 1, 0⟩] [⟨1025, 2, 0⟩, ⟨1026, 2, 0⟩, ⟨1027, 2, 0⟩]).bind (rowOf 3073) = some none := by decide

example : sort [⟨5, 1, 2⟩, ⟨3, 0, 0⟩, ⟨4, 0, 0⟩, ⟨3, 7, 0⟩, ⟨1, 2, 2⟩] =
    some [⟨1, 2, 2⟩, ⟨3, 0, 0⟩, ⟨3, 7, 0⟩, ⟨4, 0, 0⟩, ⟨5, 1, 2⟩] := by decide

/-! ### C65 -/

/-- Single precision: half a unit in the last place, integers of 24 bits are exact, and the power of ten. -/
structure Acc (R : Real4) : Prop where
  err : ∀ x, |x| ≤ 2 ^ 127 → |R.r x - x| ≤ |x| / 2 ^ 24 + 1 / 2 ^ 149
  int : ∀ n : Int, |n| ≤ 2 ^ 24 → R.r n = n
  ten : ∀ k : Int, |k| ≤ 12 → |R.ten k - 10 ^ k| ≤ 10 ^ k / 2 ^ 20

theorem ten_range (k : Int) (hk : |k| ≤ 12) : (1 : ℚ) / 10 ^ 12 ≤ 10 ^ k ∧ (10 : ℚ) ^ k ≤ 10 ^ 12 := by
  rw [abs_le] at hk
  constructor
  · rw [one_div, ← zpow_natCast, ← zpow_neg]
    exact zpow_le_zpow_right₀ (by norm_num) hk.1
  · rw [← zpow_natCast (10 : ℚ) 12]
    exact zpow_le_zpow_right₀ (by norm_num) hk.2

theorem scale_range {R : Real4} (hR : Acc R) (k : Int) (hk : |k| ≤ 12) : 1 / 2 ^ 40 ≤ R.ten k ∧ R.ten k ≤ 2 ^ 40 := by
  obtain ⟨h1, h2⟩ := ten_range k hk
  have h := abs_le.1 (hR.ten k hk)
  generalize (10 : ℚ) ^ k = y at *
  constructor
  · have : 1 / 10 ^ 12 * (1 - 1 / 2 ^ 20) ≤ y * (1 - 1 / 2 ^ 20) := mul_le_mul_of_nonneg_right h1 (by norm_num)
    have e : (1 : ℚ) / 2 ^ 40 ≤ 1 / 10 ^ 12 * (1 - 1 / 2 ^ 20) := by norm_num
    linarith [h.1]
  · have : y * (1 + 1 / 2 ^ 20) ≤ 10 ^ 12 * (1 + 1 / 2 ^ 20) := mul_le_mul_of_nonneg_right h2 (by norm_num)
    have e : (10 : ℚ) ^ 12 * (1 + 1 / 2 ^ 20) ≤ 2 ^ 40 := by norm_num
    linarith [h.2]

theorem nint_eq (x : ℚ) (n : Int) (h : |x - n| < 1 / 2) : nint x = n := by
  rw [abs_lt] at h
  rw [nint]
  split
  · rw [Int.floor_eq_iff]
    constructor <;> linarith [h.1, h.2]
  · rw [Int.ceil_eq_iff]
    constructor <;> linarith [h.1, h.2]

theorem nint_near (x : ℚ) : |(nint x : ℚ) - x| ≤ 1 / 2 := by
  rw [nint, abs_le]
  split
  · have h1 := Int.floor_le (x + 1 / 2)
    have h2 := Int.lt_floor_add_one (x + 1 / 2)
    constructor <;> linarith
  · have h1 := Int.le_ceil (x - 1 / 2)
    have h2 := Int.ceil_lt_add_one (x - 1 / 2)
    constructor <;> linarith

/-- An integer divided and multiplied by the same scale comes back. -/
theorem int_trip {R : Real4} (hR : Acc R) (E : ℚ) (h1 : 1 / 2 ^ 40 ≤ E) (h2 : E ≤ 2 ^ 40) (n : Int) (hn : |n| < 2 ^ 22) :
    nint (R.r (R.r (R.r (n : ℚ) / E) * E)) = n := by
  have hE : 0 < E := lt_of_lt_of_le (by norm_num) h1
  rw [hR.int n (by omega)]
  have hq : |(n : ℚ)| ≤ 2 ^ 22 - 1 := by
    have : |n| ≤ 2 ^ 22 - 1 := by omega
    exact_mod_cast this
  have hi : 1 / E ≤ 2 ^ 40 := by
    rw [div_le_iff₀ hE]
    have := mul_le_mul_of_nonneg_left h1 (show (0 : ℚ) ≤ 2 ^ 40 by norm_num)
    linarith
  have a0 : |(n : ℚ) / E| = |(n : ℚ)| / E := by rw [abs_div, abs_of_pos hE]
  have a1 : |(n : ℚ) / E| ≤ 2 ^ 62 := by
    rw [a0, div_eq_mul_one_div]
    have := mul_le_mul hq hi (by positivity) (by norm_num)
    refine this.trans (by norm_num)
  have b := hR.err (n / E) (a1.trans (by norm_num))
  generalize R.r ((n : ℚ) / E) = y at *
  have c : |y * E - n| ≤ |(n : ℚ)| / 2 ^ 24 + 1 / 2 ^ 109 := by
    have e : y * E - n = (y - n / E) * E := by rw [sub_mul, div_mul_cancel₀ _ (ne_of_gt hE)]
    rw [e, abs_mul, abs_of_pos hE]
    have := mul_le_mul_of_nonneg_right b (le_of_lt hE)
    rw [a0, add_mul] at this
    have h3 : 1 / 2 ^ 149 * E ≤ 1 / 2 ^ 149 * 2 ^ 40 := mul_le_mul_of_nonneg_left h2 (by norm_num)
    have h4 : (1 : ℚ) / 2 ^ 149 * 2 ^ 40 = 1 / 2 ^ 109 := by norm_num
    have h5 : |(n : ℚ)| / E / 2 ^ 24 * E = |(n : ℚ)| / 2 ^ 24 := by field_simp
    linarith
  have d : |y * E| ≤ |(n : ℚ)| + (|(n : ℚ)| / 2 ^ 24 + 1 / 2 ^ 109) := by
    have := abs_sub_abs_le_abs_sub (y * E) n
    linarith
  have f := hR.err (y * E) (by
    refine d.trans ?_
    have : |(n : ℚ)| / 2 ^ 24 ≤ 1 := by rw [div_le_one (by norm_num)]; linarith
    linarith [show (2 : ℚ) ^ 22 + 2 ≤ 2 ^ 127 by norm_num, show (1 : ℚ) / 2 ^ 109 ≤ 1 by norm_num])
  apply nint_eq
  have g := abs_sub_le (R.r (y * E)) (y * E) n
  have k1 : |y * E| / 2 ^ 24 ≤ (|(n : ℚ)| + (|(n : ℚ)| / 2 ^ 24 + 1 / 2 ^ 109)) / 2 ^ 24 := by gcongr
  have k2 : (|(n : ℚ)| + (|(n : ℚ)| / 2 ^ 24 + 1 / 2 ^ 109)) / 2 ^ 24 + 1 / 2 ^ 149 + (|(n : ℚ)| / 2 ^ 24 + 1 / 2 ^ 109) < 1 / 2 := by
    generalize |(n : ℚ)| = m at *
    have : m / 2 ^ 24 ≤ (2 ^ 22 - 1) / 2 ^ 24 := by gcongr
    have e : (m + (m / 2 ^ 24 + 1 / 2 ^ 109)) / 2 ^ 24 = m / 2 ^ 24 + (m / 2 ^ 24) / 2 ^ 24 + 1 / 2 ^ 109 / 2 ^ 24 := by ring
    have e2 : m / 2 ^ 24 / 2 ^ 24 ≤ (2 ^ 22 - 1) / 2 ^ 24 / 2 ^ 24 := by gcongr
    rw [e]
    have : ((2 : ℚ) ^ 22 - 1) / 2 ^ 24 + (2 ^ 22 - 1) / 2 ^ 24 / 2 ^ 24 + 1 / 2 ^ 109 / 2 ^ 24 + 1 / 2 ^ 149 + ((2 ^ 22 - 1) / 2 ^ 24 + 1 / 2 ^ 109) < 1 / 2 := by
      norm_num
    linarith
  linarith

/-- The number that a code stands for, in units of the last digit. -/
def units (row : Row) (v : Int) : Int := (if v < 0 then v + 1 else v) + row.ref

theorem not_missing {R : Real4} (hR : Acc R) (manque : ℚ) (hq : 2 ^ 64 ≤ |manque|) (row : Row) (hk : |row.scale| ≤ 12)
    (v : Int) (h1 : v ≠ -1) (hv : |units row v| < 2 ^ 22) : (decode R manque row v).2 ≠ manque := by
  obtain ⟨s1, s2⟩ := scale_range hR row.scale hk
  have hE : 0 < R.ten row.scale := lt_of_lt_of_le (by norm_num) s1
  rw [decode, if_neg h1]
  dsimp only
  rw [show ((if v < 0 then v + 1 else v) + row.ref : Int) = units row v from rfl, hR.int _ (by omega)]
  have hn : |(units row v : ℚ)| ≤ 2 ^ 22 := by exact_mod_cast hv.le
  have hi : 1 / R.ten row.scale ≤ 2 ^ 40 := by
    rw [div_le_iff₀ hE]
    have := mul_le_mul_of_nonneg_left s1 (show (0 : ℚ) ≤ 2 ^ 40 by norm_num)
    linarith
  have a1 : |(units row v : ℚ) / R.ten row.scale| ≤ 2 ^ 62 := by
    rw [abs_div, abs_of_pos hE, div_eq_mul_one_div]
    exact (mul_le_mul hn hi (by positivity) (by norm_num)).trans (by norm_num)
  have b := hR.err _ (a1.trans (by norm_num))
  have c := abs_sub_abs_le_abs_sub (R.r ((units row v : ℚ) / R.ten row.scale)) ((units row v : ℚ) / R.ten row.scale)
  intro h
  rw [h] at b c
  generalize |(units row v : ℚ) / R.ten row.scale| = y at *
  have : y / 2 ^ 24 ≤ 2 ^ 62 / 2 ^ 24 := by gcongr
  linarith [show (2 : ℚ) ^ 62 + 2 ^ 62 / 2 ^ 24 + 1 / 2 ^ 149 < 2 ^ 64 by norm_num]

/-- Codes decoded and coded again, one value. -/
theorem C65_code_partial {R : Real4} (hR : Acc R) (manque : ℚ) (hq : 2 ^ 64 ≤ |manque|) (row : Row) (hk : |row.scale| ≤ 12)
    (v : Int) (hv : v ≠ -1 → |units row v| < 2 ^ 22) :
    encode R manque row (decode R manque row v).2 = v := by
  by_cases h1 : v = -1
  · rw [decode, if_pos h1, encode, if_pos rfl, h1]
  have h2 := hv h1
  have h3 := not_missing hR manque hq row hk v h1 h2
  obtain ⟨s1, s2⟩ := scale_range hR row.scale hk
  rw [encode, if_neg h3]
  dsimp only
  rw [decode, if_neg h1]
  dsimp only
  have := int_trip hR (R.ten row.scale) s1 s2 (units row v) h2
  unfold units at this
  rw [this]
  split <;> split <;> split at * <;> omega

/-- All values of an element, through the table: the codes come back. -/
theorem C65_codes_partial {R : Real4} (hR : Acc R) (manque : ℚ) (hq : 2 ^ 64 ≤ |manque|) (t : List Row) (hs : Sorted t) (elem : Int)
    (tbl : List Int) (rval : List ℚ)
    (h : ∀ row ∈ t, row.code = elem → |row.scale| ≤ 12 ∧ ∀ v ∈ tbl, v ≠ -1 → |units row v| < 2 ^ 22) :
    ∃ out, cvt0 R manque t elem tbl rval = some out ∧ ∃ back, cvt1 R manque t elem out.1 out.2 = some back ∧ back.1 = tbl := by
  obtain ⟨o, h1, h2, h3⟩ := C64_search t hs elem
  unfold cvt0 cvt1
  rw [h1]
  cases o with
  | none => exact ⟨_, rfl, _, rfl, rfl⟩
  | some row =>
    obtain ⟨hm, hc⟩ := h2 row rfl
    obtain ⟨hk, hv⟩ := h row hm hc
    refine ⟨_, rfl, _, rfl, ?_⟩
    dsimp only
    rw [List.map_map]
    conv_rhs => rw [← List.map_id tbl]
    exact List.map_congr_left fun v hv' => C65_code_partial hR manque hq row hk v (hv v hv')

/-- A value that is not missing is never coded as missing, and comes back within half a unit of the last digit and the
rounding of single precision.  The range of integers of 32 bits is not part of the model: the code has to fit. -/
theorem C65_value {R : Real4} (hR : Acc R) (manque : ℚ) (row : Row) (hk : |row.scale| ≤ 12) (x : ℚ) (hx : x ≠ manque)
    (hb : |x| * 10 ^ row.scale ≤ 2 ^ 22) :
    encode R manque row x ≠ -1 ∧
    |(decode R manque row (encode R manque row x)).2 - x| ≤ (1 / 2 + 1 / 2 ^ 18) / 10 ^ row.scale + |x| / 2 ^ 22 := by
  obtain ⟨s1, s2⟩ := scale_range hR row.scale hk
  obtain ⟨t1, t2⟩ := ten_range row.scale hk
  have ht := abs_le.1 (hR.ten row.scale hk)
  have hE : 0 < R.ten row.scale := lt_of_lt_of_le (by norm_num) s1
  have hT : (0 : ℚ) < 10 ^ row.scale := by positivity
  rw [encode, if_neg hx]
  dsimp only
  obtain ⟨n, hn⟩ : ∃ n, n = nint (R.r (x * R.ten row.scale)) := ⟨_, rfl⟩
  rw [← hn]
  have hne : (if n - row.ref < 0 then n - row.ref - 1 else n - row.ref) ≠ -1 := by split <;> omega
  refine ⟨hne, ?_⟩
  rw [decode, if_neg hne]
  dsimp only
  have hu : (if (if n - row.ref < 0 then n - row.ref - 1 else n - row.ref) < 0 then
      (if n - row.ref < 0 then n - row.ref - 1 else n - row.ref) + 1
      else (if n - row.ref < 0 then n - row.ref - 1 else n - row.ref)) + row.ref = n := by
    split <;> split at * <;> omega
  rw [hu]
  generalize R.ten row.scale = E at *
  generalize (10 : ℚ) ^ row.scale = T at *
  -- the product
  have p0 : |x * E| = |x| * E := by rw [abs_mul, abs_of_pos hE]
  have p1 : |x| * E ≤ 2 ^ 22 * (1 + 1 / 2 ^ 20) := by
    have : |x| * E ≤ |x| * (T * (1 + 1 / 2 ^ 20)) := mul_le_mul_of_nonneg_left (by linarith [ht.2]) (abs_nonneg x)
    have h2 : |x| * T * (1 + 1 / 2 ^ 20) ≤ 2 ^ 22 * (1 + 1 / 2 ^ 20) := mul_le_mul_of_nonneg_right hb (by norm_num)
    linarith
  have q := hR.err (x * E) (by rw [p0]; exact p1.trans (by norm_num))
  rw [p0] at q
  have m := nint_near (R.r (x * E))
  rw [← hn] at m
  have nx : |(n : ℚ) - x * E| ≤ 1 / 2 + (|x| * E / 2 ^ 24 + 1 / 2 ^ 149) := (abs_sub_le _ (R.r (x * E)) _).trans (by linarith)
  have nb : |(n : ℚ)| ≤ |x| * E + (1 / 2 + (|x| * E / 2 ^ 24 + 1 / 2 ^ 149)) := by
    have := abs_sub_abs_le_abs_sub (n : ℚ) (x * E)
    rw [p0] at this
    linarith
  have n24 : |n| ≤ 2 ^ 24 := by
    have h1 : |x| * E / 2 ^ 24 ≤ 1 := by
      rw [div_le_one (by norm_num)]
      exact p1.trans (by norm_num)
    have : |(n : ℚ)| ≤ 2 ^ 24 := by
      refine nb.trans ?_
      linarith [show (2 : ℚ) ^ 22 * (1 + 1 / 2 ^ 20) + 1 / 2 + 1 + 1 / 2 ^ 149 ≤ 2 ^ 24 by norm_num]
    exact_mod_cast this
  rw [hR.int n n24]
  have hi : 1 / E ≤ 2 ^ 40 := by
    rw [div_le_iff₀ hE]
    have := mul_le_mul_of_nonneg_left s1 (show (0 : ℚ) ≤ 2 ^ 40 by norm_num)
    linarith
  have d0 : |(n : ℚ) / E| = |(n : ℚ)| / E := by rw [abs_div, abs_of_pos hE]
  have nb24 : |(n : ℚ)| ≤ 2 ^ 24 := by exact_mod_cast n24
  have y := hR.err (n / E) (by
    rw [d0, div_eq_mul_one_div]
    exact (mul_le_mul nb24 hi (by positivity) (by norm_num)).trans (by norm_num))
  rw [d0] at y
  have z : |(n : ℚ) / E - x| ≤ (1 / 2 + (|x| * E / 2 ^ 24 + 1 / 2 ^ 149)) / E := by
    have e : (n : ℚ) / E - x = (n - x * E) / E := by rw [sub_div, mul_div_cancel_right₀ _ (ne_of_gt hE)]
    rw [e, abs_div, abs_of_pos hE]
    gcongr
  have w : |(n : ℚ)| / E ≤ (|x| * E + (1 / 2 + (|x| * E / 2 ^ 24 + 1 / 2 ^ 149))) / E := by gcongr
  have e1 : (1 / 2 + (|x| * E / 2 ^ 24 + 1 / 2 ^ 149)) / E = (1 / 2 + 1 / 2 ^ 149) * (1 / E) + |x| / 2 ^ 24 := by
    field_simp
    ring
  have e2 : (|x| * E + (1 / 2 + (|x| * E / 2 ^ 24 + 1 / 2 ^ 149))) / E =
      |x| + ((1 / 2 + 1 / 2 ^ 149) * (1 / E) + |x| / 2 ^ 24) := by
    rw [add_div, e1, mul_div_cancel_right₀ _ (ne_of_gt hE)]
  rw [e1] at z
  rw [e2] at w
  have i1 : 1 / E ≤ (1 + 1 / 2 ^ 19) * (1 / T) := by
    rw [mul_one_div, div_le_div_iff₀ hE hT]
    nlinarith [ht.1]
  have i2 : 1 / 2 ^ 40 ≤ 1 / E := by
    apply one_div_le_one_div_of_le hE s2
  have total := abs_sub_le (R.r ((n : ℚ) / E)) (n / E) x
  rw [div_eq_mul_one_div (1 / 2 + 1 / 2 ^ 18 : ℚ) T]
  have ax := abs_nonneg x
  have y2 : |(n : ℚ)| / E / 2 ^ 24 ≤ (|x| + ((1 / 2 + 1 / 2 ^ 149) * (1 / E) + |x| / 2 ^ 24)) / 2 ^ 24 := by gcongr
  generalize 1 / E = e at *
  generalize 1 / T = f at *
  have j1 : (1 / 2 + 1 / 2 ^ 149) * e + ((1 / 2 + 1 / 2 ^ 149) * e) / 2 ^ 24 + 1 / 2 ^ 149 ≤ (1 / 2 + 1 / 2 ^ 20) * e := by
    have : (1 : ℚ) / 2 ^ 149 ≤ 1 / 2 ^ 109 * e := by
      have := mul_le_mul_of_nonneg_left i2 (show (0 : ℚ) ≤ 1 / 2 ^ 109 by norm_num)
      refine le_trans (by norm_num) this
    have h2 : 0 ≤ e := le_trans (by norm_num) i2
    have h3 : ((1 / 2 + 1 / 2 ^ 149) + (1 / 2 + 1 / 2 ^ 149) / 2 ^ 24 + 1 / 2 ^ 109) * e ≤ (1 / 2 + 1 / 2 ^ 20) * e :=
      mul_le_mul_of_nonneg_right (by norm_num) h2
    linarith
  have j2 : (1 / 2 + 1 / 2 ^ 20) * e ≤ (1 / 2 + 1 / 2 ^ 18) * f := by
    have h2 : 0 ≤ f := by
      have : 0 ≤ e := le_trans (by norm_num) i2
      by_contra hf
      rw [not_le] at hf
      have := mul_neg_of_pos_of_neg (show (0 : ℚ) < 1 + 1 / 2 ^ 19 by norm_num) hf
      linarith
    have h3 : (1 / 2 + 1 / 2 ^ 20) * e ≤ (1 / 2 + 1 / 2 ^ 20) * ((1 + 1 / 2 ^ 19) * f) := mul_le_mul_of_nonneg_left i1 (by norm_num)
    have h4 : ((1 / 2 + 1 / 2 ^ 20) * (1 + 1 / 2 ^ 19)) * f ≤ (1 / 2 + 1 / 2 ^ 18) * f :=
      mul_le_mul_of_nonneg_right (by norm_num) h2
    linarith
  have j3 : |x| / 2 ^ 24 + (|x| + |x| / 2 ^ 24) / 2 ^ 24 ≤ |x| / 2 ^ 22 := by
    generalize |x| = u at *
    linarith
  have j4 : (|x| + ((1 / 2 + 1 / 2 ^ 149) * e + |x| / 2 ^ 24)) / 2 ^ 24 =
    ((1 / 2 + 1 / 2 ^ 149) * e) / 2 ^ 24 + (|x| + |x| / 2 ^ 24) / 2 ^ 24 := by ring
  linarith

/-- Rounding to nearest meets the assumptions. -/
theorem acc_nearest : Acc ⟨Props.Grid.nearest 24, fun k => Props.Grid.nearest 24 (10 ^ k)⟩ where
  err x _ := by
    have := Props.Grid.nearest_err 24 (by norm_num) x
    have : (0 : ℚ) ≤ 1 / 2 ^ 149 := by norm_num
    dsimp only
    linarith
  int n h := Props.Grid.nearest_int 24 (by norm_num) n h
  ten k _ := by
    have := Props.Grid.nearest_err 24 (by norm_num) ((10 : ℚ) ^ k)
    have hp : (0 : ℚ) < 10 ^ k := zpow_pos (by norm_num) k
    rw [abs_of_pos hp] at this
    exact this.trans (div_le_div_of_nonneg_left hp.le (by norm_num) (by norm_num))

/-- Values read twice: the first call changes the negative codes, so that the second returns something else.  A value
just below the reference becomes missing. -/
theorem C65_twice_witness (R : Real4) (manque : ℚ) (row : Row) :
    (decode R manque row (-2)).2 = R.r (R.r (-1 + row.ref : Int) / R.ten row.scale) ∧
    (decode R manque row (decode R manque row (-2)).1).2 = manque := ⟨rfl, rfl⟩

/-- Longitudes to five digits (element 006001, reference -18000000): the difference of two codes is lost, for any rounding
to nearest in single precision. -/
theorem C65_longitude_witness (R : Real4) (hs : ∀ y, Props.Grid.Single (R.r y))
    (hn : ∀ x y, Props.Grid.Single x → |R.r y - y| ≤ |x - y|) (manque : ℚ) :
    ∃ v, v ≠ 35999999 ∧ (decode R manque ⟨1537, 5, -18000000⟩ v).2 = (decode R manque ⟨1537, 5, -18000000⟩ 35999999).2 := by
  have exact : ∀ x, Props.Grid.Single x → R.r x = x := by
    intro x hx
    have := hn x x hx
    rw [sub_self, abs_zero] at this
    exact sub_eq_zero.1 (abs_eq_zero.1 (le_antisymm this (abs_nonneg _)))
  obtain ⟨m, e, hm, hv⟩ := hs 17999999
  have near := hn 18000000 17999999 ⟨9000000, 1, by norm_num, by norm_num⟩
  rw [show |(18000000 : ℚ) - 17999999| = 1 by norm_num, hv, abs_le] at near
  have he : 1 ≤ e := by
    by_contra hc
    have h1 : (2 : ℚ) ^ e ≤ 1 := by
      have := zpow_le_zpow_right₀ (show (1 : ℚ) ≤ 2 by norm_num) (show e ≤ 0 by omega)
      simpa using this
    have h2 : (m : ℚ) ≤ 2 ^ 24 := by
      have : m ≤ 2 ^ 24 := (abs_lt.1 hm).2.le
      exact_mod_cast this
    have h3 : (m : ℚ) * 2 ^ e ≤ 2 ^ 24 * 1 := mul_le_mul h2 h1 (zpow_nonneg (by norm_num) _) (by norm_num)
    linarith [near.1]
  obtain ⟨k, rfl⟩ : ∃ k : Nat, e = (k : Int) + 1 := ⟨(e - 1).toNat, by omega⟩
  have hint : (m : ℚ) * 2 ^ ((k : Int) + 1) = ((m * 2 ^ k * 2 : Int) : ℚ) := by
    rw [zpow_add₀ (by norm_num), zpow_natCast]
    push_cast
    ring
  rw [hint] at near hv
  obtain ⟨q, hq⟩ : ∃ q, q = m * 2 ^ k := ⟨_, rfl⟩
  rw [← hq] at near hv
  have hsingle : Props.Grid.Single ((q * 2 : Int) : ℚ) := by rw [← hv]; exact hs _
  have n1 : (-1 : ℚ) ≤ ((q * 2 - 17999999 : Int) : ℚ) ∧ ((q * 2 - 17999999 : Int) : ℚ) ≤ 1 := by
    push_cast at near ⊢
    exact near
  have n2 : (-1 : Int) ≤ q * 2 - 17999999 ∧ q * 2 - 17999999 ≤ 1 := by exact_mod_cast n1
  refine ⟨q * 2 + 18000000, by omega, ?_⟩
  have d1 : (decode R manque ⟨1537, 5, -18000000⟩ (q * 2 + 18000000)).2 = R.r (R.r ((q * 2 : Int) : ℚ) / R.ten 5) := by
    rw [decode, if_neg (by omega)]
    dsimp only
    rw [if_neg (by omega), show q * 2 + 18000000 + -18000000 = q * 2 by omega]
  have d2 : (decode R manque ⟨1537, 5, -18000000⟩ 35999999).2 = R.r (R.r 17999999 / R.ten 5) := by
    rw [decode, if_neg (by omega)]
    dsimp only
    rw [if_neg (by omega)]
    norm_num
  rw [d1, d2, exact _ hsingle, hv]

/-- Temperatures in tenths of a degree. -/
example : ∃ out, cvt0 ⟨Props.Grid.nearest 24, fun k => Props.Grid.nearest 24 (10 ^ k)⟩ (10 ^ 30)
      [⟨2817, 0, 0⟩, ⟨3073, 1, 0⟩] 3073 [2731, -1, -6] [] = some out ∧
    ∃ back, cvt1 ⟨Props.Grid.nearest 24, fun k => Props.Grid.nearest 24 (10 ^ k)⟩ (10 ^ 30)
      [⟨2817, 0, 0⟩, ⟨3073, 1, 0⟩] 3073 out.1 out.2 = some back ∧ back.1 = [2731, -1, -6] :=
  C65_codes_partial acc_nearest _ (by norm_num [abs_of_pos]) _ (by simp [Sorted]) _ _ _ (by simp [units])

end Props.Bufr
