import Verif.Sorts
import Mathlib.Data.List.GetD
import Mathlib.Tactic.Linarith
import Mathlib.Tactic.NormNum
import Mathlib.Tactic.Positivity

/-!
C45, C46: the sorting routines return sorted permutations and terminate.
-/
namespace Props.Sorts
open Verif.Sorts

variable {α : Type}

/-- A comparison by which values can be sorted: numbers (not NaN; zeros of both signs are equal), strings. -/
structure Order (gt : α → α → Bool) : Prop where
  asym : ∀ a b, gt a b = true → gt b a = false
  trans : ∀ a b c, gt a b = false → gt b c = false → gt a c = false

theorem int_order : Order (fun a b : Int => decide (a > b)) :=
  ⟨by intro a b; simp; omega, by intro a b c; simp; omega⟩

/-- What is known of the quotient of the gap by 1.3: the gap is rounded to a float and 1.3 to a double. -/
def Divides (quot : Nat → ℚ) : Prop := ∀ g : Nat, |quot g - g * 10 / 13| ≤ g / 2 ^ 22

/-! ### Index sort -/

theorem next_pos (quot : Nat → ℚ) (g : Nat) : 1 ≤ next quot g := by
  unfold next
  dsimp only
  split
  · exact le_refl 1
  · split
    · omega
    · omega

theorem floor_bound (quot : Nat → ℚ) (h : Divides quot) (g : Nat) : 13 * ((⌊quot g⌋.toNat : Nat) : ℚ) ≤ g * (10 + 1 / 100000) := by
  have hg : (0 : ℚ) ≤ g := Nat.cast_nonneg g
  have hq := h g
  rw [abs_le] at hq
  by_cases h0 : ⌊quot g⌋ < 0
  · rw [Int.toNat_of_nonpos (by omega)]
    simp
    positivity
  · have e : ((⌊quot g⌋.toNat : Nat) : ℚ) = (⌊quot g⌋ : ℚ) := by
      have : ((⌊quot g⌋.toNat : Nat) : Int) = ⌊quot g⌋ := Int.toNat_of_nonneg (by omega)
      exact_mod_cast congrArg (fun z : Int => (z : ℚ)) this
    rw [e]
    have hfl := Int.floor_le (quot g)
    have : (g : ℚ) / 2 ^ 22 ≤ g * (1 / 1300000) := by
      rw [div_eq_mul_one_div]
      apply mul_le_mul_of_nonneg_left _ hg
      norm_num
    linarith [hq.2]

theorem next_lt (quot : Nat → ℚ) (h : Divides quot) (g : Nat) (hg : 2 ≤ g) : next quot g < g := by
  have hb := floor_bound quot h g
  obtain ⟨q, hq⟩ : ∃ q, q = ⌊quot g⌋.toNat := ⟨_, rfl⟩
  rw [← hq] at hb
  have h2 : (2 : ℚ) ≤ g := by exact_mod_cast hg
  have hlt : q < g := by
    have : (q : ℚ) < g := by nlinarith
    exact_mod_cast this
  unfold next
  dsimp only
  rw [← hq]
  split
  · omega
  · split
    · rename_i h9
      have h9' : (9 : ℚ) ≤ q := by
        have : 9 ≤ q := by omega
        exact_mod_cast this
      have : (11 : ℚ) < g := by nlinarith
      exact_mod_cast this
    · exact hlt

theorem next_one (quot : Nat → ℚ) (h : Divides quot) (g : Nat) (hg : g ≤ 1) : next quot g = 1 := by
  have hb := floor_bound quot h g
  obtain ⟨q, hq⟩ : ∃ q, q = ⌊quot g⌋.toNat := ⟨_, rfl⟩
  rw [← hq] at hb
  have h2 : (g : ℚ) ≤ 1 := by exact_mod_cast hg
  have : (q : ℚ) < 1 := by nlinarith
  have hq0 : q < 1 := by exact_mod_cast this
  unfold next
  dsimp only
  rw [← hq, if_pos (by omega)]

theorem swap_eq (idx : List Nat) (i j : Nat) (hi : i < idx.length) (hj : j < idx.length) (hij : i ≠ j) :
    swap idx i j = (idx.set i idx[j]).set j idx[i] := by
  unfold swap
  dsimp only
  have e1 : idx.getD i 0 = idx[i] := List.getD_eq_getElem _ _ hi
  have e2 : idx.getD j 0 = idx[j] := List.getD_eq_getElem _ _ hj
  have gi : ∀ x, (idx.set i x).getD i 0 = x := by
    intro x; rw [List.getD_eq_getElem _ _ (by simpa using hi)]; simp
  have gj : ∀ x, (idx.set i x).getD j 0 = idx[j] := by
    intro x; rw [List.getD_eq_getElem _ _ (by simpa using hj)]; simp [List.getElem_set, hij]
  have gj' : ∀ x y, ((idx.set i x).set j y).getD j 0 = y := by
    intro x y; rw [List.getD_eq_getElem _ _ (by simpa using hj)]; simp
  have gi' : ∀ x y, ((idx.set i x).set j y).getD i 0 = x := by
    intro x y; rw [List.getD_eq_getElem _ _ (by simpa using hi)]; simp [List.getElem_set, hij.symm]
  rw [e1, e2, gi, gj, gj', gi', Nat.xor_assoc, Nat.xor_self, Nat.xor_zero]
  have x1 : idx[i] ^^^ idx[j] ^^^ idx[i] = idx[j] := by
    rw [Nat.xor_comm idx[i], Nat.xor_assoc, Nat.xor_self, Nat.xor_zero]
  rw [x1, List.set_comm _ _ (Ne.symm hij), List.set_set]

theorem swap_perm (idx : List Nat) (i j : Nat) (hi : i < idx.length) (hj : j < idx.length) (hij : i ≠ j) :
    (swap idx i j).Perm idx := by
  rw [swap_eq idx i j hi hj hij]
  exact List.set_set_perm hi hj

/-- All indices are those of elements. -/
def InList (list : List α) (idx : List Nat) : Prop := ∀ a ∈ idx, 1 ≤ a ∧ a ≤ list.length

theorem value_some (list : List α) (idx : List Nat) (h : InList list idx) (i : Nat) (hi : i < idx.length) :
    ∃ x, value list idx[i] = some x := by
  obtain ⟨h1, h2⟩ := h _ (List.getElem_mem hi)
  unfold value
  rw [if_neg (by omega), List.getElem?_eq_getElem (by omega)]
  exact ⟨_, rfl⟩

theorem pass_spec (gt : α → α → Bool) (list : List α) (gap : Nat) (hg : 1 ≤ gap) :
    ∀ n i idx sw, InList list idx → i + n + gap ≤ idx.length →
      ∃ idx' k, pass gt list gap n i idx sw = some (idx', sw + k) ∧ idx'.Perm idx ∧
        (k = 0 → idx' = idx ∧ ∀ m, i ≤ m → m < i + n → ∀ (h1 : m < idx.length) (h2 : m + gap < idx.length) x y,
          value list idx[m] = some x → value list idx[m + gap] = some y → gt x y = false) := by
  intro n
  induction n with
  | zero => intro i idx sw _ _; exact ⟨idx, 0, rfl, List.Perm.refl _, fun _ => ⟨rfl, fun m h1 h2 => by omega⟩⟩
  | succ n ih =>
    intro i idx sw hin hlen
    obtain ⟨x, hx⟩ := value_some list idx hin i (by omega)
    obtain ⟨y, hy⟩ := value_some list idx hin (i + gap) (by omega)
    simp only [pass, List.getElem?_eq_getElem (show i < idx.length by omega),
      List.getElem?_eq_getElem (show i + gap < idx.length by omega), hx, hy]
    cases hgt : gt x y with
    | true =>
      simp only [if_true]
      have hp := swap_perm idx i (i + gap) (by omega) (by omega) (by omega)
      obtain ⟨idx', k, e, p, -⟩ := ih (i + 1) (swap idx i (i + gap)) (sw + 1) (fun a ha => hin a (hp.mem_iff.1 ha))
        (by rw [hp.length_eq]; omega)
      exact ⟨idx', k + 1, by rw [e]; congr 2; omega, p.trans hp, fun h => by omega⟩
    | false =>
      simp only [Bool.false_eq_true, if_false]
      obtain ⟨idx', k, e, p, hc⟩ := ih (i + 1) idx sw hin (by omega)
      refine ⟨idx', k, e, p, fun hk => ⟨(hc hk).1, ?_⟩⟩
      intro m h1 h2 g1 g2 x' y' e1 e2
      by_cases hm : m = i
      · subst hm
        rw [hx] at e1; rw [hy] at e2
        cases e1; cases e2
        exact hgt
      · exact (hc hk).2 m (by omega) (by omega) g1 g2 x' y' e1 e2

/-- Values in the order of the indices. -/
def values (list : List α) (idx : List Nat) : List (Option α) := idx.map (value list)

def ogt (gt : α → α → Bool) : Option α → Option α → Bool
  | some x, some y => gt x y
  | _, _ => false

/-- Number of pairs in the wrong order. -/
def inversions (gt : α → α → Bool) : List α → Nat
  | [] => 0
  | a :: t => t.countP (gt a) + inversions gt t

theorem inversions_swap (gt : α → α → Bool) (a b : α) (h : gt a b = true) (h' : gt b a = false) (post : List α) :
    ∀ pre, inversions gt (pre ++ b :: a :: post) + 1 = inversions gt (pre ++ a :: b :: post) := by
  intro pre
  induction pre with
  | nil => simp [inversions, h, h']; omega
  | cons c t ih =>
    simp only [List.cons_append, inversions]
    have : (t ++ b :: a :: post).countP (gt c) = (t ++ a :: b :: post).countP (gt c) := by
      simp only [List.countP_append, List.countP_cons]; omega
    omega

theorem split_two {β : Type} (l : List β) (i : Nat) (h : i + 1 < l.length) :
    l = l.take i ++ l[i] :: l[i + 1] :: l.drop (i + 2) := by
  conv_lhs => rw [← List.take_append_drop i l]
  rw [List.drop_eq_getElem_cons (by omega), List.drop_eq_getElem_cons (by omega)]

theorem set_two {β : Type} (l : List β) (i : Nat) (h : i + 1 < l.length) (x y : β) :
    (l.set i x).set (i + 1) y = l.take i ++ x :: y :: l.drop (i + 2) := by
  apply List.ext_getElem
  · simp; omega
  · intro k h1 h2
    simp only [List.getElem_set]
    by_cases k0 : k < i
    · rw [List.getElem_append_left (by simp; omega)]
      simp [show i + 1 ≠ k by omega, show i ≠ k by omega]
    · rw [List.getElem_append_right (by simp; omega)]
      by_cases k1 : k = i
      · subst k1
        simp [Nat.min_eq_left (show k ≤ l.length by omega)]
      · by_cases k2 : k = i + 1
        · subst k2
          simp [Nat.min_eq_left (show i ≤ l.length by omega)]
        · obtain ⟨r, rfl⟩ : ∃ r, k = i + 2 + r := ⟨k - (i + 2), by omega⟩
          simp [Nat.min_eq_left (show i ≤ l.length by omega), show i + 2 + r - i = r + 1 + 1 by omega,
            show i + 1 ≠ i + 2 + r by omega, show i ≠ i + 2 + r by omega]

theorem pass_inversions (gt : α → α → Bool) (ho : ∀ a b, gt a b = true → gt b a = false) (list : List α) :
    ∀ n i idx sw, InList list idx → i + n + 1 ≤ idx.length → ∀ idx' k,
      pass gt list 1 n i idx sw = some (idx', k) →
        inversions (ogt gt) (values list idx') + k = inversions (ogt gt) (values list idx) + sw := by
  intro n
  induction n with
  | zero => intro i idx sw _ _ idx' k h; simp only [pass] at h; cases h; rfl
  | succ n ih =>
    intro i idx sw hin hlen idx' k h
    obtain ⟨x, hx⟩ := value_some list idx hin i (by omega)
    obtain ⟨y, hy⟩ := value_some list idx hin (i + 1) (by omega)
    simp only [pass, List.getElem?_eq_getElem (show i < idx.length by omega),
      List.getElem?_eq_getElem (show i + 1 < idx.length by omega), hx, hy] at h
    cases hgt : gt x y with
    | true =>
      simp only [hgt, if_true] at h
      have hp := swap_perm idx i (i + 1) (by omega) (by omega) (by omega)
      have e := ih (i + 1) (swap idx i (i + 1)) (sw + 1) (fun a ha => hin a (hp.mem_iff.1 ha))
        (by rw [hp.length_eq]; omega) idx' k h
      rw [swap_eq idx i (i + 1) (by omega) (by omega) (by omega), set_two _ _ (by omega)] at e
      have e2 : values list idx = (idx.take i).map (value list) ++ some x :: some y :: (idx.drop (i + 2)).map (value list) := by
        unfold values
        conv_lhs => rw [split_two idx i (by omega)]
        simp only [List.map_append, List.map_cons, hx, hy]
      rw [e2]
      simp only [values, List.map_append, List.map_cons, hx, hy] at e ⊢
      have := inversions_swap (ogt gt) (some x) (some y) hgt (ho _ _ hgt) ((idx.drop (i + 2)).map (value list))
        ((idx.take i).map (value list))
      omega
    | false =>
      simp only [hgt, Bool.false_eq_true, if_false] at h
      exact ih (i + 1) idx sw hin (by omega) idx' k h

/-- The values in the order of the indices do not decrease. -/
def SortedBy (gt : α → α → Bool) (list : List α) (idx : List Nat) : Prop :=
  ∀ m k, m < k → ∀ (h1 : m < idx.length) (h2 : k < idx.length) x y, value list idx[m] = some x →
    value list idx[k] = some y → gt x y = false

theorem sorted_of_adjacent (gt : α → α → Bool) (ho : Order gt) (list : List α) (idx : List Nat) (hin : InList list idx)
    (h : ∀ m, ∀ (h1 : m < idx.length) (h2 : m + 1 < idx.length) x y,
      value list idx[m] = some x → value list idx[m + 1] = some y → gt x y = false) : SortedBy gt list idx := by
  intro m k hmk hm hk x y hx hy
  obtain ⟨d, rfl⟩ : ∃ d, k = m + 1 + d := ⟨k - (m + 1), by omega⟩
  induction d generalizing y with
  | zero => exact h m (by omega) hk x y hx hy
  | succ d ih =>
    obtain ⟨z, hz⟩ := value_some list idx hin (m + 1 + d) (by omega)
    have h1 := ih z (by omega) (by omega) hz
    exact ho.trans _ _ _ h1 (h (m + 1 + d) (by omega) hk z y hz hy)

theorem comb_one (quot : Nat → ℚ) (hq : Divides quot) (gt : α → α → Bool) (ho : Order gt) (list : List α) :
    ∀ v idx g, g ≤ 1 → InList list idx → idx.length = list.length → inversions (ogt gt) (values list idx) ≤ v →
      ∃ fuel r, comb quot gt list list.length fuel g idx = some r ∧ r.Perm idx ∧ SortedBy gt list r := by
  intro v
  induction v with
  | zero =>
    intro idx g hg hin hl hv
    by_cases h0 : list.length = 0
    · refine ⟨1, idx, ?_, List.Perm.refl _, ?_⟩
      · simp only [comb, next_one quot hq g hg, h0]
        rfl
      · intro m k _ _ hk; omega
    obtain ⟨idx', k, e, p, hc⟩ := pass_spec gt list 1 (le_refl 1) (list.length - 1) 0 idx 0 hin (by omega)
    rw [Nat.zero_add] at e
    have hi := pass_inversions gt ho.asym list _ _ _ _ hin (by omega) _ _ e
    have k0 : k = 0 := by omega
    subst k0
    obtain ⟨e', hs⟩ := hc rfl
    subst e'
    refine ⟨1, idx', ?_, List.Perm.refl _, ?_⟩
    · simp only [comb, next_one quot hq g hg, e]
      rfl
    · exact sorted_of_adjacent gt ho list idx' hin fun m h1 h2 => hs m (by omega) (by omega) h1 h2
  | succ v ih =>
    intro idx g hg hin hl hv
    by_cases h0 : list.length = 0
    · refine ⟨1, idx, ?_, List.Perm.refl _, ?_⟩
      · simp only [comb, next_one quot hq g hg, h0]
        rfl
      · intro m k _ _ hk; omega
    obtain ⟨idx', k, e, p, hc⟩ := pass_spec gt list 1 (le_refl 1) (list.length - 1) 0 idx 0 hin (by omega)
    rw [Nat.zero_add] at e
    have hi := pass_inversions gt ho.asym list _ _ _ _ hin (by omega) _ _ e
    by_cases k0 : k = 0
    · subst k0
      obtain ⟨e', hs⟩ := hc rfl
      subst e'
      refine ⟨1, idx', ?_, List.Perm.refl _, ?_⟩
      · simp only [comb, next_one quot hq g hg, e]
        rfl
      · exact sorted_of_adjacent gt ho list idx' hin fun m h1 h2 => hs m (by omega) (by omega) h1 h2
    · obtain ⟨fuel, r, e1, p1, s1⟩ := ih idx' 1 (le_refl 1) (fun a ha => hin a (p.mem_iff.1 ha))
        (by rw [p.length_eq]; exact hl) (by omega)
      refine ⟨fuel + 1, r, ?_, p1.trans p, s1⟩
      simp only [comb, next_one quot hq g hg, e]
      rw [if_pos (Or.inl k0)]
      exact e1

theorem comb_all (quot : Nat → ℚ) (hq : Divides quot) (gt : α → α → Bool) (ho : Order gt) (list : List α) :
    ∀ g idx, g ≤ list.length → InList list idx → idx.length = list.length →
      ∃ fuel r, comb quot gt list list.length fuel g idx = some r ∧ r.Perm idx ∧ SortedBy gt list r := by
  intro g
  induction g using Nat.strong_induction_on with
  | _ g ih =>
    intro idx hgl hin hl
    by_cases hg : g ≤ 1
    · exact comb_one quot hq gt ho list _ idx g hg hin hl (le_refl _)
    have hlt := next_lt quot hq g (by omega)
    have hpos := next_pos quot g
    obtain ⟨idx', k, e, p, hc⟩ := pass_spec gt list (next quot g) hpos (list.length - next quot g) 0 idx 0 hin (by omega)
    rw [Nat.zero_add] at e
    have hin' : InList list idx' := fun a ha => hin a (p.mem_iff.1 ha)
    have hl' : idx'.length = list.length := by rw [p.length_eq]; exact hl
    by_cases hcont : k ≠ 0 ∨ next quot g > 1
    · obtain ⟨fuel, r, e1, p1, s1⟩ := ih (next quot g) hlt idx' (by omega) hin' hl'
      refine ⟨fuel + 1, r, ?_, p1.trans p, s1⟩
      simp only [comb, e]
      rw [if_pos hcont]
      exact e1
    · have k0 : k = 0 := by omega
      have g1 : next quot g = 1 := by omega
      subst k0
      obtain ⟨e', hs⟩ := hc rfl
      subst e'
      refine ⟨1, idx', ?_, p, ?_⟩
      · simp only [comb, e]
        rw [if_neg hcont]
      · rw [g1] at hs
        exact sorted_of_adjacent gt ho list idx' hin fun m h1 h2 => hs m (by omega) (by omega) h1 h2

/-- C45.  For every array (not empty) and whatever was in the index array, `ipsort`, `ipsorti`, `ipsort8` and `ipsortc`
terminate, and return a permutation of 1 to n by which the values do not decrease; they touch nothing outside of
the arrays. -/
theorem C45 (quot : Nat → ℚ) (hq : Divides quot) (gt : α → α → Bool) (ho : Order gt) (list : List α)
    (hn : list ≠ []) (index : List Int) (hl : index.length = list.length) :
    ∃ fuel r, ipsort quot gt list fuel index = some r ∧ r.Perm ((List.range list.length).map (· + 1)) ∧
      SortedBy gt list r := by
  have hpos : 0 < list.length := List.length_pos_iff.2 hn
  have hin : InList list ((List.range list.length).map (· + 1)) := by
    intro a ha
    obtain ⟨k, hk, rfl⟩ := List.mem_map.1 ha
    rw [List.mem_range] at hk
    omega
  obtain ⟨fuel, r, e, p, s⟩ := comb_all quot hq gt ho list list.length ((List.range list.length).map (· + 1)) (le_refl _)
    hin (by simp)
  refine ⟨fuel, r, ?_, p, s⟩
  unfold ipsort csort
  rw [if_neg (by omega)]
  have e0 : (index.set 0 (-1))[0]? = some (-1) := by
    rw [List.getElem?_set_self (by omega)]
  simp only [e0]
  rw [if_pos (by omega), if_neg (by rw [List.length_set]; omega), List.drop_of_length_le (by rw [List.length_set]; omega)]
  simpa using e

/-- The same for `csort` with indices given: they are put in order. -/
theorem C45_given (quot : Nat → ℚ) (hq : Divides quot) (gt : α → α → Bool) (ho : Order gt) (list : List α)
    (hn : list ≠ []) (index : List Nat) (hl : index.length = list.length) (hin : InList list index) :
    ∃ fuel r, csort quot gt list fuel (index.map Int.ofNat) = some r ∧ r.Perm index ∧ SortedBy gt list r := by
  have hpos : 0 < list.length := List.length_pos_iff.2 hn
  obtain ⟨fuel, r, e, p, s⟩ := comb_all quot hq gt ho list list.length index (le_refl _) hin hl
  refine ⟨fuel, r, ?_, p, s⟩
  unfold csort
  have e0 : (index.map Int.ofNat)[0]? = some (Int.ofNat (index[0]'(by omega))) := by
    rw [List.getElem?_map, List.getElem?_eq_getElem (by omega)]
    rfl
  simp only [e0]
  have h1 := (hin _ (List.getElem_mem (show 0 < index.length by omega))).1
  rw [if_neg (by simp; omega)]
  rw [List.map_map]
  have : (Int.toNat ∘ Int.ofNat) = (id : Nat → Nat) := by funext x; rfl
  rw [this, List.map_id]
  exact e

/-- More rounds than needed do not change the result. -/
theorem comb_fuel (quot : Nat → ℚ) (gt : α → α → Bool) (list : List α) (n : Nat) : ∀ fuel g idx r,
    comb quot gt list n fuel g idx = some r → comb quot gt list n (fuel + 1) g idx = some r := by
  intro fuel
  induction fuel with
  | zero => intro g idx r h; cases h
  | succ f ih =>
    intro g idx r h
    simp only [comb] at h ⊢
    cases hp : pass gt list (next quot g) (n - next quot g) 0 idx 0 with
    | none => rw [hp] at h; cases h
    | some q =>
      rw [hp] at h
      obtain ⟨idx', k⟩ := q
      simp only at h ⊢
      by_cases hc : k ≠ 0 ∨ next quot g > 1
      · rw [if_pos hc] at h ⊢
        have := ih _ _ _ h
        simp only [comb] at this
        exact this
      · rw [if_neg hc] at h ⊢
        exact h

/-- With no elements, `ipsort` writes the first index all the same. -/
theorem C45_empty_witness (quot : Nat → ℚ) (gt : α → α → Bool) (fuel : Nat) : ipsort quot gt [] fuel [] = none := rfl

/-- Exact division is a possible quotient. -/
example : Divides (fun g => (g : ℚ) * 10 / 13) := by
  intro g
  simp
  positivity

example : ipsort (fun g => (g : ℚ) * 10 / 13) (fun a b : Int => decide (a > b)) [3, 1, 4, 1, 5, 9, 2, 6, 5, 3, 5, 8] 20
    (List.replicate 12 0) = some [4, 2, 7, 1, 10, 3, 5, 11, 9, 8, 12, 6] := by decide +kernel

/-! ### Heap sort -/

/-- Element at a position counted from 1. -/
def v (d : α) (l : List α) (k : Nat) : α := l.getD (k - 1) d

theorem v_set (d : α) (l : List α) (i : Nat) (x : α) (h1 : 1 ≤ i) (h2 : i ≤ l.length) (k : Nat) (hk : 1 ≤ k) :
    v d (l.set (i - 1) x) k = if k = i then x else v d l k := by
  unfold v
  by_cases e : k = i
  · subst e
    rw [if_pos rfl, List.getD_eq_getElem _ _ (by rw [List.length_set]; omega)]
    simp
  · rw [if_neg e]
    simp only [List.getD_eq_getElem?_getD, List.getElem?_set]
    rw [if_neg (by omega)]

theorem get_v (d : α) (l : List α) (k : Nat) (h : k < l.length) : l[k]? = some (v d l (k + 1)) := by
  unfold v
  rw [List.getElem?_eq_getElem h, Nat.add_sub_cancel, List.getD_eq_getElem _ _ h]

/-- Every element from 2 * `lo` to `hi` is at most the one at half its position. -/
def Heap (gt : α → α → Bool) (d : α) (l : List α) (lo hi : Nat) : Prop :=
  ∀ c, c ≤ hi → lo ≤ c / 2 → gt (v d l c) (v d l (c / 2)) = false

theorem move_perm (l : List α) (i j : Nat) (x : α) (hi : i < l.length) (hj : j < l.length) (hij : i ≠ j) :
    ((l.set i l[j]).set j x).Perm (l.set i x) := by
  have hi' : i < (l.set i x).length := by simpa using hi
  have hj' : j < (l.set i x).length := by simpa using hj
  have := List.set_set_perm (as := l.set i x) hi' hj'
  have e1 : (l.set i x)[j] = l[j] := by simp [hij]
  have e2 : (l.set i x)[i] = x := by simp
  rw [e1, e2, List.set_set] at this
  exact this

theorem sift_spec (gt : α → α → Bool) (ho : Order gt) (d : α) (nn lo : Nat) (save : α) (hlo : 1 ≤ lo) :
    ∀ fuel i l, lo ≤ i → i ≤ nn → nn ≤ l.length → nn + 1 ≤ fuel + i →
      (∀ c, c ≤ nn → lo ≤ c / 2 → c / 2 ≠ i →
        gt (v d (l.set (i - 1) save) c) (v d (l.set (i - 1) save) (c / 2)) = false) →
      (∀ c, c ≤ nn → c / 2 = i → lo ≤ i / 2 → gt (v d l c) (v d l (i / 2)) = false) →
      ∃ r, sift gt nn save fuel i l = some r ∧ r.Perm (l.set (i - 1) save) ∧ Heap gt d r lo nn ∧
        r.drop nn = l.drop nn := by
  intro fuel
  induction fuel with
  | zero => intro i l h1 h2 h3 h4; omega
  | succ fuel ih =>
    intro i l h1 h2 h3 h4 hA hB
    have hpl : (if 1 ≤ i ∧ i ≤ l.length then some (l.set (i - 1) save) else none) = some (l.set (i - 1) save) :=
      if_pos ⟨by omega, by omega⟩
    have hdrop : ∀ x, (l.set (i - 1) x).drop nn = l.drop nn := by
      intro x
      rw [List.drop_set_of_lt (by omega)]
    have vs := fun x k hk => v_set d l i x (by omega) (by omega) k hk
    by_cases hj : i + i > nn
    · refine ⟨l.set (i - 1) save, ?_, List.Perm.refl _, ?_, hdrop save⟩
      · simp only [sift, hpl, if_pos hj]
      · intro c hc hl
        exact hA c hc hl (by omega)
    · obtain ⟨j, hpick, hj2, hjn, hmax⟩ : ∃ j, pick gt nn (i + i) l = some j ∧ j / 2 = i ∧ j ≤ nn ∧
          ∀ c, c ≤ nn → c / 2 = i → gt (v d l c) (v d l j) = false := by
        have irr : ∀ a, gt a a = false := by
          intro a
          cases h : gt a a with
          | false => rfl
          | true => rw [ho.asym a a h] at h; cases h
        unfold pick
        by_cases hlt : i + i < nn
        · rw [if_pos hlt, get_v d l (i + i) (by omega), get_v d l (i + i - 1) (by omega)]
          rw [show i + i - 1 + 1 = i + i by omega]
          dsimp only
          cases hg : gt (v d l (i + i + 1)) (v d l (i + i)) with
          | true =>
            refine ⟨i + i + 1, rfl, by omega, by omega, ?_⟩
            intro c hc e
            have : c = i + i ∨ c = i + i + 1 := by omega
            rcases this with rfl | rfl
            · exact ho.asym _ _ hg
            · exact irr _
          | false =>
            refine ⟨i + i, rfl, by omega, by omega, ?_⟩
            intro c hc e
            have : c = i + i ∨ c = i + i + 1 := by omega
            rcases this with rfl | rfl
            · exact irr _
            · exact hg
        · rw [if_neg hlt]
          refine ⟨i + i, rfl, by omega, by omega, ?_⟩
          intro c hc e
          have : c = i + i := by omega
          subst this
          exact irr _
      have hget : l[j - 1]? = some (v d l j) := by
        rw [get_v d l (j - 1) (by omega), show j - 1 + 1 = j by omega]
      cases hgs : gt (v d l j) save with
      | false =>
        refine ⟨l.set (i - 1) save, ?_, List.Perm.refl _, ?_, hdrop save⟩
        · simp only [sift, hpl, if_neg hj, hpick, hget, hgs]
          rfl
        · intro c hc hl
          by_cases hci : c / 2 = i
          · rw [vs _ _ (by omega), vs _ _ (by omega), if_neg (by omega), if_pos hci]
            exact ho.trans _ _ _ (hmax c hc hci) hgs
          · exact hA c hc hl hci
      | true =>
        have hlen : (l.set (i - 1) (v d l j)).length = l.length := List.length_set
        have vs2 := fun x k hk => v_set d (l.set (i - 1) (v d l j)) j x (by omega) (by omega) k hk
        obtain ⟨r, e, p, hh, hd⟩ := ih j (l.set (i - 1) (v d l j)) (by omega) hjn (by omega) (by omega)
          (by
            intro c hc hl hne
            rw [vs2 _ _ (by omega), vs2 _ _ (by omega), vs _ _ (by omega), vs _ _ (by omega), if_neg hne]
            by_cases hci : c / 2 = i
            · rw [if_pos hci]
              by_cases hcj : c = j
              · rw [if_pos hcj]
                exact ho.asym _ _ hgs
              · rw [if_neg hcj, if_neg (by omega)]
                exact hmax c hc hci
            · rw [if_neg hci, if_neg (by intro h; exact hci (by rw [h]; exact hj2))]
              by_cases hc' : c = i
              · rw [if_pos hc']
                subst hc'
                exact hB j hjn hj2 hl
              · rw [if_neg hc']
                have := hA c hc hl hci
                rw [vs _ _ (by omega), vs _ _ (by omega), if_neg hc', if_neg hci] at this
                exact this)
          (by
            intro c hc hcj hl
            rw [vs _ _ (by omega), vs _ _ (by omega), if_neg (by omega), if_pos hj2]
            have := hA c hc (by omega) (by omega)
            rw [vs _ _ (by omega), vs _ _ (by omega), if_neg (by omega), if_neg (by omega), hcj] at this
            exact this)
        refine ⟨r, ?_, p.trans ?_, hh, ?_⟩
        · simp only [sift, if_neg hj, hpick, hget, hgs]
          rw [if_neg (by decide), if_pos ⟨by omega, by omega⟩]
          exact e
        · have ej : v d l j = l[j - 1]'(by omega) := by
            unfold v
            exact List.getD_eq_getElem _ _ (by omega)
          rw [ej]
          exact move_perm l (i - 1) (j - 1) save (by omega) (by omega) (by omega)
        · rw [hd, hdrop]

theorem siftup_spec (gt : α → α → Bool) (ho : Order gt) (d : α) (nn ii : Nat) (l : List α) (h1 : 1 ≤ ii) (h2 : ii ≤ nn)
    (h3 : nn ≤ l.length) (hh : Heap gt d l (ii + 1) nn) :
    ∃ r, siftup gt ii nn l = some r ∧ r.Perm l ∧ Heap gt d r ii nn ∧ r.drop nn = l.drop nn := by
  have hsame : l.set (ii - 1) (l[ii - 1]'(by omega)) = l := List.set_getElem_self (by omega)
  obtain ⟨r, e, p, hr, hd⟩ := sift_spec gt ho d nn ii (l[ii - 1]'(by omega)) h1 (nn + 1) ii l (Nat.le_refl _) h2 h3 (by omega)
    (by
      rw [hsame]
      intro c hc hl hne
      exact hh c hc (by omega))
    (by intro c _ _ hl; omega)
  rw [hsame] at p
  refine ⟨r, ?_, p, hr, hd⟩
  unfold siftup
  rw [if_neg (by omega), List.getElem?_eq_getElem (show ii - 1 < l.length by omega)]
  exact e

theorem build_spec (gt : α → α → Bool) (ho : Order gt) (d : α) (nn : Nat) : ∀ ii l, 1 ≤ ii → ii ≤ nn → nn ≤ l.length →
    Heap gt d l (ii + 1) nn → ∃ r, build gt nn ii l = some r ∧ r.Perm l ∧ Heap gt d r 2 nn := by
  intro ii
  induction ii with
  | zero => intro l h; omega
  | succ ii ih =>
    intro l h1 h2 h3 hh
    cases ii with
    | zero => exact ⟨l, rfl, List.Perm.refl _, hh⟩
    | succ ii =>
      obtain ⟨r, e, p, hr, -⟩ := siftup_spec gt ho d nn (ii + 2) l (by omega) h2 h3 hh
      obtain ⟨r', e', p', hr'⟩ := ih r (by omega) (by omega) (by rw [p.length_eq]; exact h3) hr
      refine ⟨r', ?_, p'.trans p, hr'⟩
      simp only [build, e]
      exact e'

theorem heap_max (gt : α → α → Bool) (ho : Order gt) (d : α) (l : List α) (nn : Nat) (hh : Heap gt d l 1 nn) :
    ∀ k, 1 ≤ k → k ≤ nn → gt (v d l k) (v d l 1) = false := by
  intro k
  induction k using Nat.strong_induction_on with
  | _ k ih =>
    intro h1 h2
    by_cases hk : k = 1
    · subst hk
      cases h : gt (v d l 1) (v d l 1) with
      | false => rfl
      | true => rw [ho.asym _ _ h] at h; cases h
    · exact ho.trans _ _ _ (hh k h2 (by omega)) (ih (k / 2) (by omega) (by omega) (by omega))

/-- Elements from position `m` on are in order and no element before them is greater. -/
def Tail (gt : α → α → Bool) (d : α) (l : List α) (m : Nat) : Prop :=
  ∀ a b, 1 ≤ a → a < b → b ≤ l.length → m < b → gt (v d l a) (v d l b) = false

theorem v_drop (d : α) (l r : List α) (nn k : Nat) (h : r.drop nn = l.drop nn) (hk : nn < k) : v d r k = v d l k := by
  unfold v
  have e1 : (r.drop nn).getD (k - 1 - nn) d = r.getD (k - 1) d := by
    simp only [List.getD_eq_getElem?_getD, List.getElem?_drop]
    rw [show nn + (k - 1 - nn) = k - 1 by omega]
  have e2 : (l.drop nn).getD (k - 1 - nn) d = l.getD (k - 1) d := by
    simp only [List.getD_eq_getElem?_getD, List.getElem?_drop]
    rw [show nn + (k - 1 - nn) = k - 1 by omega]
  rw [← e1, ← e2, h]

theorem v_take (d : α) (l r : List α) (nn k : Nat) (p : r.Perm l) (h : r.drop nn = l.drop nn) (h1 : 1 ≤ k) (hk : k ≤ nn)
    (hn : nn ≤ l.length) : ∃ k', 1 ≤ k' ∧ k' ≤ nn ∧ v d r k = v d l k' := by
  have pt : (r.take nn).Perm (l.take nn) := by
    have p' := p
    rw [← List.take_append_drop nn r, ← List.take_append_drop nn l, h] at p'
    exact (List.perm_append_right_iff _).1 p'
  have hl := p.length_eq
  have hm : v d r k ∈ r.take nn := by
    unfold v
    rw [List.getD_eq_getElem _ _ (show k - 1 < r.length by omega)]
    exact List.mem_take_iff_getElem.2 ⟨k - 1, by omega, rfl⟩
  obtain ⟨q, hq, e⟩ := List.mem_take_iff_getElem.1 (pt.mem_iff.1 hm)
  refine ⟨q + 1, by omega, by omega, ?_⟩
  rw [← e]
  unfold v
  rw [Nat.add_sub_cancel, List.getD_eq_getElem _ _ (by omega)]

theorem drain_spec (gt : α → α → Bool) (ho : Order gt) (d : α) : ∀ nn l, 2 ≤ nn → nn ≤ l.length → Heap gt d l 2 nn →
    Tail gt d l nn → ∃ r, drain gt nn l = some r ∧ r.Perm l ∧ Tail gt d r 1 := by
  intro nn
  induction nn with
  | zero => intro l h; omega
  | succ nn ih =>
    intro l h2 hl hh ht
    obtain ⟨r, e, p, hr, hd⟩ := siftup_spec gt ho d (nn + 1) 1 l (Nat.le_refl 1) (by omega) hl hh
    have hlen := p.length_eq
    have hmax := heap_max gt ho d r (nn + 1) hr
    have ex : exchange (nn + 1) r = some ((r.set 0 (v d r (nn + 1))).set nn (v d r 1)) := by
      unfold exchange
      rw [if_neg (by omega), get_v d r 0 (by omega), Nat.add_sub_cancel, get_v d r nn (by omega)]
    obtain ⟨x, hx⟩ : ∃ x, x = (r.set 0 (v d r (nn + 1))).set nn (v d r 1) := ⟨_, rfl⟩
    have px : x.Perm r := by
      have e1 : v d r (nn + 1) = r[nn]'(by omega) := by
        unfold v; rw [Nat.add_sub_cancel]; exact List.getD_eq_getElem _ _ (by omega)
      have e2 : v d r 1 = r[0]'(by omega) := List.getD_eq_getElem _ _ (by omega)
      rw [hx, e1, e2]
      exact List.set_set_perm (by omega) (by omega)
    have vx : ∀ k, 1 ≤ k → v d x k = if k = nn + 1 then v d r 1 else if k = 1 then v d r (nn + 1) else v d r k := by
      intro k hk
      have a1 := v_set d (r.set 0 (v d r (nn + 1))) (nn + 1) (v d r 1) (by omega) (by rw [List.length_set]; omega) k hk
      have a2 := v_set d r 1 (v d r (nn + 1)) (Nat.le_refl 1) (by omega) k hk
      rw [hx]
      rw [Nat.add_sub_cancel] at a1
      rw [show 1 - 1 = 0 from rfl] at a2
      rw [a1, a2]
    have htx : Tail gt d x nn := by
      intro a b ha hab hb hn
      rw [px.length_eq, hlen] at hb
      by_cases hbn : b = nn + 1
      · subst hbn
        rw [vx (nn + 1) (by omega), if_pos rfl, vx a ha, if_neg (by omega)]
        split
        · exact hmax _ (by omega) (Nat.le_refl _)
        · exact hmax _ ha (by omega)
      · have hb' : nn + 1 < b := by omega
        have eb : v d x b = v d l b := by
          rw [vx b (by omega), if_neg hbn, if_neg (by omega)]
          exact v_drop d l r (nn + 1) b hd hb'
        rw [eb]
        have main : ∀ k, 1 ≤ k → k < b → gt (v d r k) (v d l b) = false := by
          intro k h1 h2
          by_cases hk : k ≤ nn + 1
          · obtain ⟨k', g1, g2, g3⟩ := v_take d l r (nn + 1) k p hd h1 hk hl
            rw [g3]
            exact ht k' b g1 (by omega) hb hb'
          · rw [v_drop d l r (nn + 1) k hd (by omega)]
            exact ht k b h1 h2 hb hb'
        rw [vx a ha]
        split
        · exact main 1 (by omega) (by omega)
        · split
          · exact main (nn + 1) (by omega) (by omega)
          · exact main a ha hab
    by_cases h3 : nn + 1 ≥ 3
    · have hhx : Heap gt d x 2 nn := by
        intro c hc hl2
        rw [vx c (by omega), vx (c / 2) (by omega), if_neg (by omega), if_neg (by omega), if_neg (by omega),
          if_neg (by omega)]
        exact hr c (by omega) (by omega)
      obtain ⟨r', e', p', t'⟩ := ih x (by omega) (by rw [px.length_eq, hlen]; omega) hhx htx
      refine ⟨r', ?_, p'.trans (px.trans p), t'⟩
      simp only [drain, e, ex]
      rw [if_pos h3, ← hx]
      exact e'
    · refine ⟨x, ?_, px.trans p, ?_⟩
      · simp only [drain, e, ex]
        rw [if_neg h3, ← hx]
      · have : nn = 1 := by omega
        subst this
        exact htx

theorem pairwise_of_tail (gt : α → α → Bool) (d : α) (l : List α) (h : Tail gt d l 1) :
    l.Pairwise (fun a b => gt a b = false) := by
  rw [List.pairwise_iff_getElem]
  intro i j hi hj hij
  have := h (i + 1) (j + 1) (by omega) (by omega) (by omega) (by omega)
  unfold v at this
  rw [Nat.add_sub_cancel, Nat.add_sub_cancel, List.getD_eq_getElem _ _ hi, List.getD_eq_getElem _ _ hj] at this
  exact this

/-- C46.  For every array, `isort` and `sort` terminate, touch nothing outside of the array, and leave in it a
permutation of what was there, in order. -/
theorem C46 (gt : α → α → Bool) (ho : Order gt) (l : List α) :
    ∃ r, sort gt l = some r ∧ r.Perm l ∧ r.Pairwise (fun a b => gt a b = false) := by
  unfold sort
  dsimp only
  by_cases h1 : l.length ≤ 1
  · rw [if_pos h1]
    refine ⟨l, rfl, List.Perm.refl _, ?_⟩
    rw [List.pairwise_iff_getElem]
    intro i j hi hj hij
    omega
  rw [if_neg h1]
  have d : α := l[0]'(by omega)
  have hb : ∃ r, (if l.length ≤ 3 then some l else build gt l.length (l.length / 2) l) = some r ∧ r.Perm l ∧
      Heap gt d r 2 l.length := by
    by_cases h3 : l.length ≤ 3
    · rw [if_pos h3]
      exact ⟨l, rfl, List.Perm.refl _, fun c hc hl => by omega⟩
    · rw [if_neg h3]
      exact build_spec gt ho d l.length (l.length / 2) l (by omega) (by omega) (Nat.le_refl _)
        (fun c hc hl => by omega)
  obtain ⟨r, e, p, hh⟩ := hb
  rw [e]
  dsimp only
  obtain ⟨r', e', p', t⟩ := drain_spec gt ho d l.length r (by omega) (by rw [p.length_eq]) hh
    (fun a b _ _ hb hn => by rw [p.length_eq] at hb; omega)
  exact ⟨r', e', p'.trans p, pairwise_of_tail gt d r' t⟩

example : sort (fun a b : Int => decide (a > b)) [3, 1, 4, 1, 5, -9, 2, 6, 5, 3, 5] =
    some [-9, 1, 1, 2, 3, 3, 4, 5, 5, 5, 6] := by decide +kernel

end Props.Sorts
