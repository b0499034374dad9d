import Verif.Spectral
import Mathlib.Tactic

namespace Verif.Spectral

/-! # C158: spectral transforms -/

/-- The first index of row `m` less 1. -/
def off (l : List ℕ) (m : ℕ) : ℕ := (l.take m).sum

theorem off_zero (l : List ℕ) : off l 0 = 0 := by simp [off]
theorem off_succ (a : ℕ) (l : List ℕ) (m : ℕ) : off (a :: l) (m + 1) = a + off l m := by simp [off]

theorem put_same {α : Type} (a : ℕ → α) (i : ℕ) (v : α) : put a i v i = v := by simp [put]
theorem put_ne {α : Type} (a : ℕ → α) {i j : ℕ} (v : α) (h : j ≠ i) : put a i v j = a j := by simp [put, h]

/-! ## Dimensions -/

theorem evens (n : ℕ) : ((List.range n).filter (· % 2 = 0)).length = (n + 1) / 2 := by
  induction n with
  | zero => rfl
  | succ n ih =>
    rw [List.range_succ, List.filter_append, List.length_append, ih]
    by_cases h : n % 2 = 0 <;> simp [h] <;> omega

theorem odds (n : ℕ) : ((List.range n).filter (· % 2 = 1)).length = n / 2 := by
  induction n with
  | zero => rfl
  | succ n ih =>
    rw [List.range_succ, List.filter_append, List.length_append, ih]
    by_cases h : n % 2 = 1 <;> simp [h] <;> omega

theorem foldl_fst (l : List (ℕ × ℕ)) (a : ℕ) : l.foldl (fun la r => la + r.1) a = a + (l.map (·.1)).sum := by
  induction l generalizing a with
  | nil => simp
  | cons x l ih => rw [List.foldl_cons, ih, List.map_cons, List.sum_cons]; omega

/-- **C158**, dimensions of a hemisphere: row `m` has as many symmetric places as there are even numbers among its degrees, and
as many antisymmetric ones as there are odd numbers; the size is the number of symmetric places. -/
theorem C158_hemisphere (lm ir khem : ℕ) (hk : khem ≠ 0) (ntrunc : Int) (d : Dims) (h : dimcal lm ir khem ntrunc = some d) :
    d.lrs.length = lm ∧ d.lra.length = lm ∧ d.la = d.lrs.sum ∧
    ∀ m < lm, d.lrs.getD m 0 = ((List.range (if ntrunc = 2 then ir + 1 - m else ir + 1)).filter (· % 2 = 0)).length ∧
      d.lra.getD m 0 = ((List.range (if ntrunc = 2 then ir + 1 - m else ir + 1)).filter (· % 2 = 1)).length := by
  unfold dimcal at h
  simp only at h
  split_ifs at h with h1 h2 h3 <;> obtain rfl := Option.some.inj h
  all_goals
    refine ⟨by simp, by simp, by simp [foldl_fst], fun m hm => ?_⟩
    simp only [List.getD_eq_getElem?_getD, List.getElem?_map, List.getElem?_range hm, Option.map_some, Option.getD_some, evens, odds]
  · have : ntrunc ≠ 2 := by omega
    refine ⟨?_, ?_⟩ <;> simp [rhomb, hk, this] <;> omega
  · simp only [triang, hk, h2, ne_eq, not_false_eq_true, if_true]; omega
  · refine ⟨?_, ?_⟩ <;> simp [rhomb, hk, h2] <;> omega

/-- C158, dimensions of the globe: all degrees are in both lists. -/
theorem C158_globe (lm ir : ℕ) (ntrunc : Int) (d : Dims) (h : dimcal lm ir 0 ntrunc = some d) :
    d.lra = d.lrs ∧ d.lrs.length = lm ∧ d.la = d.lrs.sum ∧ ∀ m < lm, d.lrs.getD m 0 = if ntrunc = 2 then ir + 1 - m else ir + 1 := by
  unfold dimcal at h
  simp only at h
  split_ifs at h with h1 h2 h3 <;> obtain rfl := Option.some.inj h
  all_goals
    refine ⟨by simp [rhomb, triang], by simp, by simp [foldl_fst], fun m hm => ?_⟩
    simp only [List.getD_eq_getElem?_getD, List.getElem?_map, List.getElem?_range hm, Option.map_some, Option.getD_some]
  · have : ntrunc ≠ 2 := by omega
    simp [rhomb, this]
  · simp only [triang, h2, ne_eq, not_true_eq_false, if_true, if_false]; omega
  · simp [rhomb, h2]

/-- C158.  It stops for a triangle with more rows than degrees only; a truncation other than 1 and 2 is taken for 1. -/
theorem C158_stop (lm ir khem : ℕ) (ntrunc : Int) :
    (dimcal lm ir khem ntrunc = none ↔ ntrunc = 2 ∧ ir + 1 < lm) ∧ (ntrunc ≠ 2 → dimcal lm ir khem ntrunc = dimcal lm ir khem 1) := by
  unfold dimcal
  constructor
  · simp only
    split_ifs with h1 h2 h3 <;> simp <;> omega
  · intro h
    simp only
    split_ifs <;> simp_all

example : dimcal 4 5 1 2 = some { lrs := [3, 3, 2, 2], lra := [3, 2, 2, 1], la := 10 } ∧ dimcal 7 5 1 2 = none := by decide +kernel

/-! ## Separation of symmetric and antisymmetric values -/

theorem asRow_spec {α : Type} (w : ℕ → α) (mhs mha mf n k : ℕ) (hn : 1 ≤ n) (a : ℕ → α) (hd : mhs + k ≤ mha) (j : ℕ) :
    asRow w mhs mha mf n k a j =
      if mhs + n ≤ j ∧ j < mhs + n + k then w (mf + 2 * (j - mhs) - 1)
      else if mha + n ≤ j ∧ j < mha + n + k then w (mf + 2 * (j - mha))
      else a j := by
  induction k generalizing n a with
  | zero => rw [if_neg (by omega), if_neg (by omega)]; rfl
  | succ k ih =>
    rw [asRow, ih (n + 1) (by omega) _ (by omega)]
    by_cases h1 : j = mha + n
    · subst h1
      rw [if_neg (by omega), if_neg (by omega), put_same, if_neg (by omega), if_pos (by omega)]
      congr 1; omega
    · rw [put_ne _ _ h1]
      by_cases h2 : j = mhs + n
      · subst h2
        rw [if_neg (by omega), put_same, if_neg (by omega), if_pos (by omega)]
        congr 1; congr 1; omega
      · rw [put_ne _ _ h2]
        have e1 : (mhs + (n + 1) ≤ j ∧ j < mhs + (n + 1) + k) ↔ (mhs + n ≤ j ∧ j < mhs + n + (k + 1)) := by omega
        have e2 : (mha + (n + 1) ≤ j ∧ j < mha + (n + 1) + k) ↔ (mha + n ≤ j ∧ j < mha + n + (k + 1)) := by omega
        simp only [e1, e2]

theorem asRows_spec {α : Type} (w : ℕ → α) (l : List (ℕ × ℕ)) (mhs mha mf la : ℕ) (a : ℕ → α)
    (hl : ∀ p ∈ l, p.2 ≤ p.1) (hs : mhs + (l.map (·.1)).sum ≤ la) (ha : la ≤ mha) :
    (∀ j, j ≤ mhs ∨ (la < j ∧ j ≤ mha) → asRows w l mhs mha mf a j = a j) ∧
    ∀ m n, m < l.length →
      (n < (l.map (·.1)).getD m 0 → asRows w l mhs mha mf a (mhs + off (l.map (·.1)) m + n + 1) = w (mf + 2 * off (l.map (·.1)) m + 2 * n + 1)) ∧
      (n < (l.map (·.2)).getD m 0 → asRows w l mhs mha mf a (mha + off (l.map (·.2)) m + n + 1) = w (mf + 2 * off (l.map (·.1)) m + 2 * n + 2)) := by
  induction l generalizing mhs mha mf a with
  | nil => exact ⟨fun _ _ => rfl, by simp⟩
  | cons p l ih =>
    obtain ⟨lhs, lha⟩ := p
    have hp : lha ≤ lhs := hl (lhs, lha) (by simp)
    simp only [List.map_cons, List.sum_cons] at hs
    have hr := ih (mhs + lhs) (mha + lha) (mf + 2 * lhs) (asRow w mhs mha mf 1 lhs a) (fun q hq => hl q (by simp [hq])) (by omega) (by omega)
    have hrow := asRow_spec w mhs mha mf 1 lhs (by omega) a (by omega)
    constructor
    · intro j hj
      rw [asRows, hr.1 j (by omega), hrow, if_neg (by omega), if_neg (by omega)]
    · intro m n hm
      cases m with
      | zero =>
        simp only [List.map_cons, List.getD_cons_zero, off_zero]
        constructor
        · intro hn
          rw [asRows, hr.1 _ (by omega), hrow, if_pos (by omega)]
          congr 1; omega
        · intro hn
          rw [asRows, hr.1 _ (by omega), hrow, if_neg (by omega), if_pos (by omega)]
          congr 1; omega
      | succ m =>
        simp only [List.map_cons, List.getD_cons_succ, off_succ]
        simp only [List.length_cons] at hm
        have := hr.2 m n (by omega)
        constructor
        · intro hn
          have h := this.1 hn
          rw [asRows, show mhs + (lhs + off (l.map (·.1)) m) + n + 1 = mhs + lhs + off (l.map (·.1)) m + n + 1 by omega, h]
          congr 1; ring
        · intro hn
          have h := this.2 hn
          rw [asRows, show mha + (lha + off (l.map (·.2)) m) + n + 1 = mha + lha + off (l.map (·.2)) m + n + 1 by omega, h]
          congr 1; ring

theorem off_le (l : List ℕ) (m : ℕ) (hm : m < l.length) : off l m + l.getD m 0 ≤ l.sum := by
  induction l generalizing m with
  | nil => simp at hm
  | cons a l ih =>
    cases m with
    | zero => simp [off_zero]
    | succ m =>
      simp only [List.length_cons] at hm
      have := ih m (by omega)
      simp only [off_succ, List.getD_cons_succ, List.sum_cons]; omega

/-- C158, separation.  Rows of 2 LRS values become rows of LRS values at odd places, from the first place on, and rows of LRA values
at even places, from LA on. -/
theorem C158_separation {α : Type} (alp wrk : ℕ → α) (la : ℕ) (l : List (ℕ × ℕ)) (hl : ∀ p ∈ l, p.2 ≤ p.1)
    (hs : (l.map (·.1)).sum = la) (m n : ℕ) (hm : m < l.length) :
    (n < (l.map (·.1)).getD m 0 → alpas alp wrk la l (off (l.map (·.1)) m + n + 1) = alp (2 * off (l.map (·.1)) m + 2 * n + 1)) ∧
    (n < (l.map (·.2)).getD m 0 → alpas alp wrk la l (la + off (l.map (·.2)) m + n + 1) = alp (2 * off (l.map (·.1)) m + 2 * n + 2)) := by
  have h := (asRows_spec (fun i => if 1 ≤ i ∧ i ≤ 2 * la then alp i else wrk i) l 0 la 0 la alp hl (by omega) (le_refl _)).2 m n hm
  have ho := off_le (l.map (·.1)) m (by simpa using hm)
  simp only [Nat.zero_add] at h
  constructor
  · intro hn
    rw [alpas, h.1 hn, if_pos (by omega)]
  · intro hn
    have hle : (l.map (·.2)).getD m 0 ≤ (l.map (·.1)).getD m 0 := by
      simp only [List.getD_eq_getElem?_getD, List.getElem?_map, List.getElem?_eq_getElem hm, Option.map_some, Option.getD_some]
      exact hl _ (List.getElem_mem hm)
    rw [alpas, h.2 hn, if_pos (by omega)]

example : (List.range 9).map (alpas (fun i => i) (fun _ => 0) 5 [(2, 2), (2, 1), (1, 1)]) = [0, 1, 3, 5, 7, 9, 2, 4, 6] ∧
    (∀ p ∈ [(2, 2), (2, 1), (1, 1)], p.2 ≤ p.1) ∧ ([(2, 2), (2, 1), (1, 1)].map (·.1)).sum = 5 := by decide +kernel

/-! ## Transforms -/

section
variable {K : Type} [Field K]

theorem dot_eq (alp sc : ℕ → K) (i k : ℕ) (f : K) : dot alp sc i k f = f + ∑ n ∈ Finset.range k, alp (i + n) * sc (i + n) := by
  induction k generalizing i f with
  | zero => simp [dot]
  | succ k ih =>
    rw [dot, ih, Finset.sum_range_succ', add_zero, add_assoc]
    congr 1
    rw [add_comm]
    congr 1
    apply Finset.sum_congr rfl
    intro n _
    rw [show i + 1 + n = i + (n + 1) by omega]

theorem spafRows_spec (alp sc : ℕ → K) (m0 mr : ℕ) (l : List ℕ) (c : ℕ → K) :
    (∀ j, j < m0 ∨ m0 + l.length ≤ j → spafRows alp sc m0 mr l c j = c j) ∧
    ∀ m, m < l.length → spafRows alp sc m0 mr l c (m0 + m) =
      ∑ n ∈ Finset.range (l.getD m 0), alp (mr + off l m + 1 + n) * sc (mr + off l m + 1 + n) := by
  induction l generalizing m0 mr c with
  | nil => exact ⟨fun _ _ => rfl, by simp⟩
  | cons lr l ih =>
    have hr := ih (m0 + 1) (mr + lr) (put c m0 (dot alp sc (mr + 1) lr 0))
    constructor
    · intro j hj
      simp only [List.length_cons] at hj
      rw [spafRows, hr.1 j (by omega), put_ne _ _ (by omega)]
    · intro m hm
      cases m with
      | zero =>
        rw [spafRows, hr.1 (m0 + 0) (by omega), show m0 + 0 = m0 from rfl, put_same, dot_eq, zero_add]
        simp [off_zero]
      | succ m =>
        simp only [List.length_cons] at hm
        have := hr.2 m (by omega)
        rw [spafRows, show m0 + (m + 1) = m0 + 1 + m by omega, this]
        simp only [List.getD_cons_succ, off_succ, Nat.add_assoc]

theorem rows_cases (lr : List ℕ) : rows lr = lr ∨ ∃ l, lr = l ++ [0] ∧ rows lr = l := by
  unfold rows
  split
  · rename_i h
    right
    refine ⟨lr.dropLast, ?_, rfl⟩
    obtain ⟨l, rfl⟩ := List.getLast?_eq_some_iff.1 h
    simp
  · left; rfl

/-- **C158**, spectral to Fourier: each coefficient is the sum of the products in its row, 0 for a row of length 0. -/
theorem C158_spaf (cfc sc : ℕ → K) (lr : List ℕ) (alp : ℕ → K) (m : ℕ) (hm : m < lr.length) :
    spaf cfc sc lr alp (m + 1) = ∑ n ∈ Finset.range (lr.getD m 0), alp (off lr m + 1 + n) * sc (off lr m + 1 + n) := by
  have h := spafRows_spec alp sc 1 0 (rows lr) (put cfc lr.length 0)
  rcases rows_cases lr with hr | ⟨l, rfl, hr⟩
  · rw [hr] at h
    rw [spaf, hr]
    have := h.2 m hm
    rw [Nat.add_comm m 1, this]
    simp
  · rw [hr] at h
    rw [spaf, hr]
    simp only [List.length_append, List.length_cons, List.length_nil] at hm h ⊢
    by_cases hl : m < l.length
    · have := h.2 m hl
      rw [Nat.add_comm m 1, this]
      have e1 : (l ++ [0]).getD m 0 = l.getD m 0 := by simp [List.getD_eq_getElem?_getD, List.getElem?_append_left hl]
      have e2 : off (l ++ [0]) m = off l m := by simp [off, List.take_append_of_le_length hl.le]
      rw [e1, e2]; simp
    · have : m = l.length := by omega
      subst this
      rw [h.1 _ (by omega), put_same]
      simp

theorem addRow_spec (alp : ℕ → K) (c : K) (i k : ℕ) (s : ℕ → K) (j : ℕ) :
    addRow alp c i k s j = if i ≤ j ∧ j < i + k then s j + c * alp j else s j := by
  induction k generalizing i s with
  | zero => rw [if_neg (by omega)]; rfl
  | succ k ih =>
    rw [addRow, ih]
    by_cases h : j = i
    · subst h; rw [if_neg (by omega), put_same, if_pos (by omega)]
    · rw [put_ne _ _ h]
      congr 1
      simp only [eq_iff_iff]; omega

theorem faspRows_spec (cfc alp : ℕ → K) (w : K) (m0 mr : ℕ) (l : List ℕ) (s : ℕ → K) :
    (∀ j, j ≤ mr → faspRows cfc alp w m0 mr l s j = s j) ∧
    ∀ m n, m < l.length → n < l.getD m 0 →
      faspRows cfc alp w m0 mr l s (mr + off l m + 1 + n) =
        s (mr + off l m + 1 + n) + cfc (m0 + m) * w * alp (mr + off l m + 1 + n) := by
  induction l generalizing m0 mr s with
  | nil => exact ⟨fun _ _ => rfl, by simp⟩
  | cons lr l ih =>
    have hr := ih (m0 + 1) (mr + lr) (addRow alp (cfc m0 * w) (mr + 1) lr s)
    constructor
    · intro j hj
      rw [faspRows, hr.1 j (by omega), addRow_spec, if_neg (by omega)]
    · intro m n hm hn
      cases m with
      | zero =>
        simp only [List.getD_cons_zero] at hn
        rw [faspRows, off_zero, hr.1 _ (by omega), addRow_spec, if_pos (by omega)]
        simp only [Nat.add_zero]
      | succ m =>
        simp only [List.getD_cons_succ, List.length_cons] at hn hm
        have := hr.2 m n (by omega) hn
        rw [faspRows, off_succ, show mr + (lr + off l m) + 1 + n = mr + lr + off l m + 1 + n by omega, this, addRow_spec,
          if_neg (by omega), show m0 + 1 + m = m0 + (m + 1) by omega]

/-- C158, Fourier to spectral: what one latitude adds. -/
theorem C158_fasp (sc : ℕ → K) (lr : List ℕ) (cfc alp : ℕ → K) (w : K) (m n : ℕ) (hm : m < lr.length) (hn : n < lr.getD m 0) :
    fasp sc lr cfc alp w (off lr m + 1 + n) = sc (off lr m + 1 + n) + cfc (m + 1) * w * alp (off lr m + 1 + n) := by
  have h := faspRows_spec cfc alp w 1 0 (rows lr) sc
  rcases rows_cases lr with hr | ⟨l, rfl, hr⟩
  · rw [hr] at h
    rw [fasp, hr]
    have := h.2 m n hm hn
    simpa only [Nat.zero_add, Nat.add_comm 1 m] using this
  · rw [hr] at h
    rw [fasp, hr]
    have hl : m < l.length := by
      simp only [List.length_append, List.length_cons, List.length_nil] at hm
      by_contra hc
      have : m = l.length := by omega
      subst this
      simp at hn
    have e1 : (l ++ [0]).getD m 0 = l.getD m 0 := by simp [List.getD_eq_getElem?_getD, List.getElem?_append_left hl]
    have e2 : off (l ++ [0]) m = off l m := by simp [off, List.take_append_of_le_length hl.le]
    rw [e1] at hn
    rw [e2]
    have := h.2 m n hl hn
    simpa only [Nat.zero_add, Nat.add_comm 1 m] using this

/-- Both transforms, latitude by latitude (weight and Legendre values); the Fourier array is used again for each. -/
def there (lr : List ℕ) (sc : ℕ → K) : List (K × (ℕ → K)) → (ℕ → K) → (ℕ → K) → (ℕ → K)
  | [], _, acc => acc
  | (w, alp) :: ls, cfc, acc => there lr sc ls (spaf cfc sc lr alp) (fasp acc lr (spaf cfc sc lr alp) alp w)

theorem there_spec (lr : List ℕ) (sc : ℕ → K) (ls : List (K × (ℕ → K))) (cfc acc : ℕ → K) (m n : ℕ) (hm : m < lr.length) (hn : n < lr.getD m 0) :
    there lr sc ls cfc acc (off lr m + 1 + n) = acc (off lr m + 1 + n) +
      ∑ k ∈ Finset.range (lr.getD m 0), sc (off lr m + 1 + k) *
        (ls.map fun p => p.1 * p.2 (off lr m + 1 + k) * p.2 (off lr m + 1 + n)).sum := by
  induction ls generalizing cfc acc with
  | nil => simp [there]
  | cons p ls ih =>
    obtain ⟨w, alp⟩ := p
    rw [there, ih, C158_fasp _ _ _ _ _ _ _ hm hn, C158_spaf _ _ _ _ _ hm, add_assoc]
    congr 1
    rw [Finset.sum_mul, Finset.sum_mul, ← Finset.sum_add_distrib]
    apply Finset.sum_congr rfl
    intro k _
    simp only [List.map_cons, List.sum_cons]
    ring

/-- **C158**.  If the Legendre values of each row are orthonormal with the weights of the latitudes, spectral coefficients which
are transformed to Fourier coefficients at each latitude and back come back, whatever the arrays were. -/
theorem C158_roundtrip (lr : List ℕ) (sc cfc : ℕ → K) (ls : List (K × (ℕ → K)))
    (ho : ∀ m < lr.length, ∀ k < lr.getD m 0, ∀ n < lr.getD m 0,
      (ls.map fun p => p.1 * p.2 (off lr m + 1 + k) * p.2 (off lr m + 1 + n)).sum = if k = n then 1 else 0)
    (m n : ℕ) (hm : m < lr.length) (hn : n < lr.getD m 0) :
    there lr sc ls cfc (fun _ => 0) (off lr m + 1 + n) = sc (off lr m + 1 + n) := by
  rw [there_spec lr sc ls cfc _ m n hm hn, zero_add, Finset.sum_eq_single_of_mem n (Finset.mem_range.2 hn)]
  · rw [ho m hm n hn n hn, if_pos rfl, mul_one]
  · intro k hk hne
    rw [ho m hm k (Finset.mem_range.1 hk) n hn, if_neg hne, mul_zero]

end

/-- Two latitudes, rows of two values and one. -/
def lats : List (ℚ × (ℕ → ℚ)) := [(1 / 2, fun i => if i = 2 then -1 else 1), (1 / 2, fun _ => 1)]

example : (∀ m < [2, 1].length, ∀ k < [2, 1].getD m 0, ∀ n < [2, 1].getD m 0,
      (lats.map fun p => p.1 * p.2 (off [2, 1] m + 1 + k) * p.2 (off [2, 1] m + 1 + n)).sum = if k = n then 1 else 0) ∧
    (List.range 5).map (there [2, 1] (fun i => (i : ℚ) + 5) lats (fun _ => 9) (fun _ => 0)) = [0, 6, 7, 8, 0] := by decide +kernel


end Verif.Spectral
