import Verif.EzLocate
import Verif.Props.EzCherche

/-! Lemmas on `EzLocate`. -/

namespace Verif.EzLocate

theorem trunc_spec (q : ℚ) : (0 ≤ q → 0 ≤ trunc q ∧ (trunc q : ℚ) ≤ q ∧ q < trunc q + 1) ∧
    (q < 0 → trunc q ≤ 0 ∧ q ≤ trunc q ∧ (trunc q : ℚ) < q + 1) := by
  constructor
  · intro h
    rw [trunc, if_pos h]
    exact ⟨Int.floor_nonneg.2 h, Int.floor_le q, Int.lt_floor_add_one q⟩
  · intro h
    rw [trunc, if_neg (not_le.2 h)]
    refine ⟨?_, Int.le_ceil q, Int.ceil_lt_add_one q⟩
    have := Int.ceil_mono h.le
    simpa using this

theorem fmod_spec (a : ℚ) : ∃ k : ℤ, fmod a 360 = a + 360 * k ∧ (0 ≤ a → 0 ≤ fmod a 360 ∧ fmod a 360 < 360) ∧
    (a < 0 → -360 < fmod a 360 ∧ fmod a 360 ≤ 0) := by
  have h := trunc_spec (a / 360)
  refine ⟨-trunc (a / 360), by simp only [fmod]; push_cast; ring, ?_, ?_⟩
  · intro ha
    obtain ⟨_, h1, h2⟩ := h.1 (by positivity)
    simp only [fmod]
    generalize (trunc (a / 360) : ℚ) = t at *
    rw [le_div_iff₀ (by norm_num)] at h1
    rw [div_lt_iff₀ (by norm_num)] at h2
    constructor <;> linarith
  · intro ha
    obtain ⟨_, h1, h2⟩ := h.2 (by rw [div_lt_iff₀ (by norm_num)]; linarith)
    simp only [fmod]
    generalize (trunc (a / 360) : ℚ) = t at *
    rw [div_le_iff₀ (by norm_num)] at h1
    rw [← sub_lt_iff_lt_add, lt_div_iff₀ (by norm_num)] at h2
    constructor <;> linarith

/-- Two values in the same window of 360 degrees that differ by whole turns are equal. -/
theorem turn_unique {a b s : ℚ} {k : ℤ} (h : a = b + 360 * k) (ha : s ≤ a) (ha' : a < s + 360)
    (hb : s ≤ b) (hb' : b < s + 360) : a = b := by
  have h1 : (-1 : ℚ) < k := by linarith
  have h2 : (k : ℚ) < 1 := by linarith
  have h1 : (-1 : ℤ) < k := by exact_mod_cast h1
  have h2 : k < (1 : ℤ) := by exact_mod_cast h2
  have : k = 0 := by omega
  rw [h, this]; simp

theorem fmod_lt {a : ℚ} (h0 : 0 ≤ a) (h1 : a < 360) : fmod (a + 360) 360 = a := by
  obtain ⟨k, e, p, _⟩ := fmod_spec (a + 360)
  obtain ⟨p1, p2⟩ := p (by linarith)
  exact turn_unique (s := 0) (k := k + 1) (by rw [e]; push_cast; ring) p1 (by linarith) h0 (by linarith)

theorem fmod_self {a : ℚ} (h0 : 0 ≤ a) (h1 : a < 360) : fmod a 360 = a := by
  obtain ⟨k, e, p, _⟩ := fmod_spec a
  obtain ⟨p1, p2⟩ := p h0
  exact turn_unique (s := 0) e p1 (by linarith) h0 (by linarith)

/-- Reduction to 0..360 as done by `gdllfxy` followed by `ez_ll2rgd`. -/
theorem lift (l : ℚ) : let m := fmod (l + 360) 360
    ∃ k : ℤ, (if m < 0 then m + 360 else m) = l + 360 * k ∧ 0 ≤ (if m < 0 then m + 360 else m) ∧
      (if m < 0 then m + 360 else m) < 360 := by
  intro m
  obtain ⟨k, e, p, q⟩ := fmod_spec (l + 360)
  change m = _ at e
  by_cases c : m < 0
  · rw [if_pos c]
    have : l + 360 < 0 := by
      by_contra h
      have := (p (not_lt.1 h)).1
      exact absurd c (not_lt.2 this)
    have := (q this).1
    refine ⟨k + 2, by rw [e]; push_cast; ring, ?_, by linarith⟩
    change -360 < m at this
    linarith
  · rw [if_neg c]
    refine ⟨k + 1, by rw [e]; push_cast; ring, not_lt.1 c, ?_⟩
    by_cases h : 0 ≤ l + 360
    · exact (p h).2
    · have := (q (not_le.1 h)).2
      change m ≤ 0 at this
      linarith

theorem if_lift (m : ℚ) (h : -360 ≤ m) : (if (if m < 0 then m + 360 else m) < 0 then (if m < 0 then m + 360 else m) + 360
    else (if m < 0 then m + 360 else m)) = (if m < 0 then m + 360 else m) := by
  split_ifs <;> linarith

/-! ## Axes -/

theorem get_nat (a : List ℚ) (i : ℕ) : get a (i : ℤ) = a[i]? := by
  simp only [get]
  rw [if_neg (by omega)]
  simp

theorem getD_lt {a : List ℚ} {i : ℕ} (h : i < a.length) : a.getD i 0 = a[i] := by simp [h]

theorem get_lt {a : List ℚ} {i : ℕ} (h : i < a.length) : get a (i : ℤ) = some (a.getD i 0) := by
  rw [get_nat, List.getElem?_eq_getElem h, getD_lt h]

/-- The first `n` entries ascend. -/
def Asc (a : List ℚ) (n : ℕ) : Prop := n ≤ a.length ∧ ∀ i j, i < j → j < n → a.getD i 0 < a.getD j 0

theorem asc_of_pairwise {a : List ℚ} (h : a.Pairwise (· < ·)) {n : ℕ} (hn : n ≤ a.length) : Asc a n := by
  refine ⟨hn, fun i j hij hj => ?_⟩
  have hj' : j < a.length := by omega
  have hi' : i < a.length := by omega
  rw [getD_lt hi', getD_lt hj']
  exact List.pairwise_iff_getElem.1 h i j hi' hj' hij

theorem Asc.le {a : List ℚ} {n : ℕ} (h : Asc a n) {i j : ℕ} (hij : i ≤ j) (hj : j < n) : a.getD i 0 ≤ a.getD j 0 := by
  rcases Nat.lt_or_eq_of_le hij with c | c
  · exact (h.2 i j c hj).le
  · rw [c]

/-- What `onAxis` computes: it interpolates in interval `k`, the one that holds the position, or the first
or last one for positions outside. -/
theorem onAxis_eq {a : List ℚ} {n : ℕ} (hn : 2 ≤ n) (hl : n ≤ a.length) (x : ℚ) :
    ∃ k : ℕ, k + 2 ≤ n ∧ (k = 0 ∨ (k + 1 : ℚ) ≤ x) ∧ (k + 2 = n ∨ x < k + 2) ∧
      onAxis a (n : ℤ) x = some (a.getD k 0 + (x - 1 - k) * (a.getD (k + 1) 0 - a.getD k 0)) := by
  have ht := trunc_spec x
  have key : ∃ k : ℕ, k + 2 ≤ n ∧ (k = 0 ∨ (k + 1 : ℚ) ≤ x) ∧ (k + 2 = n ∨ x < k + 2) ∧
      (if (if trunc x - 1 < 0 then 0 else trunc x - 1) > (n : ℤ) - 2 then (n : ℤ) - 2
        else (if trunc x - 1 < 0 then 0 else trunc x - 1)) = (k : ℤ) := by
    by_cases c0 : trunc x - 1 < 0
    · refine ⟨0, by omega, Or.inl rfl, ?_, ?_⟩
      · right
        rcases lt_or_ge x 0 with h | h
        · push_cast; linarith
        · have := (ht.1 h).2.2
          have h2 : (trunc x : ℚ) ≤ 0 := by exact_mod_cast (by omega : trunc x ≤ 0)
          push_cast; linarith
      · rw [if_pos c0, if_neg (by omega)]; simp
    · have hx : 0 ≤ x := by
        by_contra h
        have := (ht.2 (not_le.1 h)).1
        omega
      obtain ⟨_, h1, h2⟩ := ht.1 hx
      by_cases c1 : trunc x - 1 > (n : ℤ) - 2
      · refine ⟨n - 2, by omega, ?_, Or.inl (by omega), ?_⟩
        · right
          have : ((n - 2 : ℕ) : ℚ) + 1 ≤ (trunc x : ℚ) := by
            have : (((n - 2 : ℕ) : ℤ) + 1) ≤ trunc x := by omega
            exact_mod_cast this
          linarith
        · rw [if_neg c0, if_pos c1]; omega
      · refine ⟨(trunc x - 1).toNat, by omega, ?_, ?_, ?_⟩
        · right
          have e : (((trunc x - 1).toNat : ℕ) : ℤ) = trunc x - 1 := by omega
          have : (((trunc x - 1).toNat : ℕ) : ℚ) = trunc x - 1 := by exact_mod_cast e
          rw [this]; linarith
        · right
          have e : (((trunc x - 1).toNat : ℕ) : ℤ) = trunc x - 1 := by omega
          have : (((trunc x - 1).toNat : ℕ) : ℚ) = trunc x - 1 := by exact_mod_cast e
          rw [this]; linarith
        · rw [if_neg c0, if_neg c1]; omega
  obtain ⟨k, k1, k2, k3, e⟩ := key
  refine ⟨k, k1, k2, k3, ?_⟩
  have g0 : get a (k : ℤ) = some (a.getD k 0) := get_lt (by omega)
  have g1 : get a ((k : ℤ) + 1) = some (a.getD (k + 1) 0) := by
    have := get_lt (a := a) (i := k + 1) (by omega)
    exact_mod_cast this
  simp only [onAxis, e, g0, g1, Option.bind_eq_bind, Option.bind_some, Int.cast_natCast]

theorem onAxis_int {a : List ℚ} {n i : ℕ} (hn : 2 ≤ n) (hl : n ≤ a.length) (hi : i < n) :
    onAxis a (n : ℤ) (i + 1) = some (a.getD i 0) := by
  obtain ⟨k, k1, k2, k3, e⟩ := onAxis_eq hn hl ((i : ℚ) + 1)
  rw [e]
  have h1 : k ≤ i := by
    rcases k2 with h | h
    · omega
    · have : (k : ℚ) ≤ i := by linarith
      exact_mod_cast this
  have h2 : i = k ∨ i = k + 1 := by
    rcases k3 with h | h
    · omega
    · have : (i : ℚ) < k + 1 := by linarith
      have : i < k + 1 := by exact_mod_cast this
      omega
  rcases h2 with h | h
  · subst h; congr 1; ring
  · subst h; congr 1; push_cast; ring

/-- What `toAxis` computes. -/
theorem toAxis_eq {a : List ℚ} {n : ℕ} (hn : 2 ≤ n) (hn' : n ≤ 2 ^ 23) (ha : Asc a n) (v : ℚ) :
    ∃ k : ℕ, k + 2 ≤ n ∧ (k = 0 ∨ a.getD k 0 < v) ∧ (k + 2 = n ∨ v ≤ a.getD (k + 1) 0) ∧
      toAxis a n v = some (k + 1 + (v - a.getD k 0) / (a.getD (k + 1) 0 - a.getD k 0)) := by
  obtain ⟨i, e, h1, hi, hA, hB⟩ := EzCherche.C50_bracket_partial
    (leAxis a v) n n hn hn' (le_refl _)
  obtain ⟨k, rfl⟩ : ∃ k, i = k + 1 := ⟨i - 1, by omega⟩
  have g0 : get a (((k + 1 : ℕ) : ℤ) - 1) = some (a.getD k 0) := by
    have := get_lt (a := a) (i := k) (by have := ha.1; omega)
    rw [← this]; congr 1; omega
  have g1 : get a ((k + 1 : ℕ) : ℤ) = some (a.getD (k + 1) 0) := get_lt (by have := ha.1; omega)
  have g2 : get a (((k + 1 + 1 : ℕ) : ℤ) - 1) = some (a.getD (k + 1) 0) := by
    rw [← g1]; congr 1; omega
  have hd : a.getD (k + 1) 0 - a.getD k 0 ≠ 0 := by
    have := ha.2 k (k + 1) (by omega) (by omega); linarith
  refine ⟨k, by omega, ?_, ?_, ?_⟩
  · rcases hA with h | h
    · left; omega
    · right; simp only [leAxis, g0, decide_eq_false_iff_not, not_le] at h; exact h
  · rcases hB with h | h
    · left; omega
    · right; simp only [leAxis, g2, decide_eq_true_eq] at h; exact h
  · simp only [toAxis, e, Option.bind_eq_bind, Option.bind_some]
    rw [if_neg (by omega : ¬ k + 1 ≥ n)]
    simp only [g0, g1, Option.bind_some, if_neg hd]
    push_cast; rfl

/-- Index to value to index. -/
theorem axis_there {a : List ℚ} {n : ℕ} (hn : 2 ≤ n) (hn' : n ≤ 2 ^ 23) (ha : Asc a n) (x : ℚ) :
    ∃ v, onAxis a (n : ℤ) x = some v ∧ toAxis a n v = some x := by
  obtain ⟨m, m1, m2, m3, e⟩ := onAxis_eq hn ha.1 x
  refine ⟨_, e, ?_⟩
  generalize hv : a.getD m 0 + (x - 1 - m) * (a.getD (m + 1) 0 - a.getD m 0) = v
  obtain ⟨k, k1, k2, k3, e2⟩ := toAxis_eq hn hn' ha v
  rw [e2]
  have dm : 0 < a.getD (m + 1) 0 - a.getD m 0 := sub_pos.2 (ha.2 m (m + 1) (by omega) (by omega))
  have dk : 0 < a.getD (k + 1) 0 - a.getD k 0 := sub_pos.2 (ha.2 k (k + 1) (by omega) (by omega))
  rcases lt_trichotomy k m with h | h | h
  · have c1 : v ≤ a.getD (k + 1) 0 := by
      rcases k3 with q | q
      · omega
      · exact q
    have c2 := ha.le (show k + 1 ≤ m by omega) (by omega)
    have c3 : (m + 1 : ℚ) ≤ x := by
      rcases m2 with q | q
      · omega
      · exact q
    have c4 : 0 ≤ (x - 1 - m) * (a.getD (m + 1) 0 - a.getD m 0) := mul_nonneg (by linarith) dm.le
    have c5 : (x - 1 - m) * (a.getD (m + 1) 0 - a.getD m 0) = 0 := by linarith
    have c6 : x - 1 - m = 0 := by
      rcases mul_eq_zero.1 c5 with q | q
      · exact q
      · exact absurd q dm.ne'
    have c7 : k + 1 = m := by
      by_contra q
      have := ha.2 (k + 1) m (by omega) (by omega)
      linarith
    subst c7
    have : v = a.getD (k + 1) 0 := by linarith
    rw [this, div_self dk.ne']
    congr 1
    push_cast at c6
    linarith
  · subst h
    rw [← hv]
    congr 1
    field_simp
    ring
  · exfalso
    have c1 : a.getD k 0 < v := by
      rcases k2 with q | q
      · omega
      · exact q
    have c2 := ha.le (show m + 1 ≤ k by omega) (by omega)
    have c3 : x < m + 2 := by
      rcases m3 with q | q
      · omega
      · exact q
    have : (x - 1 - m) * (a.getD (m + 1) 0 - a.getD m 0) < 1 * (a.getD (m + 1) 0 - a.getD m 0) :=
      mul_lt_mul_of_pos_right (by linarith) dm
    linarith

/-- Value to index to value. -/
theorem axis_back {a : List ℚ} {n : ℕ} (hn : 2 ≤ n) (hn' : n ≤ 2 ^ 23) (ha : Asc a n) (v : ℚ) :
    ∃ x, toAxis a n v = some x ∧ onAxis a (n : ℤ) x = some v := by
  obtain ⟨k, k1, k2, k3, e⟩ := toAxis_eq hn hn' ha v
  refine ⟨_, e, ?_⟩
  have dk : 0 < a.getD (k + 1) 0 - a.getD k 0 := sub_pos.2 (ha.2 k (k + 1) (by omega) (by omega))
  generalize hx : (k + 1 + (v - a.getD k 0) / (a.getD (k + 1) 0 - a.getD k 0) : ℚ) = x
  have hv : v = a.getD k 0 + (x - 1 - k) * (a.getD (k + 1) 0 - a.getD k 0) := by
    rw [← hx]; field_simp; ring
  obtain ⟨m, m1, m2, m3, e2⟩ := onAxis_eq hn ha.1 x
  rw [e2]
  have hk0 : k = 0 ∨ (k + 1 : ℚ) < x := by
    rcases k2 with q | q
    · exact Or.inl q
    · right
      rw [← hx]
      have := div_pos (sub_pos.2 q) dk
      linarith
  have hk1 : k + 2 = n ∨ x ≤ k + 2 := by
    rcases k3 with q | q
    · exact Or.inl q
    · right
      rw [← hx]
      have : (v - a.getD k 0) / (a.getD (k + 1) 0 - a.getD k 0) ≤ 1 := by rw [div_le_one dk]; linarith
      linarith
  rcases lt_trichotomy m k with h | h | h
  · exfalso
    have c1 : (k + 1 : ℚ) < x := by rcases hk0 with q | q; · omega
                                    · exact q
    have c2 : x < m + 2 := by rcases m3 with q | q; · omega
                              · exact q
    have : (k : ℚ) < m + 1 := by linarith
    have : k < m + 1 := by exact_mod_cast this
    omega
  · subst h; rw [hv]
  · have c1 : x ≤ k + 2 := by rcases hk1 with q | q; · omega
                              · exact q
    have c2 : (m + 1 : ℚ) ≤ x := by rcases m2 with q | q; · omega
                                    · exact q
    have c3 : (m : ℚ) ≤ k + 1 := by linarith
    have c3 : m ≤ k + 1 := by exact_mod_cast c3
    have c4 : m = k + 1 := by omega
    subst c4
    have c5 : x = k + 2 := by push_cast at c2; linarith
    rw [hv, c5]
    congr 1; push_cast; ring

end Verif.EzLocate
