import Verif.Date
/-!
# The Gregorian calendar

An independent description of the calendar (leap years, lengths of months, the day after a
day) and the facts that tie `jd` and `datec` to it.
-/
namespace Verif.Date

/-- The Gregorian rule for leap years. -/
def Leap (y : Int) : Prop := y % 4 = 0 ∧ (y % 100 ≠ 0 ∨ y % 400 = 0)

instance (y : Int) : Decidable (Leap y) := by unfold Leap; infer_instance

/-- Length of a month. -/
def monthLen (y m : Int) : Int :=
  if m = 2 then (if Leap y then 29 else 28)
  else if m = 4 ∨ m = 6 ∨ m = 9 ∨ m = 11 then 30 else 31

/-- A day of the calendar. -/
structure Day where
  y : Int
  m : Int
  d : Int
deriving Repr, DecidableEq

/-- The days that exist. -/
def Day.Exists (t : Day) : Prop := 1 ≤ t.m ∧ t.m ≤ 12 ∧ 1 ≤ t.d ∧ t.d ≤ monthLen t.y t.m

/-- The day after a day. -/
def Day.next (t : Day) : Day :=
  if t.d < monthLen t.y t.m then ⟨t.y, t.m, t.d + 1⟩
  else if t.m < 12 then ⟨t.y, t.m + 1, 1⟩
  else ⟨t.y + 1, 1, 1⟩

/-- The number the library gives to a day. -/
def Day.jd (t : Day) : Int := Date.jd t.y t.m t.d

theorem tdiv_pos (a b : Int) (h : 0 ≤ a) : a ÷ b = a / b := Int.tdiv_eq_ediv_of_nonneg h
theorem tmod_pos (a b : Int) (h : 0 ≤ a) : a mod b = a % b := Int.tmod_eq_emod_of_nonneg h

theorem Day.next_exists (t : Day) (h : t.Exists) : t.next.Exists := by
  obtain ⟨y, m, d⟩ := t
  simp only [Day.Exists, Day.next] at *
  by_cases h1 : d < monthLen y m
  · simp only [h1, if_true]; omega
  · simp only [h1, if_false]
    by_cases h2 : m < 12
    · simp only [h2, if_true]
      refine ⟨by omega, by omega, by omega, ?_⟩
      unfold monthLen; split
      · split <;> omega
      · split <;> omega
    · simp only [h2, if_false]; simp [monthLen]

/-- The formula for `jd` with floor divisions, by the month. -/
theorem jd_eq (y m d : Int) (hy : -4800 < y) (hm : 1 ≤ m ∧ m ≤ 12) :
    jd y m d = if m ≤ 2 then
      d - 32075 + (1461 * (y + 4799)) / 4 + (367 * (m + 10)) / 12 - (3 * ((y + 4899) / 100)) / 4
    else d - 32075 + (1461 * (y + 4800)) / 4 + (367 * (m - 2)) / 12 - (3 * ((y + 4900) / 100)) / 4 := by
  unfold jd
  by_cases h : m ≤ 2
  · have e : (m - 14) ÷ 12 = -1 := by
      rcases (by omega : m = 1 ∨ m = 2) with rfl | rfl <;> rfl
    rw [if_pos h, e, tdiv_pos _ _ (by omega), tdiv_pos _ _ (by omega), tdiv_pos (y + 4900 + -1) _ (by omega),
      tdiv_pos _ _ (by omega)]
    have e1 : y + 4800 + -1 = y + 4799 := by omega
    have e2 : m - 2 - -1 * 12 = m + 10 := by omega
    have e3 : y + 4900 + -1 = y + 4899 := by omega
    rw [e1, e2, e3]
  · have e : (m - 14) ÷ 12 = 0 := by
      rcases (by omega : m = 3 ∨ m = 4 ∨ m = 5 ∨ m = 6 ∨ m = 7 ∨ m = 8 ∨ m = 9 ∨ m = 10 ∨ m = 11 ∨ m = 12)
        with rfl | rfl | rfl | rfl | rfl | rfl | rfl | rfl | rfl | rfl <;> rfl
    rw [if_neg h, e, tdiv_pos _ _ (by omega), tdiv_pos _ _ (by omega), tdiv_pos (y + 4900 + 0) _ (by omega),
      tdiv_pos _ _ (by omega)]
    have e1 : y + 4800 + 0 = y + 4800 := by omega
    have e2 : m - 2 - 0 * 12 = m - 2 := by omega
    have e3 : y + 4900 + 0 = y + 4900 := by omega
    rw [e1, e2, e3]

theorem quad_step (y : Int) : 1461 * (y + 4800) / 4 - 1461 * (y + 4799) / 4 = if y % 4 = 0 then 366 else 365 := by
  obtain ⟨k, t, e, ht⟩ : ∃ k t : Int, y = 4 * k + t ∧ (t = 0 ∨ t = 1 ∨ t = 2 ∨ t = 3) :=
    ⟨y / 4, y % 4, by omega, by omega⟩
  rcases ht with rfl | rfl | rfl | rfl <;> subst e <;> split <;> omega

theorem cent_step (y : Int) : 3 * ((y + 4900) / 100) / 4 - 3 * ((y + 4899) / 100) / 4 =
    if y % 100 = 0 ∧ y % 400 ≠ 0 then 1 else 0 := by
  by_cases h : y % 100 = 0
  · obtain ⟨q, t, e, ht⟩ : ∃ q t : Int, y = 400 * q + 100 * t ∧ (t = 0 ∨ t = 1 ∨ t = 2 ∨ t = 3) :=
      ⟨y / 400, y % 400 / 100, by omega, by omega⟩
    have e1 : (y + 4900) / 100 = 4 * q + t + 49 := by omega
    have e2 : (y + 4899) / 100 = 4 * q + t + 48 := by omega
    rw [e1, e2]
    rcases ht with rfl | rfl | rfl | rfl <;> subst e <;> split <;> omega
  · have e1 : (y + 4900) / 100 = (y + 4899) / 100 := by omega
    rw [e1, if_neg (by omega)]; omega

/-- Consecutive days have consecutive numbers. -/
theorem jd_next (t : Day) (h : t.Exists) (hy : -4800 < t.y) : t.next.jd = t.jd + 1 := by
  obtain ⟨y, m, d⟩ := t
  obtain ⟨h1, h2, h3, h4⟩ := h
  simp only [Day.jd, Day.next] at *
  by_cases c : d < monthLen y m
  · rw [if_pos c]; simp only; rw [jd_eq _ _ _ hy ⟨h1, h2⟩, jd_eq _ _ _ hy ⟨h1, h2⟩]; split <;> omega
  · have hd : d = monthLen y m := by omega
    rw [if_neg c]
    by_cases c2 : m < 12
    · rw [if_pos c2]; simp only; rw [jd_eq _ _ _ hy ⟨by omega, by omega⟩, jd_eq _ _ _ hy ⟨h1, h2⟩]
      rw [hd]
      unfold monthLen
      rcases (by omega : m = 1 ∨ m = 2 ∨ m = 3 ∨ m = 4 ∨ m = 5 ∨ m = 6 ∨ m = 7 ∨ m = 8 ∨ m = 9 ∨ m = 10 ∨ m = 11)
        with rfl | rfl | rfl | rfl | rfl | rfl | rfl | rfl | rfl | rfl | rfl
      case inr.inl =>
        simp only [if_true, Int.reduceLE, Int.reduceAdd, if_false]
        by_cases l : Leap y
        all_goals
          have e1 := quad_step y
          have e2 := cent_step y
          generalize 1461 * (y + 4800) / 4 = A at *
          generalize 1461 * (y + 4799) / 4 = B at *
          generalize 3 * ((y + 4900) / 100) / 4 = C at *
          generalize 3 * ((y + 4899) / 100) / 4 = D at *
        · rw [if_pos l]; unfold Leap at l
          rw [if_pos (by omega)] at e1; rw [if_neg (by omega)] at e2; omega
        · rw [if_neg l]; unfold Leap at l
          by_cases l4 : y % 4 = 0
          · rw [if_pos l4] at e1; rw [if_pos (by omega)] at e2; omega
          · rw [if_neg l4] at e1; rw [if_neg (by omega)] at e2; omega
      all_goals simp
      all_goals try omega
    · have : m = 12 := by omega
      subst this
      rw [if_neg c2]; simp only; rw [jd_eq _ _ _ (by omega) ⟨by omega, by omega⟩, jd_eq _ _ _ hy ⟨h1, h2⟩]
      rw [hd]
      have e1 : y + 1 + 4799 = y + 4800 := by omega
      have e2 : y + 1 + 4899 = y + 4900 := by omega
      rw [e1, e2]
      simp [monthLen]
      omega

/-- `datec` on a day given by its century, year of the century, month (from March) and day. -/
theorem datec_core (N r M d JD : Int) (hN : 0 ≤ N) (hr : 0 ≤ r ∧ r < 100) (hM : 1 ≤ M ∧ M ≤ 12)
    (hd : 1 ≤ d) (hd2 : d ≤ 367 * (M + 1) / 12 - 367 * M / 12)
    (hd3 : M = 12 → d ≤ 29) (hd4 : M = 12 → d = 29 → r % 4 = 3 ∧ (r = 99 → N % 4 = 0))
    (hJ : JD + 68569 = 36525 * N - 3 * N / 4 + (d - 31 + 367 * M / 12) + 1461 * r / 4) :
    datec JD = (100 * (N - 49) + r + M / 11, M + 2 - 12 * (M / 11), d) := by
  have hDlo : 0 ≤ d - 31 + 367 * M / 12 := by omega
  have hDhi : d - 31 + 367 * M / 12 ≤ 365 := by omega
  have hD5 : d - 31 + 367 * M / 12 = 365 → r % 4 = 3 ∧ (r = 99 → N % 4 = 0) := by
    intro h
    have : M = 12 ∧ d = 29 := by omega
    exact hd4 this.1 this.2
  unfold datec
  rw [hJ]
  generalize hD : d - 31 + 367 * M / 12 = D at *
  simp only
  have e1 : (4 * (36525 * N - 3 * N / 4 + D + 1461 * r / 4)) ÷ 146097 = N := by
    rw [tdiv_pos _ _ (by omega)]; omega
  rw [e1]
  have e2 : 36525 * N - 3 * N / 4 + D + 1461 * r / 4 - (146097 * N + 3) ÷ 4 = D + 1461 * r / 4 := by
    rw [tdiv_pos _ _ (by omega)]; omega
  rw [e2]
  have e3 : (4000 * (D + 1461 * r / 4 + 1)) ÷ 1461001 = r := by
    rw [tdiv_pos _ _ (by omega)]; omega
  rw [e3]
  have e4 : D + 1461 * r / 4 - (1461 * r) ÷ 4 + 31 = d + 367 * M / 12 := by
    rw [tdiv_pos _ _ (by omega)]; omega
  rw [e4]
  have e5 : (80 * (d + 367 * M / 12)) ÷ 2447 = M := by
    rw [tdiv_pos _ _ (by omega)]; omega
  rw [e5]
  have e6 : d + 367 * M / 12 - (2447 * M) ÷ 80 = d := by
    rw [tdiv_pos _ _ (by omega)]; omega
  rw [e6, tdiv_pos M 11 (by omega)]

/-- The day number is the date again: `datec` inverts `jd` on every day that exists (of the
years the formulas are meant for). -/
theorem datec_jd (y m d : Int) (h : (⟨y, m, d⟩ : Day).Exists) (hy : -4800 < y) :
    datec (jd y m d) = (y, m, d) := by
  obtain ⟨h1, h2, h3, h4⟩ := h
  simp only at h1 h2 h3 h4
  by_cases c : m ≤ 2
  · have hl : d ≤ (if m = 2 then (if Leap y then 29 else 28) else 31) := by
      revert h4; unfold monthLen; split
      · exact id
      · rw [if_neg (by omega)]; exact id
    have hl2 : m = 2 → d ≤ 29 := by
      intro e; rw [if_pos e] at hl; split at hl <;> omega
    have hl3 : m = 2 → d = 29 → Leap y := by
      intro e e2; rw [if_pos e] at hl; split at hl
      · assumption
      · omega
    have hl4 : d ≤ 31 := by split at hl <;> omega
    rw [datec_core ((y + 4899) / 100) (y + 4799 - 100 * ((y + 4899) / 100 - 1)) (m + 10) d _
      (by omega) (by omega) (by omega) h3 (by omega) (by omega)]
    · rw [Prod.mk.injEq, Prod.mk.injEq]; omega
    · intro e e2
      have := hl3 (by omega) e2
      unfold Leap at this; omega
    · rw [jd_eq y m d hy ⟨h1, h2⟩, if_pos c]; omega
  · have hl : d ≤ 367 * (m - 2 + 1) / 12 - 367 * (m - 2) / 12 := by
      revert h4; unfold monthLen; rw [if_neg (by omega)]
      rcases (by omega : m = 3 ∨ m = 4 ∨ m = 5 ∨ m = 6 ∨ m = 7 ∨ m = 8 ∨ m = 9 ∨ m = 10 ∨ m = 11 ∨ m = 12)
        with rfl | rfl | rfl | rfl | rfl | rfl | rfl | rfl | rfl | rfl <;> simp
    rw [datec_core ((y + 4900) / 100) (y + 4800 - 100 * ((y + 4900) / 100 - 1)) (m - 2) d _
      (by omega) (by omega) (by omega) h3 hl (by omega)]
    · rw [Prod.mk.injEq, Prod.mk.injEq]; omega
    · intro e e2
      omega
    · rw [jd_eq y m d hy ⟨h1, h2⟩, if_neg c]; omega

instance (t : Day) : Decidable t.Exists := by unfold Day.Exists; infer_instance

/-- Every day number from 1 January of the year -4799 on is the number of a day. -/
theorem jd_surj (n : Nat) : ∃ t : Day, t.Exists ∧ -4800 < t.y ∧ t.jd = jd (-4799) 1 1 + n := by
  induction n with
  | zero => exact ⟨⟨-4799, 1, 1⟩, by decide, by decide, by simp [Day.jd]⟩
  | succ n ih =>
    obtain ⟨t, h1, h2, h3⟩ := ih
    refine ⟨t.next, Day.next_exists t h1, ?_, ?_⟩
    · unfold Day.next; split
      · exact h2
      · split
        · exact h2
        · simp only; omega
    · rw [jd_next t h1 h2, h3]; omega

/-- `jd` inverts `datec`, and `datec` only gives days that exist. -/
theorem jd_datec (j : Int) (h : jd (-4799) 1 1 ≤ j) :
    (⟨(datec j).1, (datec j).2.1, (datec j).2.2⟩ : Day).Exists ∧ -4800 < (datec j).1 ∧
      jd (datec j).1 (datec j).2.1 (datec j).2.2 = j := by
  obtain ⟨t, h1, h2, h3⟩ := jd_surj (j - jd (-4799) 1 1).toNat
  have : t.jd = j := by rw [h3]; omega
  obtain ⟨y, m, d⟩ := t
  simp only [Day.jd] at this
  rw [← this, datec_jd y m d h1 h2]
  exact ⟨h1, h2, rfl⟩

theorem monthLen_le (y m : Int) : monthLen y m ≤ 31 ∧ 28 ≤ monthLen y m := by
  unfold monthLen; split
  · split <;> omega
  · split <;> omega

/-- The days of a year lie between its first and its last day. -/
theorem jd_within (y m d : Int) (h : (⟨y, m, d⟩ : Day).Exists) (hy : -4800 < y) :
    jd y 1 1 ≤ jd y m d ∧ jd y m d ≤ jd y 12 31 := by
  obtain ⟨a1, a2, a3, a4⟩ := h
  simp only at *
  have := monthLen_le y m
  have j1 := jd_eq y 1 1 hy (by omega)
  have j2 := jd_eq y 12 31 hy (by omega)
  rw [if_pos (by omega)] at j1
  rw [if_neg (by omega)] at j2
  have q : 365 ≤ 1461 * (y + 4800) / 4 - 1461 * (y + 4799) / 4 := by
    rw [quad_step]; split <;> omega
  have c : 3 * ((y + 4900) / 100) / 4 - 3 * ((y + 4899) / 100) / 4 ≤ 1 := by
    rw [cent_step]; split <;> omega
  rw [j1, j2, jd_eq y m d hy ⟨a1, a2⟩]
  by_cases c2 : m ≤ 2
  · rw [if_pos c2]
    rcases (by omega : m = 1 ∨ m = 2) with rfl | rfl <;> omega
  · rw [if_neg c2]
    have hl : d ≤ 367 * (m - 2 + 1) / 12 - 367 * (m - 2) / 12 := by
      revert a4; unfold monthLen; rw [if_neg (by omega)]
      rcases (by omega : m = 3 ∨ m = 4 ∨ m = 5 ∨ m = 6 ∨ m = 7 ∨ m = 8 ∨ m = 9 ∨ m = 10 ∨ m = 11 ∨ m = 12)
        with rfl | rfl | rfl | rfl | rfl | rfl | rfl | rfl | rfl | rfl <;> simp
    rcases (by omega : m = 3 ∨ m = 4 ∨ m = 5 ∨ m = 6 ∨ m = 7 ∨ m = 8 ∨ m = 9 ∨ m = 10 ∨ m = 11 ∨ m = 12)
      with rfl | rfl | rfl | rfl | rfl | rfl | rfl | rfl | rfl | rfl <;> omega

/-- The first days of the years are in order. -/
theorem jd_jan (y : Int) (hy : -4800 < y) : ∀ n : Nat, jd y 1 1 + 365 * n ≤ jd (y + n) 1 1
  | 0 => by simp
  | n + 1 => by
    have ih := jd_jan y hy n
    have h := jd_next ⟨y + n, 12, 31⟩ (by simp [Day.Exists, monthLen]) (by simp only; omega)
    have h2 : (⟨y + n, 12, 31⟩ : Day).next = ⟨y + n + 1, 1, 1⟩ := by simp [Day.next, monthLen]
    rw [h2] at h
    simp only [Day.jd] at h
    have e : y + ((n + 1 : Nat) : Int) = y + n + 1 := by omega
    rw [e, h]
    rw [jd_eq (y + n) 12 31 (by omega) (by omega), if_neg (by omega)]
    rw [jd_eq (y + n) 1 1 (by omega) (by omega), if_pos (by omega)] at ih
    have q : 365 ≤ 1461 * (y + n + 4800) / 4 - 1461 * (y + n + 4799) / 4 := by
      rw [quad_step]; split <;> omega
    have c : 3 * ((y + n + 4900) / 100) / 4 - 3 * ((y + n + 4899) / 100) / 4 ≤
        1461 * (y + n + 4800) / 4 - 1461 * (y + n + 4799) / 4 - 365 := by
      rw [cent_step, quad_step]; split <;> split <;> omega
    omega

/-- Days of earlier years have smaller numbers. -/
theorem jd_year_lt (y m d y' m' d' : Int) (h : (⟨y, m, d⟩ : Day).Exists)
    (h' : (⟨y', m', d'⟩ : Day).Exists) (hy : -4800 < y) (hlt : y < y') : jd y m d < jd y' m' d' := by
  have a := (jd_within y m d h hy).2
  have b := (jd_within y' m' d' h' (by omega)).1
  have c := jd_next ⟨y, 12, 31⟩ (by simp [Day.Exists, monthLen]) hy
  have h2 : (⟨y, 12, 31⟩ : Day).next = ⟨y + 1, 1, 1⟩ := by simp [Day.next, monthLen]
  rw [h2] at c
  simp only [Day.jd] at c
  have e := jd_jan (y + 1) (by omega) (y' - (y + 1)).toNat
  have e2 : y + 1 + ((y' - (y + 1)).toNat : Int) = y' := by omega
  rw [e2] at e
  omega

end Verif.Date
