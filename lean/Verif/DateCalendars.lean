import Verif.DateStamp
/-!
# The three calendars, and what the adjustment does in each of them
-/
namespace Verif.Date

/-- The days of the calendar. -/
def Calendar.Has : Calendar → Day → Prop
  | .gregorian, t => t.Exists
  | .noLeap, t => t.Exists ∧ ¬ (t.m = 2 ∧ t.d = 29)
  | .days360, t => t.Exists ∧ ¬ (t.m = 2 ∧ t.d = 29) ∧ ¬ (t.m > 4 ∧ t.d = 31)

instance (c : Calendar) (t : Day) : Decidable (c.Has t) := by
  cases c <;> unfold Calendar.Has <;> infer_instance

/-- The day after, in the calendar: the next day that the calendar has. -/
def Calendar.next (c : Calendar) (t : Day) : Day := if c.Has t.next then t.next else t.next.next

/-- A running number of the days of the calendar. -/
def Calendar.number : Calendar → Day → Int
  | .gregorian, t => jd t.y t.m t.d
  | .noLeap, t => number365 t.y t.m t.d
  | .days360, t => 360 * t.y + rank360 t.m t.d

theorem Calendar.has_exists {c : Calendar} {t : Day} (h : c.Has t) : t.Exists := by
  cases c
  · exact h
  · exact h.1
  · exact h.1

/-- The months by number. -/
theorem month_cases {m : Int} (h : 1 ≤ m ∧ m ≤ 12) : m = 1 ∨ m = 2 ∨ m = 3 ∨ m = 4 ∨ m = 5 ∨ m = 6 ∨ m = 7 ∨
    m = 8 ∨ m = 9 ∨ m = 10 ∨ m = 11 ∨ m = 12 := by omega

/-- Days of a month that the calendar has. -/
def Calendar.kept : Calendar → Int → Int → Int
  | .gregorian, y, m => monthLen y m
  | .noLeap, y, m => if m = 2 then 28 else monthLen y m
  | .days360, y, m => if m = 2 then 28 else if m > 4 then 30 else monthLen y m

theorem monthLen_at (y m : Int) (h : 1 ≤ m ∧ m ≤ 12) (h2 : m ≠ 2) :
    monthLen y m = if m = 4 ∨ m = 6 ∨ m = 9 ∨ m = 11 then 30 else 31 := by
  unfold monthLen
  rcases month_cases h with h | h | h | h | h | h | h | h | h | h | h | h <;> subst h <;> simp at *

theorem monthLen_feb (y : Int) : monthLen y 2 = 28 ∨ monthLen y 2 = 29 := by
  unfold monthLen
  simp only [if_true]
  split <;> simp

theorem Calendar.has_iff (c : Calendar) (y m d : Int) :
    c.Has ⟨y, m, d⟩ ↔ 1 ≤ m ∧ m ≤ 12 ∧ 1 ≤ d ∧ d ≤ c.kept y m := by
  cases c
  · exact Iff.rfl
  all_goals
    simp only [Calendar.Has, Day.Exists, Calendar.kept]
    by_cases h : 1 ≤ m ∧ m ≤ 12
    · by_cases h2 : m = 2
      · subst h2
        have := monthLen_feb y
        simp only [if_true, true_and]
        omega
      · have := monthLen_at y m h h2
        have l := monthLen_le y m
        rw [if_neg h2]
        (try split) <;> (try split at this) <;> omega
    · omega

theorem Calendar.kept_len (c : Calendar) (y m : Int) (h : 1 ≤ m ∧ m ≤ 12) :
    c.kept y m ≤ monthLen y m ∧ monthLen y m ≤ c.kept y m + 1 ∧ 1 ≤ c.kept y m := by
  have l := monthLen_le y m
  cases c
  · simp only [Calendar.kept]; omega
  all_goals
    simp only [Calendar.kept]
    by_cases h2 : m = 2
    · subst h2
      have := monthLen_feb y
      simp only [if_true]
      omega
    · have := monthLen_at y m h h2
      rw [if_neg h2]
      (try split) <;> (try split at this) <;> omega

theorem Calendar.next_eq (c : Calendar) (y m d : Int) (h : c.Has ⟨y, m, d⟩) :
    c.next ⟨y, m, d⟩ = if d < c.kept y m then ⟨y, m, d + 1⟩ else if m < 12 then ⟨y, m + 1, 1⟩ else ⟨y + 1, 1, 1⟩ := by
  have hi := (c.has_iff y m d).1 h
  have k := c.kept_len y m ⟨hi.1, hi.2.1⟩
  have first : ∀ y m, 1 ≤ m → m ≤ 12 → c.Has ⟨y, m, 1⟩ := by
    intro y m h1 h2
    exact (c.has_iff y m 1).2 ⟨h1, h2, by omega, (c.kept_len y m ⟨h1, h2⟩).2.2⟩
  unfold Calendar.next
  by_cases c1 : d < c.kept y m
  · have e : Day.next ⟨y, m, d⟩ = ⟨y, m, d + 1⟩ := by
      unfold Day.next; simp only; rw [if_pos (by omega)]
    rw [e, if_pos ((c.has_iff y m (d + 1)).2 ⟨hi.1, hi.2.1, by omega, by omega⟩), if_pos c1]
  · rw [if_neg c1]
    by_cases c2 : d < monthLen y m
    · have e : Day.next ⟨y, m, d⟩ = ⟨y, m, d + 1⟩ := by
        unfold Day.next; simp only; rw [if_pos c2]
      have n : ¬ c.Has ⟨y, m, d + 1⟩ := by
        intro h; have := (c.has_iff y m (d + 1)).1 h; omega
      rw [e, if_neg n]
      unfold Day.next
      simp only
      rw [if_neg (by omega)]
    · have e : Day.next ⟨y, m, d⟩ = if m < 12 then ⟨y, m + 1, 1⟩ else ⟨y + 1, 1, 1⟩ := by
        unfold Day.next; simp only; rw [if_neg c2]
      rw [e]
      by_cases c3 : m < 12
      · rw [if_pos c3, if_pos (first y (m + 1) (by omega) (by omega))]
      · rw [if_neg c3, if_pos (first (y + 1) 1 (by omega) (by omega))]

/-- The running number counts the days of the calendar one by one. -/
theorem Calendar.number_next (c : Calendar) (t : Day) (h : c.Has t) (hy : -4800 < t.y) :
    c.Has (c.next t) ∧ c.number (c.next t) = c.number t + 1 := by
  have he := c.has_exists h
  have hne := Day.next_exists t he
  obtain ⟨y, m, d⟩ := t
  have hi := (c.has_iff y m d).1 h
  have first : ∀ y m, 1 ≤ m → m ≤ 12 → c.Has ⟨y, m, 1⟩ := by
    intro y m h1 h2
    exact (c.has_iff y m 1).2 ⟨h1, h2, by omega, (c.kept_len y m ⟨h1, h2⟩).2.2⟩
  refine ⟨?_, ?_⟩
  · rw [c.next_eq y m d h]
    split
    · exact (c.has_iff y m (d + 1)).2 ⟨hi.1, hi.2.1, by omega, by omega⟩
    · split
      · exact first _ _ (by omega) (by omega)
      · exact first _ _ (by omega) (by omega)
  · cases c with
    | gregorian =>
      have e : Calendar.next .gregorian ⟨y, m, d⟩ = Day.next ⟨y, m, d⟩ := by
        unfold Calendar.next; exact if_pos hne
      rw [e]
      exact jd_next _ he hy
    | noLeap =>
      rw [Calendar.next_eq _ y m d h]
      have a := hi.2.2.2
      simp only [Calendar.kept] at a ⊢
      rcases month_cases ⟨hi.1, hi.2.1⟩ with h | h | h | h | h | h | h | h | h | h | h | h <;> subst h <;>
        simp [monthLen] at a ⊢ <;> split <;> simp [Calendar.number, number365, cum] <;> omega
    | days360 =>
      rw [Calendar.next_eq _ y m d h]
      have a := hi.2.2.2
      simp only [Calendar.kept] at a ⊢
      rcases month_cases ⟨hi.1, hi.2.1⟩ with h | h | h | h | h | h | h | h | h | h | h | h <;> subst h <;>
        simp [monthLen] at a ⊢ <;> split <;> simp [Calendar.number, rank360, cum] <;> omega

theorem rank_cases {y m d : Int} (h : Has360 y m d) :
    (m = 1 ∧ rank360 m d = d ∧ d ≤ 31 ∧ 1 ≤ d) ∨ (m = 2 ∧ rank360 m d = 31 + d ∧ d ≤ 28 ∧ 1 ≤ d) ∨
    (m = 3 ∧ rank360 m d = 59 + d ∧ d ≤ 31 ∧ 1 ≤ d) ∨ (4 ≤ m ∧ rank360 m d = 90 + 30 * (m - 4) + d ∧ d ≤ 30 ∧ 1 ≤ d) := by
  rcases has360_cases h with h | h | h | h
  · obtain ⟨rfl, h1, h2⟩ := h
    left; refine ⟨rfl, ?_, h2, h1⟩; simp [rank360, cum]
  · obtain ⟨rfl, h1, h2⟩ := h
    right; left; refine ⟨rfl, ?_, h2, h1⟩; simp [rank360, cum]
  · obtain ⟨rfl, h1, h2⟩ := h
    right; right; left; refine ⟨rfl, ?_, h2, h1⟩; simp [rank360, cum]
  · right; right; right
    refine ⟨h.1, ?_, h.2.2.2, h.2.2.1⟩
    unfold rank360
    rw [if_neg (by omega)]

/-- Gregorian days minus days of the calendar do not decrease. -/
theorem Calendar.slack_mono (c : Calendar) {y m d y' m' d' : Int} (h : c.Has ⟨y, m, d⟩) (h' : c.Has ⟨y', m', d'⟩)
    (hy : 0 ≤ y) (hy' : 0 ≤ y') (hn : c.number ⟨y, m, d⟩ ≤ c.number ⟨y', m', d'⟩) :
    jd y m d - c.number ⟨y, m, d⟩ ≤ jd y' m' d' - c.number ⟨y', m', d'⟩ := by
  cases c with
  | gregorian => simp only [Calendar.number] at *; omega
  | noLeap =>
    rw [jd_split h.1 hy, jd_split h'.1 hy']
    have := leapsBefore_mono h.1 h.2 hy h'.1 h'.2 hy' hn
    simp only [Calendar.number]
    omega
  | days360 =>
    rw [jd_split h.1 hy, jd_split h'.1 hy']
    have r := leapsBefore_range y m hy
    have r' := leapsBefore_range y' m' hy'
    have k : Has360 y m d := h
    have k' : Has360 y' m' d' := h'
    have b := (rank_to360 k).2
    have b' := (rank_to360 k').2
    have sl : ∀ {y m d}, Has360 y m d → 0 ≤ cum m + d - rank360 m d ∧ cum m + d - rank360 m d ≤ 4 := by
      intro y m d h
      rcases month_cases ⟨h.1.1, h.1.2.1⟩ with q | q | q | q | q | q | q | q | q | q | q | q <;> subst q <;>
        simp [rank360, cum] <;> omega
    have s1 := sl k
    have s2 := sl k'
    simp only [Calendar.number, number365] at *
    rcases (by omega : y < y' ∨ y = y') with g | g
    · have := leaps_mono (y + 1) y' (by omega) (by omega)
      omega
    · subst g
      have hm : m ≤ m' := by
        by_cases q : m ≤ m'
        · exact q
        · exfalso
          have a := rank_cases k
          have a' := rank_cases k'
          omega
      have l : leapsBefore y m ≤ leapsBefore y m' := by
        unfold leapsBefore
        by_cases hl : Leap y
        · by_cases q1 : m > 2
          · rw [if_pos ⟨q1, hl⟩, if_pos ⟨by omega, hl⟩]
          · rw [if_neg (fun h => q1 h.1)]; split <;> omega
        · rw [if_neg (fun h => hl h.2), if_neg (fun h => hl h.2)]
      have s3 : cum m + d - rank360 m d ≤ cum m' + d' - rank360 m' d' := by
        have e : ∀ m d, 1 ≤ m ∧ m ≤ 12 → cum m + d - rank360 m d = 
            if m ≤ 5 then 0 else if m ≤ 7 then 1 else if m = 8 then 2 else if m ≤ 10 then 3 else 4 := by
          intro m d h
          rcases month_cases h with q | q | q | q | q | q | q | q | q | q | q | q <;> subst q <;>
            simp [rank360, cum] <;> omega
        rw [e m d ⟨h.1.1, h.1.2.1⟩, e m' d' ⟨h'.1.1, h'.1.2.1⟩]
        repeat' split
        all_goals omega
      omega

/-- Adding hours and then the adjustment lands on the true date of the moment as many hours later in
the calendar. -/
theorem adjust_ok {mode : Mode} {y2 m2 d2 tod2 yt mt dt tod n : Int} (R : Rounding 53) (cal : Calendar) (junk : Int)
    (p2 : Point mode y2 m2 d2 tod2) (c2 : cal.Has ⟨y2, m2, d2⟩) (ok2 : okYear mode y2)
    (pt : Point mode yt mt dt tod) (ct : cal.Has ⟨yt, mt, dt⟩) (ok : okYear mode yt)
    (h80 : mode = .basic → tod % 720 = 0 ∨ (1980 ≤ y2 ∧ 1980 ≤ yt))
    (hb : cal = .noLeap → n < 0 → Leap y2 → ¬ (m2 = 2 ∧ d2 = 28 ∧ tod2 = dayUnits mode - 1))
    (hne : cal = .days360 → mode = .basic → ¬ (yt = 1901 ∧ mt = 1 ∧ dt = 1 ∧ tod = 720))
    (hn : cal.number ⟨yt, mt, dt⟩ * dayUnits mode + tod =
      cal.number ⟨y2, m2, d2⟩ * dayUnits mode + tod2 + n * hourUnits mode) :
    enc mode (jd y2 m2 d2) tod2 + n * hourUnits mode +
      calendarAdjust R cal mode true junk (enc mode (jd y2 m2 d2) tod2 + n * hourUnits mode) (enc mode (jd y2 m2 d2) tod2) *
        dayUnits mode = enc mode (jd yt mt dt) tod := by
  cases cal with
  | gregorian =>
    simp only [Calendar.number, calendarAdjust] at *
    cases mode <;> simp only [enc, base, dayUnits, hourUnits] at * <;> omega
  | days360 =>
    simp only [Calendar.number, calendarAdjust, if_true] at *
    exact ccclxAdd_eq R junk p2 c2 pt ct ok (hne trivial) hn
  | noLeap =>
    simp only [Calendar.number, calendarAdjust] at *
    have t2 := p2.tod
    have tt := pt.tod
    have e : enc mode (jd y2 m2 d2) tod2 + n * hourUnits mode =
        enc mode (1721060 + number365 yt mt dt + leapsBefore y2 m2) tod := by
      rw [jd_split p2.ex p2.nonneg]
      cases mode <;> simp only [enc, base, dayUnits, hourUnits] at * <;> omega
    rw [e]
    have key : leapYearAdjust mode true junk (enc mode (1721060 + number365 yt mt dt + leapsBefore y2 m2) tod)
        (enc mode (jd y2 m2 d2) tod2) = leapsBefore yt mt - leapsBefore y2 m2 := by
      by_cases le : number365 y2 m2 d2 ≤ number365 yt mt dt
      · exact adjust_forward junk p2 c2.2 pt ct.2 ok (fun h => (h80 h).imp id (·.1)) le
      · have neg : n < 0 := by
          have t2a := t2.2.1
          have tta := tt.2.1
          have t20 := t2.1
          have tt0 := tt.1
          clear t2 tt
          cases mode <;> simp only [enc, base, dayUnits, hourUnits] at * <;> omega
        exact adjust_backward junk p2 c2.2 pt ct.2 ok2 (fun h => (h80 h).imp id (·.2)) (hb trivial neg) (by omega)
    rw [key, jd_split pt.ex pt.nonneg]
    cases mode <;> simp only [enc, base, dayUnits, hourUnits] at * <;> omega

/-- The hours from one true date to another, less the adjustment. -/
theorem adjust_diff {mode : Mode} {y2 m2 d2 tod2 yt mt dt tod n : Int} (R : Rounding 53) (cal : Calendar) (junk : Int)
    (p2 : Point mode y2 m2 d2 tod2) (c2 : cal.Has ⟨y2, m2, d2⟩) (ok2 : okYear mode y2)
    (pt : Point mode yt mt dt tod) (ct : cal.Has ⟨yt, mt, dt⟩) (ok : okYear mode yt)
    (hb : cal = .noLeap → n < 0 → Leap y2 → ¬ (m2 = 2 ∧ d2 = 28 ∧ tod2 = dayUnits mode - 1))
    (hn : cal.number ⟨yt, mt, dt⟩ * dayUnits mode + tod =
      cal.number ⟨y2, m2, d2⟩ * dayUnits mode + tod2 + n * hourUnits mode) :
    enc mode (jd yt mt dt) tod - enc mode (jd y2 m2 d2) tod2 = (n + 24 *
      calendarAdjust R cal mode false junk (enc mode (jd yt mt dt) tod) (enc mode (jd y2 m2 d2) tod2)) * hourUnits mode := by
  cases cal with
  | gregorian =>
    simp only [Calendar.number, calendarAdjust] at *
    cases mode <;> simp only [enc, base, dayUnits, hourUnits] at * <;> omega
  | days360 =>
    simp only [Calendar.number, calendarAdjust] at *
    exact ccclxDiff_eq R junk p2 c2 pt ct hn
  | noLeap =>
    simp only [Calendar.number, calendarAdjust] at *
    have t2 := p2.tod
    have tt := pt.tod
    have key : leapYearAdjust mode false junk (enc mode (jd yt mt dt) tod)
        (enc mode (jd y2 m2 d2) tod2) = leapsBefore yt mt - leapsBefore y2 m2 := by
      by_cases le : number365 y2 m2 d2 ≤ number365 yt mt dt
      · exact adjust_forward_diff junk p2 c2.2 pt ct.2 ok le
      · have neg : n < 0 := by
          have t2a := t2.2.1
          have tta := tt.2.1
          have t20 := t2.1
          have tt0 := tt.1
          clear t2 tt
          cases mode <;> simp only [enc, base, dayUnits, hourUnits] at * <;> omega
        exact adjust_backward_diff junk p2 c2.2 pt ct.2 ok2 (hb trivial neg) (by omega)
    rw [key, jd_split pt.ex pt.nonneg, jd_split p2.ex p2.nonneg]
    cases mode <;> simp only [enc, base, dayUnits, hourUnits] at * <;> omega

/-- The sum of the true date and the hours lies between the two moments. -/
theorem naive_between {mode : Mode} {y2 m2 d2 tod2 yt mt dt tod n : Int} (cal : Calendar)
    (p2 : Point mode y2 m2 d2 tod2) (c2 : cal.Has ⟨y2, m2, d2⟩)
    (pt : Point mode yt mt dt tod) (ct : cal.Has ⟨yt, mt, dt⟩)
    (hn : cal.number ⟨yt, mt, dt⟩ * dayUnits mode + tod =
      cal.number ⟨y2, m2, d2⟩ * dayUnits mode + tod2 + n * hourUnits mode) :
    (0 ≤ n → enc mode (jd y2 m2 d2) tod2 + n * hourUnits mode ≤ enc mode (jd yt mt dt) tod) ∧
    (n ≤ 0 → enc mode (jd yt mt dt) tod ≤ enc mode (jd y2 m2 d2) tod2 + n * hourUnits mode) := by
  have m1 := cal.slack_mono c2 ct p2.nonneg pt.nonneg
  have m2 := cal.slack_mono ct c2 pt.nonneg p2.nonneg
  have t2 := p2.tod
  have tt := pt.tod
  have t2a := t2.2.1
  have tta := tt.2.1
  generalize cal.number ⟨yt, mt, dt⟩ = A at *
  generalize cal.number ⟨y2, _, d2⟩ = B at *
  generalize jd yt mt dt = P at *
  generalize jd y2 _ d2 = Q at *
  have t20 := t2.1
  have tt0 := tt.1
  clear t2 tt
  rcases (by omega : A < B ∨ A = B ∨ B < A) with g | g | g
  · have := m2 (by omega)
    cases mode <;> simp only [enc, base, dayUnits, hourUnits] at * <;> omega
  · have := m2 (by omega)
    have := m1 (by omega)
    cases mode <;> simp only [enc, base, dayUnits, hourUnits] at * <;> omega
  · have := m1 (by omega)
    cases mode <;> simp only [enc, base, dayUnits, hourUnits] at * <;> omega

end Verif.Date
