import Verif.DateInc
import Verif.DateModes
/-!
# Counting leap days

The day number of a date is the number it has in a calendar without leap days plus the leap days
before it.
-/
namespace Verif.Date

/-- Number of leap years from year 0 up to and not including `y`. -/
def leaps (y : Int) : Int := (y + 3) / 4 - (y + 99) / 100 + (y + 399) / 400

/-- Days before the month in a year without leap day. -/
def cum (m : Int) : Int :=
  if m = 1 then 0 else if m = 2 then 31 else if m = 3 then 59 else if m = 4 then 90
  else if m = 5 then 120 else if m = 6 then 151 else if m = 7 then 181 else if m = 8 then 212
  else if m = 9 then 243 else if m = 10 then 273 else if m = 11 then 304 else 334

/-- Day number in the calendar without leap days. -/
def number365 (y m d : Int) : Int := 365 * y + cum m + d - 1

/-- Leap days before the month. -/
def leapsBefore (y m : Int) : Int := leaps y + if m > 2 ∧ Leap y then 1 else 0

theorem leaps_succ (y : Int) (_h : 0 ≤ y) : leaps (y + 1) = leaps y + if Leap y then 1 else 0 := by
  unfold leaps
  by_cases hl : Leap y
  · rw [if_pos hl]; unfold Leap at hl; omega
  · rw [if_neg hl]; unfold Leap at hl; omega

theorem leaps_step (y : Int) (h : 0 ≤ y) : leaps y ≤ leaps (y + 1) ∧ leaps (y + 1) ≤ leaps y + 1 := by
  rw [leaps_succ y h]; split <;> omega

theorem leaps_add (y : Int) (h : 0 ≤ y) : ∀ n : Nat, leaps y ≤ leaps (y + n) ∧ leaps (y + n) ≤ leaps y + n
  | 0 => by simp
  | n + 1 => by
    have a := leaps_add y h n
    have b := leaps_step (y + n) (by omega)
    have e : y + ((n + 1 : Nat) : Int) = y + n + 1 := by omega
    rw [e]; omega

theorem leaps_mono (a b : Int) (h : 0 ≤ a) (hab : a ≤ b) : leaps a ≤ leaps b ∧ leaps b ≤ leaps a + (b - a) := by
  have := leaps_add a h (b - a).toNat
  have e : a + ((b - a).toNat : Int) = b := by omega
  rw [e] at this; omega

theorem leaps_small (a : Int) (h : 0 ≤ a) (h2 : a ≤ 10000) : 0 ≤ leaps a ∧ leaps a ≤ 2425 := by
  have e0 : leaps 0 = 0 := by decide
  have e1 : leaps 10000 = 2425 := by decide
  have := leaps_mono 0 a (by omega) h
  have := leaps_mono a 10000 h h2
  omega

theorem quads (y : Int) : 1461 * (y + 4799) / 4 = 365 * y + 1752834 + (y + 3) / 4 := by omega

theorem cents (y : Int) : 3 * ((y + 4899) / 100) / 4 = 36 + (y + 99) / 100 - (y + 399) / 400 := by
  have e : (y + 399) / 400 = ((y + 99) / 100 + 3) / 4 := by omega
  have e2 : (y + 4899) / 100 = 48 + (y + 99) / 100 := by omega
  rw [e, e2]
  generalize (y + 99) / 100 = c
  omega

theorem jd_split {y m d : Int} (he : (⟨y, m, d⟩ : Day).Exists) (hy : 0 ≤ y) :
    jd y m d = 1721060 + number365 y m d + leapsBefore y m := by
  have a := exists_le31 he
  rw [jd_eq y m d (by omega) ⟨a.1, a.2.1⟩]
  by_cases hm : m ≤ 2
  · have e : leapsBefore y m = leaps y := by
      unfold leapsBefore; rw [if_neg (by omega)]; omega
    rw [if_pos hm, e, quads, cents]
    unfold number365 leaps cum
    generalize (y + 99) / 100 = p
    generalize (y + 399) / 400 = q
    generalize (y + 3) / 4 = r
    rcases (by omega : m = 1 ∨ m = 2) with h | h <;> subst h <;> simp <;> omega
  · have e : leapsBefore y m = leaps (y + 1) := by
      unfold leapsBefore
      rw [leaps_succ y hy]
      by_cases hl : Leap y
      · rw [if_pos ⟨by omega, hl⟩, if_pos hl]
      · rw [if_neg (fun h => hl h.2), if_neg hl]
    have q := quads (y + 1)
    have c := cents (y + 1)
    have e1 : y + 1 + 4799 = y + 4800 := by omega
    have e2 : y + 1 + 4899 = y + 4900 := by omega
    rw [e1] at q
    rw [e2] at c
    rw [if_neg hm, e, q, c]
    unfold number365 leaps cum
    generalize (y + 1 + 99) / 100 = p
    generalize (y + 1 + 399) / 400 = q
    generalize (y + 1 + 3) / 4 = r
    rcases (by omega : m = 3 ∨ m = 4 ∨ m = 5 ∨ m = 6 ∨ m = 7 ∨ m = 8 ∨ m = 9 ∨
      m = 10 ∨ m = 11 ∨ m = 12) with h | h | h | h | h | h | h | h | h | h <;> subst h <;> simp <;> omega

theorem cum_range {y m d : Int} (he : (⟨y, m, d⟩ : Day).Exists) (h29 : ¬ (m = 2 ∧ d = 29)) :
    0 ≤ cum m + d - 1 ∧ cum m + d - 1 ≤ 364 ∧ (m ≤ 2 ↔ cum m + d - 1 < 59) := by
  have a := exists_le31 he
  have b : d ≤ monthLen y m := he.2.2.2
  unfold monthLen at b
  unfold cum
  rcases (by omega : m = 1 ∨ m = 2 ∨ m = 3 ∨ m = 4 ∨ m = 5 ∨ m = 6 ∨ m = 7 ∨ m = 8 ∨ m = 9 ∨
    m = 10 ∨ m = 11 ∨ m = 12) with h | h | h | h | h | h | h | h | h | h | h | h <;> subst h <;> simp at * <;>
    (try split at b) <;> omega

/-- A date of the calendar without leap days is before the end of February of a leap year exactly
when it has no more leap days before it than that year. -/
theorem before_feb {y m d : Int} (he : (⟨y, m, d⟩ : Day).Exists) (h29 : ¬ (m = 2 ∧ d = 29)) (hy : 0 ≤ y)
    (a : Int) (ha : 0 ≤ a) (hl : Leap a) :
    number365 y m d < 365 * a + 59 ↔ leapsBefore y m ≤ leaps a := by
  obtain ⟨c1, c2, c3⟩ := cum_range he h29
  unfold number365 leapsBefore
  have sa := leaps_succ a ha
  rw [if_pos hl] at sa
  rcases (by omega : y < a ∨ y = a ∨ a < y) with h | h | h
  · have := leaps_mono (y + 1) a (by omega) (by omega)
    have sy := leaps_succ y hy
    by_cases hly : Leap y
    · rw [if_pos hly] at sy
      split <;> omega
    · rw [if_neg (fun h => hly h.2)]
      rw [if_neg hly] at sy
      omega
  · subst h
    simp only [hl, and_true]
    split <;> omega
  · have := leaps_mono (a + 1) y (by omega) (by omega)
    split <;> omega

theorem after_feb {y m d : Int} (he : (⟨y, m, d⟩ : Day).Exists) (h29 : ¬ (m = 2 ∧ d = 29)) (hy : 0 ≤ y)
    (b : Int) (hb : 0 ≤ b) (h : leaps b < leapsBefore y m) : 365 * b + 59 ≤ number365 y m d := by
  obtain ⟨c1, c2, c3⟩ := cum_range he h29
  unfold number365
  unfold leapsBefore at h
  rcases (by omega : y < b ∨ y = b ∨ b < y) with g | g | g
  · have := leaps_mono (y + 1) b (by omega) (by omega)
    have sy := leaps_succ y hy
    by_cases hly : Leap y
    · rw [if_pos hly] at sy
      split at h <;> omega
    · rw [if_neg (fun h => hly h.2)] at h
      rw [if_neg hly] at sy
      omega
  · subst g
    split at h <;> omega
  · omega

end Verif.Date
