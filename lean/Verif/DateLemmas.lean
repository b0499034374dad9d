import Verif.DateCal
/-!
# Stamps and true dates

Lemmas on the modes of `newdate`: what each of them gives on the numbers of an existing day and
time.
-/
namespace Verif.Date

/-- A date and a time of day. -/
structure Moment where
  y : Int
  m : Int
  d : Int
  h : Int
  mi : Int
  s : Int
deriving Repr, DecidableEq

def Moment.day (t : Moment) : Day := ⟨t.y, t.m, t.d⟩

/-- The date exists and the time is a time of day. -/
def Moment.Valid (t : Moment) : Prop :=
  t.day.Exists ∧ 0 ≤ t.h ∧ t.h ≤ 23 ∧ 0 ≤ t.mi ∧ t.mi ≤ 59 ∧ 0 ≤ t.s ∧ t.s ≤ 59

instance (t : Moment) : Decidable t.Valid := by unfold Moment.Valid; infer_instance

/-- The date as the library prints it, YYYYMMDD. -/
def Moment.date (t : Moment) : Int := t.y * 10000 + t.m * 100 + t.d
/-- The time as the library prints it, HHMMSS00. -/
def Moment.time (t : Moment) : Int := t.h * 1000000 + t.mi * 10000 + t.s * 100

/-- The moment with minutes and seconds dropped. -/
def Moment.hour (t : Moment) : Moment := ⟨t.y, t.m, t.d, t.h, 0, 0⟩
/-- The moment with its seconds rounded down to a multiple of five. -/
def Moment.five (t : Moment) : Moment := ⟨t.y, t.m, t.d, t.h, t.mi, t.s / 5 * 5⟩

theorem bissextile_iff (y : Int) (h : 0 ≤ y) : bissextile y ↔ Leap y := by
  unfold bissextile Leap
  rw [tmod_pos _ _ h, tmod_pos _ _ h, tmod_pos _ _ h]; omega

theorem exists_le31 {y m d : Int} (h : (⟨y, m, d⟩ : Day).Exists) :
    1 ≤ m ∧ m ≤ 12 ∧ 1 ≤ d ∧ d ≤ 31 := by
  obtain ⟨a, b, c, e⟩ := h
  have := monthLen_le y m
  simp only at *
  omega

/-- An existing day passes the tests of the library. -/
theorem exists_mdays {y m d : Int} (h : (⟨y, m, d⟩ : Day).Exists) (hy : 0 ≤ y) :
    d ≤ mdays m ∧ ¬ badFeb y m d := by
  obtain ⟨a, b, c, e⟩ := h
  simp only at *
  unfold monthLen at e
  unfold mdays badFeb
  by_cases h2 : m = 2
  · subst h2
    simp only [if_true] at e
    rw [bissextile_iff y hy]
    by_cases hl : Leap y
    · rw [if_pos hl] at e
      exact ⟨by simpa using e, fun h => h.2.2 hl⟩
    · rw [if_neg hl] at e
      exact ⟨by simp; omega, fun h => by omega⟩
  · rw [if_neg h2] at e ⊢
    exact ⟨e, fun h => h2 h.1⟩

/-- A day that passes the tests of the library exists. -/
theorem exists_of {y m d : Int} (hy : 0 ≤ y) (hm : 1 ≤ m ∧ m ≤ 12) (hd : 1 ≤ d) (h : d ≤ mdays m)
    (hb : ¬ badFeb y m d) : (⟨y, m, d⟩ : Day).Exists := by
  refine ⟨hm.1, hm.2, hd, ?_⟩
  simp only
  unfold badFeb at hb
  rw [bissextile_iff y hy] at hb
  unfold mdays at h
  unfold monthLen
  by_cases h2 : m = 2
  · rw [if_pos h2] at h ⊢
    split
    · exact h
    · rename_i hl
      by_cases e : d = 29
      · exact absurd ⟨h2, e, hl⟩ hb
      · omega
  · rw [if_neg h2] at h ⊢; exact h

theorem jd_ge {y m d : Int} (h : (⟨y, m, d⟩ : Day).Exists) (hy : 1900 ≤ y) : 2415021 ≤ jd y m d := by
  have a := (jd_within y m d h (by omega)).1
  have b := jd_jan 1900 (by omega) (y - 1900).toNat
  have e : (1900 : Int) + ((y - 1900).toNat : Int) = y := by omega
  have e2 : jd 1900 1 1 = 2415021 := by decide
  rw [e, e2] at b
  omega

theorem jd_ge0 {y m d : Int} (h : (⟨y, m, d⟩ : Day).Exists) (hy : 0 ≤ y) : 1721060 ≤ jd y m d := by
  have a := (jd_within y m d h (by omega)).1
  have b := jd_jan 0 (by omega) y.toNat
  have e : (0 : Int) + (y.toNat : Int) = y := by omega
  have e2 : jd 0 1 1 = 1721060 := by decide
  rw [e, e2] at b
  omega

theorem jd_ge1980 {y m d : Int} (h : (⟨y, m, d⟩ : Day).Exists) (hy : 1980 ≤ y) : 2444240 ≤ jd y m d := by
  by_cases c : y = 1980
  · subst c
    have := (jd_within 1980 m d h (by omega)).1
    have e2 : jd 1980 1 1 = 2444240 := by decide
    omega
  · have := jd_year_lt 1980 1 1 y m d (by decide) h (by omega) (by omega)
    have e2 : jd 1980 1 1 = 2444240 := by decide
    omega

theorem jd_ge2000 {y m d : Int} (h : (⟨y, m, d⟩ : Day).Exists) (hy : 2000 ≤ y) : 2451545 ≤ jd y m d := by
  by_cases c : y = 2000
  · subst c
    have := (jd_within 2000 m d h (by omega)).1
    have e2 : jd 2000 1 1 = 2451545 := by decide
    omega
  · have := jd_year_lt 2000 1 1 y m d (by decide) h (by omega) (by omega)
    have e2 : jd 2000 1 1 = 2451545 := by decide
    omega

theorem jd_lt2000 {y m d : Int} (h : (⟨y, m, d⟩ : Day).Exists) (hy0 : -4800 < y) (hy : y < 2000) :
    jd y m d < 2451545 := by
  have := jd_year_lt y m d 2000 1 1 h (by decide) hy0 hy
  have e2 : jd 2000 1 1 = 2451545 := by decide
  omega

theorem jd_lt1980 {y m d : Int} (h : (⟨y, m, d⟩ : Day).Exists) (hy0 : -4800 < y) (hy : y < 1980) :
    jd y m d < 2444240 := by
  have := jd_year_lt y m d 1980 1 1 h (by decide) hy0 hy
  have e2 : jd 1980 1 1 = 2444240 := by decide
  omega

theorem jd_lt1900 {y m d : Int} (h : (⟨y, m, d⟩ : Day).Exists) (hy0 : -4800 < y) (hy : y < 1900) :
    jd y m d < 2415021 := by
  have := jd_year_lt y m d 1900 1 1 h (by decide) hy0 hy
  have e2 : jd 1900 1 1 = 2415021 := by decide
  omega

theorem jd_lt2236 {y m d : Int} (h : (⟨y, m, d⟩ : Day).Exists) (hy0 : -4800 < y) (hy : y < 2236) :
    jd y m d < 2537742 := by
  have := jd_year_lt y m d 2236 1 1 h (by decide) hy0 hy
  have e2 : jd 2236 1 1 = 2537742 := by decide
  omega

theorem jd_ge2236 {y m d : Int} (h : (⟨y, m, d⟩ : Day).Exists) (hy : 2236 ≤ y) : 2537742 ≤ jd y m d := by
  by_cases c : y = 2236
  · subst c
    have := (jd_within 2236 m d h (by omega)).1
    have e2 : jd 2236 1 1 = 2537742 := by decide
    omega
  · have := jd_year_lt 2236 1 1 y m d (by decide) h (by omega) (by omega)
    have e2 : jd 2236 1 1 = 2537742 := by decide
    omega

theorem jd_lt10k {y m d : Int} (h : (⟨y, m, d⟩ : Day).Exists) (hy0 : -4800 < y) (hy : y < 10000) :
    jd y m d < 5373485 := by
  have := jd_year_lt y m d 10000 1 1 h (by decide) hy0 hy
  have e2 : jd 10000 1 1 = 5373485 := by decide
  omega

/-! ## Printable numbers -/

theorem date_parts (y m d : Int) (hy : 0 ≤ y ∧ y < 10000) (hm : 1 ≤ m ∧ m ≤ 12) (hd : 1 ≤ d ∧ d ≤ 31) :
    (y * 10000 + m * 100 + d) ÷ 10000 mod 10000 = y ∧ (y * 10000 + m * 100 + d) ÷ 100 mod 100 = m ∧
      (y * 10000 + m * 100 + d) mod 100 = d := by
  refine ⟨?_, ?_, ?_⟩
  · rw [tdiv_pos _ _ (by omega), tmod_pos _ _ (by omega)]; omega
  · rw [tdiv_pos _ _ (by omega), tmod_pos _ _ (by omega)]; omega
  · rw [tmod_pos _ _ (by omega)]; omega

theorem time_parts (h mi s : Int) (hh : 0 ≤ h ∧ h ≤ 23) (hm : 0 ≤ mi ∧ mi ≤ 59) (hs : 0 ≤ s ∧ s ≤ 59) :
    (h * 1000000 + mi * 10000 + s * 100) ÷ 1000000 mod 100 = h ∧
      (h * 1000000 + mi * 10000 + s * 100) ÷ 10000 mod 100 = mi ∧
      (h * 1000000 + mi * 10000 + s * 100) ÷ 100 mod 100 = s ∧
      (h * 1000000 + mi * 10000 + s * 100) mod 100 = 0 := by
  refine ⟨?_, ?_, ?_, ?_⟩
  · rw [tdiv_pos _ _ (by omega), tmod_pos _ _ (by omega)]; omega
  · rw [tdiv_pos _ _ (by omega), tmod_pos _ _ (by omega)]; omega
  · rw [tdiv_pos _ _ (by omega), tmod_pos _ _ (by omega)]; omega
  · rw [tmod_pos _ _ (by omega)]; omega

theorem printTime_eq (h sec : Int) (hs : 0 ≤ sec ∧ sec < 3600) :
    printTime h sec = h * 1000000 + sec / 60 * 10000 + sec % 60 * 100 := by
  unfold printTime
  rw [tdiv_pos _ _ (by omega), tmod_pos _ _ (by omega)]

/-! ## Stamp bodies -/

theorem tdOf_stampOf (td : Int) (h : 0 ≤ td) : tdOf (stampOf td) = td := by
  unfold tdOf stampOf
  rw [tdiv_pos td _ h, tmod_pos td _ h, tdiv_pos _ _ (by omega), tmod_pos _ _ (by omega)]; omega

theorem stampOf_nonneg (td : Int) (h : 0 ≤ td) : 0 ≤ stampOf td := by
  unfold stampOf
  rw [tdiv_pos td _ h, tmod_pos td _ h]; omega

theorem stampOf_lt (a b : Int) (h : 0 ≤ a) (hab : a < b) : stampOf a < stampOf b := by
  unfold stampOf
  rw [tdiv_pos a _ h, tmod_pos a _ h, tdiv_pos b _ (by omega), tmod_pos b _ (by omega)]; omega

theorem stampOf_le (td : Int) (h : 0 ≤ td) : 4 * stampOf td ≤ 5 * td := by
  unfold stampOf
  rw [tdiv_pos td _ h, tmod_pos td _ h]; omega

/-! ## The number of five second intervals -/

/-- The true date of a moment: five second intervals since the first of January 1980. -/
def Moment.td (t : Moment) : Int := (jd t.y t.m t.d - jd1980) * 17280 + t.h * 720 + (t.mi * 60 + t.s) / 5

/-- Splitting a true date into day and time. -/
theorem td_split (j tod : Int) (hj : 2415021 ≤ j) (ht : 0 ≤ tod ∧ tod < 17280) :
    jd1900 + ((j - jd1980) * 17280 + tod - td1900) ÷ 17280 = j ∧
      ((j - jd1980) * 17280 + tod - td1900) mod 17280 = tod := by
  refine ⟨?_, ?_⟩
  · rw [tdiv_pos _ _ (by simp only [jd1980, td1900]; omega)]; simp only [jd1980, td1900, jd1900]; omega
  · rw [tmod_pos _ _ (by simp only [jd1980, td1900]; omega)]; simp only [jd1980, td1900]; omega

/-- Every true date from 1900 on is a day and a time of it. -/
theorem td_exists (td : Int) (h : td1900 ≤ td) :
    ∃ y m d tod, (⟨y, m, d⟩ : Day).Exists ∧ 1900 ≤ y ∧ 0 ≤ tod ∧ tod < 17280 ∧
      td = (jd y m d - jd1980) * 17280 + tod := by
  have hj : jd (-4799) 1 1 ≤ jd1900 + (td - td1900) / 17280 := by
    have e : jd (-4799) 1 1 = -31738 := by decide
    simp only [jd1900, td1900] at *
    omega
  obtain ⟨h1, h2, h3⟩ := jd_datec _ hj
  refine ⟨_, _, _, (td - td1900) % 17280, h1, ?_, by omega, by omega, ?_⟩
  · by_cases c : 1900 ≤ (datec (jd1900 + (td - td1900) / 17280)).1
    · exact c
    · have := jd_lt1900 h1 h2 (by omega)
      rw [h3] at this
      simp only [jd1900, td1900] at *
      omega
  · rw [h3]; simp only [jd1900, td1900, jd1980] at *; omega

end Verif.Date
