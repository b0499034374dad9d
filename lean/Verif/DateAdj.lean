import Verif.DateLeap
import Verif.Props.Date
/-!
# `LeapYear_Adjust` counts the leap days
-/
namespace Verif.Date

/-- Day from which true dates count. -/
def base : Mode → Int
  | .basic => jd1980
  | .extended => jd0

/-- True date of a day and a time of day. -/
def enc (mode : Mode) (j tod : Int) : Int := (j - base mode) * dayUnits mode + tod

/-- Years for which printable dates are accepted. -/
def okYear : Mode → Int → Prop
  | .basic, y => 1900 ≤ y ∧ y < 2236
  | .extended, y => 0 ≤ y ∧ y < 10000

/-- First year for which true dates can be decoded. -/
def firstYear : Mode → Int
  | .basic => 1900
  | .extended => 0

/-- A time of day that true dates of the year can hold. -/
def okTod (mode : Mode) (y tod : Int) : Prop :=
  0 ≤ tod ∧ tod < dayUnits mode ∧ (mode = .basic → y < 1980 → tod % 720 = 0)

theorem dec {mode : Mode} {y m d tod : Int} (he : (⟨y, m, d⟩ : Day).Exists) (h0 : firstYear mode ≤ y)
    (h1 : y < 10000) (ht : okTod mode y tod) :
    ∃ pt, true2print mode (enc mode (jd y m d) tod) = some (y * 10000 + m * 100 + d, pt) := by
  cases mode with
  | basic =>
    simp only [firstYear, okTod, dayUnits, forall_const] at *
    exact ⟨_, tdToPrint_eq he h0 ⟨ht.1, ht.2.1⟩ ht.2.2⟩
  | extended =>
    simp only [firstYear, okTod, dayUnits] at *
    exact ⟨_, extTdToPrint_eq he ⟨h0, h1⟩ ⟨ht.1, by omega⟩⟩

theorem feb_exists (a : Int) (hl : Leap a) : (⟨a, 2, 28⟩ : Day).Exists ∧ (⟨a, 2, 29⟩ : Day).Exists := by
  unfold Day.Exists monthLen
  simp [hl]

theorem jd_feb (a : Int) (ha : 0 ≤ a) (hl : Leap a) :
    jd a 2 28 = 1721060 + (365 * a + 58) + leaps a ∧ jd a 2 29 = 1721060 + (365 * a + 59) + leaps a := by
  obtain ⟨e1, e2⟩ := feb_exists a hl
  rw [jd_split e1 ha, jd_split e2 ha]
  unfold number365 cum leapsBefore
  simp
  omega

theorem feb_td {mode : Mode} (a : Int) (ha : okYear mode a) (hl : Leap a) :
    print2true mode (a * 10000 + 0228) 23595500 = some (enc mode (1721060 + (365 * a + 58) + leaps a) (dayUnits mode - 1)) ∧
    print2true mode (a * 10000 + 0229) 23595500 = some (enc mode (1721060 + (365 * a + 59) + leaps a) (dayUnits mode - 1)) ∧
    print2true mode (a * 10000 + 0229) 0 = some (enc mode (1721060 + (365 * a + 59) + leaps a) 0) := by
  obtain ⟨e1, e2⟩ := feb_exists a hl
  have hx : ∀ d : Int, a * 10000 + (200 + d) = a * 10000 + 2 * 100 + d := by intro d; omega
  cases mode with
  | basic =>
    simp only [okYear] at ha
    obtain ⟨j1, j2⟩ := jd_feb a (by omega) hl
    rw [← j1, ← j2]
    have p1 := printToTd_eq (h := 23) (mi := 59) (s := 55) e1 ha (by omega) (by omega) (by omega) (by omega)
    have p2 := printToTd_eq (h := 23) (mi := 59) (s := 55) e2 ha (by omega) (by omega) (by omega) (by omega)
    have p3 := printToTd_eq (h := 0) (mi := 0) (s := 0) e2 ha (by omega) (by omega) (by omega) (by omega)
    have x1 := hx 28
    have x2 := hx 29
    simp only [Int.reduceAdd] at x1 x2
    simp only [print2true, x1, x2]
    refine ⟨?_, ?_, ?_⟩
    · refine p1.trans ?_
      simp only [enc, base, dayUnits]; congr 1; omega
    · refine p2.trans ?_
      simp only [enc, base, dayUnits]; congr 1; omega
    · refine p3.trans ?_
      simp only [enc, base, dayUnits]; congr 1; omega
  | extended =>
    simp only [okYear] at ha
    obtain ⟨j1, j2⟩ := jd_feb a (by omega) hl
    rw [← j1, ← j2]
    have p1 := printToExtTd_eq (h := 23) (mi := 59) (s := 55) e1 ha (by omega) (by omega) (by omega)
    have p2 := printToExtTd_eq (h := 23) (mi := 59) (s := 55) e2 ha (by omega) (by omega) (by omega)
    have p3 := printToExtTd_eq (h := 0) (mi := 0) (s := 0) e2 ha (by omega) (by omega) (by omega)
    have x1 := hx 28
    have x2 := hx 29
    simp only [Int.reduceAdd] at x1 x2
    simp only [print2true, x1, x2]
    exact ⟨p1, p2, p3⟩

/-- Where the forward loop is before the year `a`. -/
def Fwd (mode : Mode) (adding : Bool) (Nt Lt L2 tod a : Int) (v : LeapState) : Prop :=
  v.ndays = max 0 (min (leaps a) Lt - L2) ∧
  v.tdate1L = enc mode (1721060 + Nt + (if adding then L2 + v.ndays else Lt)) tod

/-- Where the backward loop is before the year `a - 1`. -/
def Bwd (mode : Mode) (adding : Bool) (Nt Lt L2 tod a : Int) (v : LeapState) : Prop :=
  v.ndays = -max 0 (L2 - max (leaps a) Lt) ∧
  v.tdate1L = enc mode (1721060 + Nt + (if adding then L2 + v.ndays else Lt)) tod

/-- The day number without leap days and the number of leap days of a date. -/
def Split (N L : Int) : Prop := ∀ a, 0 ≤ a → Leap a → (N < 365 * a + 59 ↔ L ≤ leaps a)

theorem okYear_nonneg {mode : Mode} {a : Int} (h : okYear mode a) : 0 ≤ a := by
  cases mode <;> simp only [okYear] at h <;> omega

theorem fwd_step {mode : Mode} {adding : Bool} {Nt Lt N2 L2 tod tod2 a : Int} {v : LeapState}
    (hx : Split N2 L2) (ht : Split Nt Lt) (hd : 0 ≤ tod ∧ tod < dayUnits mode) (hd2 : 0 ≤ tod2 ∧ tod2 < dayUnits mode)
    (ha : okYear mode a) (h : Fwd mode adding Nt Lt L2 tod a v) :
    Fwd mode adding Nt Lt L2 tod (a + 1) (leapYear mode adding 1 (enc mode (1721060 + N2 + L2) tod2) v a) := by
  have h0 := okYear_nonneg ha
  have hs := leaps_succ a h0
  unfold leapYear
  by_cases hl : Leap a
  · rw [if_pos ((bissextile_iff a h0).2 hl)]
    rw [if_pos hl] at hs
    obtain ⟨f1, f2, f3⟩ := feb_td a ha hl
    simp only [f1, f3, Option.getD_some, gt_iff_lt, Int.zero_lt_one, if_true, Int.mul_one]
    have x := hx a h0 hl
    have t := ht a h0 hl
    obtain ⟨h1, h2⟩ := h
    rw [h2, h1]
    unfold Fwd
    rw [hs]
    cases mode <;> cases adding <;> simp only [enc, base, dayUnits, if_true, Bool.false_eq_true, if_false] at * <;>
      (split <;> refine ⟨?_, ?_⟩ <;> simp only at * <;> omega)
  · rw [if_neg (fun h => hl ((bissextile_iff a h0).1 h))]
    rw [if_neg hl] at hs
    unfold Fwd at *
    rw [hs]
    simpa using h

theorem bwd_step {mode : Mode} {adding : Bool} {Nt Lt N2 L2 tod tod2 a : Int} {v : LeapState}
    (hx : Split N2 L2) (ht : Split Nt Lt) (hd : 0 ≤ tod ∧ tod < dayUnits mode) (hd2 : 0 ≤ tod2 ∧ tod2 < dayUnits mode)
    (hb : Leap a → ¬ (N2 = 365 * a + 58 ∧ tod2 = dayUnits mode - 1))
    (ha : okYear mode a) (h : Bwd mode adding Nt Lt L2 tod (a + 1) v) :
    Bwd mode adding Nt Lt L2 tod a (leapYear mode adding (-1) (enc mode (1721060 + N2 + L2) tod2) v a) := by
  have h0 := okYear_nonneg ha
  have hs := leaps_succ a h0
  unfold leapYear
  by_cases hl : Leap a
  · rw [if_pos ((bissextile_iff a h0).2 hl)]
    rw [if_pos hl] at hs
    replace hb := hb hl
    obtain ⟨f1, f2, f3⟩ := feb_td a ha hl
    simp only [f1, f2, Option.getD_some, gt_iff_lt, Int.reduceNeg, Int.reduceLT, if_false]
    have x := hx a h0 hl
    have t := ht a h0 hl
    obtain ⟨h1, h2⟩ := h
    rw [h2, h1]
    unfold Bwd
    rw [hs]
    cases mode <;> cases adding <;> simp only [enc, base, dayUnits, if_true, Bool.false_eq_true, if_false] at * <;>
      (split <;> refine ⟨?_, ?_⟩ <;> simp only at * <;> omega)
  · rw [if_neg (fun h => hl ((bissextile_iff a h0).1 h))]
    rw [if_neg hl] at hs
    unfold Bwd at *
    rw [hs] at h
    simpa using h

theorem doYears_up (a b : Int) (P : Int → LeapState → Prop) (f : LeapState → Int → LeapState)
    (hs : ∀ c v, a ≤ c → c ≤ b → P c v → P (c + 1) (f v c)) (v : LeapState) (h : P a v) (hab : a ≤ b + 1) :
    P (b + 1) ((doYears a b 1).foldl f v) := by
  unfold doYears
  rw [if_pos (by omega)]
  have key : ∀ n : Nat, (n : Int) ≤ b - a + 1 →
      P (a + n) (((List.range n).map (fun i : Nat => a + (i : Int))).foldl f v) := by
    intro n
    induction n with
    | zero => intro _; simpa using h
    | succ n ih =>
      intro hn
      have := hs (a + n) _ (by omega) (by omega) (ih (by omega))
      rw [List.range_succ, List.map_append, List.foldl_append]
      have e : a + ((n + 1 : Nat) : Int) = a + n + 1 := by omega
      rw [e]
      simpa using this
  have := key (b - a + 1).toNat (by omega)
  have e : a + ((b - a + 1).toNat : Int) = b + 1 := by omega
  rwa [e] at this

theorem doYears_down (a b : Int) (P : Int → LeapState → Prop) (f : LeapState → Int → LeapState)
    (hs : ∀ c v, b ≤ c → c ≤ a → P (c + 1) v → P c (f v c)) (v : LeapState) (h : P (a + 1) v) (hab : b ≤ a + 1) :
    P b ((doYears a b (-1)).foldl f v) := by
  unfold doYears
  rw [if_neg (by omega)]
  have key : ∀ n : Nat, (n : Int) ≤ a - b + 1 →
      P (a + 1 - n) (((List.range n).map (fun i : Nat => a - (i : Int))).foldl f v) := by
    intro n
    induction n with
    | zero => intro _; simpa using h
    | succ n ih =>
      intro hn
      have e2 : a + 1 - (n : Int) = a - n + 1 := by omega
      have i := ih (by omega)
      rw [e2] at i
      have := hs (a - n) _ (by omega) (by omega) i
      rw [List.range_succ, List.map_append, List.foldl_append]
      have e : a + 1 - ((n + 1 : Nat) : Int) = a - n := by omega
      rw [e]
      simpa using this
  have := key (a - b + 1).toNat (by omega)
  have e : a + 1 - ((a - b + 1).toNat : Int) = b := by omega
  rwa [e] at this

theorem doYears_up_empty (a b : Int) (h : b < a) : doYears a b 1 = [] := by
  unfold doYears
  rw [if_pos (by omega)]
  have : (b - a + 1).toNat = 0 := by omega
  simp [this]

theorem doYears_down_empty (a b : Int) (h : a < b) : doYears a b (-1) = [] := by
  unfold doYears
  rw [if_neg (by omega)]
  have : (a - b + 1).toNat = 0 := by omega
  simp [this]

/-- Day, leap count and time of a decoded true date. -/
structure Point (mode : Mode) (y m d tod : Int) : Prop where
  ex : (⟨y, m, d⟩ : Day).Exists
  low : firstYear mode ≤ y
  high : y < 10000
  tod : okTod mode y tod

theorem Point.year {mode : Mode} {y m d tod : Int} (h : Point mode y m d tod) (p : Int) :
    (((true2print mode (enc mode (jd y m d) tod)).map (·.1)).getD p) ÷ 10000 = y ∧
    (((true2print mode (enc mode (jd y m d) tod)).map (·.1)).getD p) ÷ 100 mod 100 = m := by
  obtain ⟨pt, e⟩ := dec h.ex h.low h.high h.tod
  have a := exists_le31 h.ex
  have l := h.low
  have y0 : 0 ≤ y := by cases mode <;> simp only [firstYear] at l <;> omega
  rw [e]
  simp only [Option.map_some, Option.getD_some]
  rw [tdiv_pos _ _ (by omega), tdiv_pos _ _ (by omega), tmod_pos _ _ (by omega)]
  omega

theorem Point.nonneg {mode : Mode} {y m d tod : Int} (h : Point mode y m d tod) : 0 ≤ y := by
  have l := h.low
  cases mode <;> simp only [firstYear] at l <;> omega

theorem Point.year_bounds {mode : Mode} {y m d tod : Int} (h : Point mode y m d tod) :
    1721060 + 365 * y + leaps y ≤ jd y m d ∧ jd y m d < 1721060 + 365 * (y + 1) + leaps (y + 1) := by
  have y0 := h.nonneg
  have a := exists_le31 h.ex
  have hs := leaps_succ y y0
  by_cases h29 : m = 2 ∧ d = 29
  · have he := h.ex
    obtain ⟨rfl, rfl⟩ := h29
    have hl : Leap y := by
      have : 29 ≤ monthLen y 2 := he.2.2.2
      unfold monthLen at this
      by_cases hl : Leap y
      · exact hl
      · simp [hl] at this
    rw [if_pos hl] at hs
    have := (jd_feb y y0 hl).2
    omega
  · obtain ⟨c1, c2, c3⟩ := cum_range h.ex h29
    rw [jd_split h.ex y0]
    unfold number365 leapsBefore
    by_cases hl : Leap y
    · rw [if_pos hl] at hs
      split <;> omega
    · rw [if_neg hl] at hs
      rw [if_neg (fun h => hl h.2)]
      omega

theorem leapsBefore_range (y m : Int) (hy : 0 ≤ y) : leaps y ≤ leapsBefore y m ∧ leapsBefore y m ≤ leaps (y + 1) := by
  have hs := leaps_succ y hy
  unfold leapsBefore
  by_cases hl : Leap y
  · rw [if_pos hl] at hs
    split <;> omega
  · rw [if_neg hl] at hs
    rw [if_neg (fun h => hl h.2)]
    omega

theorem leapsBefore_mono {y m d y' m' d' : Int} (he : (⟨y, m, d⟩ : Day).Exists) (h29 : ¬ (m = 2 ∧ d = 29))
    (hy : 0 ≤ y) (he' : (⟨y', m', d'⟩ : Day).Exists) (h29' : ¬ (m' = 2 ∧ d' = 29)) (hy' : 0 ≤ y')
    (h : number365 y m d ≤ number365 y' m' d') : leapsBefore y m ≤ leapsBefore y' m' := by
  obtain ⟨c1, c2, c3⟩ := cum_range he h29
  obtain ⟨b1, b2, b3⟩ := cum_range he' h29'
  unfold number365 at h
  have r := leapsBefore_range y m hy
  have r' := leapsBefore_range y' m' hy'
  rcases (by omega : y < y' ∨ y = y') with g | g
  · have := leaps_mono (y + 1) y' (by omega) (by omega)
    omega
  · subst g
    unfold leapsBefore
    by_cases hm : m > 2
    · have hm' : m' > 2 := by omega
      simp only [hm, hm']; omega
    · rw [if_neg (by omega)]
      split <;> omega

theorem point_exists (mode : Mode) (j tod : Int) (h0 : jd (firstYear mode) 1 1 ≤ j) (h1 : j < 5373485)
    (ht : 0 ≤ tod ∧ tod < dayUnits mode) (h80 : mode = .basic → j < 2444240 → tod % 720 = 0) :
    ∃ y m d, Point mode y m d tod ∧ jd y m d = j := by
  cases mode with
  | basic =>
    simp only [firstYear, dayUnits, forall_const] at *
    have e : jd 1900 1 1 = 2415021 := by decide
    rw [e] at h0
    obtain ⟨y, m, d, tod', he, hy, t0, t1, e⟩ := td_exists ((j - jd1980) * 17280 + tod) (by simp only [td1900, jd1980]; omega)
    have hj : jd y m d = j := by omega
    have htod : tod' = tod := by omega
    subst htod
    refine ⟨y, m, d, ⟨he, hy, ?_, t0, t1, ?_⟩, hj⟩
    · by_cases c : y < 10000
      · exact c
      · have b := jd_year_lt 9999 12 31 y m d (by decide) he (by omega) (by omega)
        have e : jd 9999 12 31 = 5373484 := by decide
        omega
    · intro _ c
      exact h80 (by have := jd_lt1980 he (by omega) c; omega)
  | extended =>
    simp only [firstYear, dayUnits] at *
    have e : jd 0 1 1 = 1721060 := by decide
    rw [e] at h0
    obtain ⟨y, m, d, z, he, hy, hz, e⟩ := hours_exists ((j - jd0) * 24 + tod) (by simp only [jd0]; omega)
      (by simp only [jd0]; omega)
    unfold hours at e
    have hj : jd y m d = j := by omega
    have htod : z = tod := by omega
    subst htod
    exact ⟨y, m, d, ⟨he, hy.1, hy.2, hz.1, by simp only [dayUnits]; omega, by intro h; exact absurd h (by simp)⟩, hj⟩

theorem point_year_le {mode mode' : Mode} {y m d tod y' m' d' tod' : Int} (h : Point mode y m d tod)
    (h' : Point mode' y' m' d' tod') (hj : jd y m d ≤ jd y' m' d') : y ≤ y' := by
  have a := h.year_bounds
  have b := h'.year_bounds
  by_cases c : y ≤ y'
  · exact c
  · have := leaps_mono (y' + 1) y (by have := h'.nonneg; omega) (by omega)
    omega

theorem point_month_le {mode mode' : Mode} {y m d tod m' d' tod' : Int} (h : Point mode y m d tod)
    (h' : Point mode' y m' d' tod') (hj : jd y m d ≤ jd y m' d') : m ≤ m' := by
  by_cases c : m ≤ m'
  · exact c
  · have := jd_month_lt y m' d' m d h'.ex h.ex (by have := h.nonneg; omega) (by omega)
    omega

theorem Point.split {mode : Mode} {y m d tod : Int} (h : Point mode y m d tod) (h29 : ¬ (m = 2 ∧ d = 29)) :
    Split (number365 y m d) (leapsBefore y m) :=
  fun a ha hl => before_feb h.ex h29 h.nonneg a ha hl

theorem enc_eq {mode : Mode} {y m d tod : Int} (h : Point mode y m d tod) :
    enc mode (jd y m d) tod = enc mode (1721060 + number365 y m d + leapsBefore y m) tod := by
  rw [jd_split h.ex h.nonneg]

theorem firstYear_jd {mode : Mode} {y m d tod : Int} (h : Point mode y m d tod) : jd (firstYear mode) 1 1 ≤ jd y m d := by
  cases mode with
  | basic => exact jd_ge h.ex h.low
  | extended => exact jd_ge0 h.ex h.low

theorem okYear_of {mode : Mode} {y : Int} (h : firstYear mode ≤ y) {z : Int} (hz : okYear mode z) (hyz : y ≤ z) :
    okYear mode y := by
  cases mode <;> simp only [firstYear, okYear] at * <;> omega

/-- The state after the two loops of `LeapYear_Adjust`, going forward and adding. -/
theorem adjust_forward {mode : Mode} {y2 m2 d2 tod2 yt mt dt tod : Int} (junk : Int)
    (p2 : Point mode y2 m2 d2 tod2) (n2 : ¬ (m2 = 2 ∧ d2 = 29))
    (pt : Point mode yt mt dt tod) (nt : ¬ (mt = 2 ∧ dt = 29)) (ok : okYear mode yt)
    (h80 : mode = .basic → tod % 720 = 0 ∨ 1980 ≤ y2)
    (hle : number365 y2 m2 d2 ≤ number365 yt mt dt) :
    leapYearAdjust mode true junk (enc mode (1721060 + number365 yt mt dt + leapsBefore y2 m2) tod)
      (enc mode (jd y2 m2 d2) tod2) = leapsBefore yt mt - leapsBefore y2 m2 := by
  have hL := leapsBefore_mono p2.ex n2 p2.nonneg pt.ex nt pt.nonneg hle
  have j2 := jd_split p2.ex p2.nonneg
  have jt := jd_split pt.ex pt.nonneg
  have f2 := firstYear_jd p2
  have ft := jd_lt10k pt.ex (by have := pt.nonneg; omega) pt.high
  have pex : ∀ j, jd y2 m2 d2 ≤ j → j ≤ jd yt mt dt → ∃ y m d, Point mode y m d tod ∧ jd y m d = j := by
    intro j h1 h2
    refine point_exists mode j tod (by omega) (by omega) ⟨pt.tod.1, pt.tod.2.1⟩ ?_
    intro hb hj
    rcases h80 hb with h | h
    · exact h
    · have := jd_ge1980 p2.ex h; omega
  obtain ⟨y1, m1, d1, p1, e1⟩ := pex (1721060 + number365 yt mt dt + leapsBefore y2 m2) (by omega) (by omega)
  have y21 := point_year_le p2 p1 (by omega)
  have y1t := point_year_le p1 pt (by omega)
  obtain ⟨a1, b1⟩ := p1.year junk
  obtain ⟨a2, b2⟩ := p2.year junk
  have inc : (if y2 > y1 ∨ (y1 = y2 ∧ m2 > m1) then (-1 : Int) else 1) = 1 := by
    rw [if_neg]
    rintro (h | ⟨h, h'⟩)
    · omega
    · subst h
      have := point_month_le p2 p1 (by omega)
      omega
  unfold leapYearAdjust
  rw [← e1]
  simp only [a1, b1, a2, b2, inc]
  have r2 := leapsBefore_range y2 m2 p2.nonneg
  have step : ∀ c v, okYear mode c → Fwd mode true (number365 yt mt dt) (leapsBefore yt mt) (leapsBefore y2 m2) tod c v →
      Fwd mode true (number365 yt mt dt) (leapsBefore yt mt) (leapsBefore y2 m2) tod (c + 1)
        (leapYear mode true 1 (enc mode (jd y2 m2 d2) tod2) v c) := by
    intro c v hc h
    rw [enc_eq p2]
    exact fwd_step (p2.split n2) (pt.split nt) ⟨pt.tod.1, pt.tod.2.1⟩ ⟨p2.tod.1, p2.tod.2.1⟩ hc h
  have l1 := doYears_up y2 y1 (Fwd mode true (number365 yt mt dt) (leapsBefore yt mt) (leapsBefore y2 m2) tod)
    (leapYear mode true 1 (enc mode (jd y2 m2 d2) tod2))
    (fun c v h1 h2 h => step c v (okYear_of (by have := p2.low; omega) ok (by omega)) h)
    ⟨junk, junk, 0, enc mode (jd y1 m1 d1) tod⟩ ⟨by simp only; omega, by rw [e1]; simp⟩ (by omega)
  generalize (doYears y2 y1 1).foldl (leapYear mode true 1 (enc mode (jd y2 m2 d2) tod2))
    ⟨junk, junk, 0, enc mode (jd y1 m1 d1) tod⟩ = v at l1 ⊢
  obtain ⟨nd, td⟩ := l1
  simp only [if_true] at td
  obtain ⟨yL, mL, dL, pL, eL⟩ := pex (1721060 + number365 yt mt dt + (leapsBefore y2 m2 + v.ndays))
    (by omega) (by omega)
  rw [td, ← eL, (pL.year _).1]
  have y1L := point_year_le p1 pL (by omega)
  have yLt := point_year_le pL pt (by omega)
  have l2 := doYears_up (y1 + 1) yL (Fwd mode true (number365 yt mt dt) (leapsBefore yt mt) (leapsBefore y2 m2) tod)
    (leapYear mode true 1 (enc mode (jd y2 m2 d2) tod2))
    (fun c v h1 h2 h => step c v (okYear_of (by have := p2.low; omega) ok (by omega)) h)
    v ⟨nd, by rw [td]; simp⟩ (by omega)
  have cover : leapsBefore yt mt ≤ leaps (yL + 1) := by
    by_cases c : leapsBefore yt mt ≤ leaps (yL + 1)
    · exact c
    · have af := after_feb pt.ex nt pt.nonneg (yL + 1) (by have := pL.nonneg; omega) (by omega)
      have bl := p1.year_bounds
      have bL := pL.year_bounds
      have m1 := leaps_mono (y1 + 1) (yL + 1) (by have := p1.nonneg; omega) (by omega)
      have m2 := leaps_small (y1 + 1) (by have := p1.nonneg; omega) (by have := p1.high; omega)
      have m3 := leaps_small y2 p2.nonneg (by have := p2.high; omega)
      omega
  rw [l2.1]
  omega

/-- The same when subtracting. -/
theorem adjust_forward_diff {mode : Mode} {y2 m2 d2 tod2 yt mt dt tod : Int} (junk : Int)
    (p2 : Point mode y2 m2 d2 tod2) (n2 : ¬ (m2 = 2 ∧ d2 = 29))
    (pt : Point mode yt mt dt tod) (nt : ¬ (mt = 2 ∧ dt = 29)) (ok : okYear mode yt)
    (hle : number365 y2 m2 d2 ≤ number365 yt mt dt) :
    leapYearAdjust mode false junk (enc mode (jd yt mt dt) tod) (enc mode (jd y2 m2 d2) tod2) =
      leapsBefore yt mt - leapsBefore y2 m2 := by
  have hL := leapsBefore_mono p2.ex n2 p2.nonneg pt.ex nt pt.nonneg hle
  have j2 := jd_split p2.ex p2.nonneg
  have jt := jd_split pt.ex pt.nonneg
  have y21 := point_year_le p2 pt (by omega)
  obtain ⟨a1, b1⟩ := pt.year junk
  obtain ⟨a2, b2⟩ := p2.year junk
  have inc : (if y2 > yt ∨ (yt = y2 ∧ m2 > mt) then (-1 : Int) else 1) = 1 := by
    rw [if_neg]
    rintro (h | ⟨h, h'⟩)
    · omega
    · subst h
      have := point_month_le p2 pt (by omega)
      omega
  unfold leapYearAdjust
  simp only [a1, b1, a2, b2, inc]
  have r2 := leapsBefore_range y2 m2 p2.nonneg
  have rt := leapsBefore_range yt mt pt.nonneg
  have step : ∀ c v, okYear mode c → Fwd mode false (number365 yt mt dt) (leapsBefore yt mt) (leapsBefore y2 m2) tod c v →
      Fwd mode false (number365 yt mt dt) (leapsBefore yt mt) (leapsBefore y2 m2) tod (c + 1)
        (leapYear mode false 1 (enc mode (jd y2 m2 d2) tod2) v c) := by
    intro c v hc h
    rw [enc_eq p2]
    exact fwd_step (p2.split n2) (pt.split nt) ⟨pt.tod.1, pt.tod.2.1⟩ ⟨p2.tod.1, p2.tod.2.1⟩ hc h
  have l1 := doYears_up y2 yt (Fwd mode false (number365 yt mt dt) (leapsBefore yt mt) (leapsBefore y2 m2) tod)
    (leapYear mode false 1 (enc mode (jd y2 m2 d2) tod2))
    (fun c v h1 h2 h => step c v (okYear_of (by have := p2.low; omega) ok (by omega)) h)
    ⟨junk, junk, 0, enc mode (jd yt mt dt) tod⟩ ⟨by simp only; omega, by rw [enc_eq pt]; simp⟩ (by omega)
  generalize (doYears y2 yt 1).foldl (leapYear mode false 1 (enc mode (jd y2 m2 d2) tod2))
    ⟨junk, junk, 0, enc mode (jd yt mt dt) tod⟩ = v at l1 ⊢
  obtain ⟨nd, td⟩ := l1
  simp only [Bool.false_eq_true, if_false] at td
  rw [td, ← enc_eq pt, (pt.year _).1, doYears_up_empty _ _ (by omega)]
  simp only [List.foldl_nil]
  rw [nd]
  omega

theorem before_year {y m d : Int} (he : (⟨y, m, d⟩ : Day).Exists) (h29 : ¬ (m = 2 ∧ d = 29)) (hy : 0 ≤ y)
    (b : Int) (hb : 0 ≤ b) (h : leapsBefore y m < leaps b) : number365 y m d < 365 * (b - 1) + 59 := by
  obtain ⟨c1, c2, c3⟩ := cum_range he h29
  have r := leapsBefore_range y m hy
  unfold number365
  rcases (by omega : b ≤ y ∨ b = y + 1 ∨ y + 1 < b) with g | g | g
  · have := leaps_mono b y hb g
    omega
  · subst g
    have hs := leaps_succ y hy
    unfold leapsBefore at h
    by_cases hl : Leap y
    · rw [if_pos hl] at hs
      by_cases hm : m > 2
      · rw [if_pos ⟨hm, hl⟩] at h; omega
      · omega
    · rw [if_neg hl] at hs
      omega
  · omega

theorem feb28 {mode : Mode} {y2 m2 d2 tod2 c : Int} (p2 : Point mode y2 m2 d2 tod2) (n2 : ¬ (m2 = 2 ∧ d2 = 29))
    (hb : Leap y2 → ¬ (m2 = 2 ∧ d2 = 28 ∧ tod2 = dayUnits mode - 1)) (hl : Leap c)
    (hx : number365 y2 m2 d2 = 365 * c + 58 ∧ tod2 = dayUnits mode - 1) : False := by
  obtain ⟨c1, c2, c3⟩ := cum_range p2.ex n2
  have hN := hx.1
  unfold number365 at hN
  have hy : y2 = c := by omega
  subst hy
  have := exists_le31 p2.ex
  have : m2 ≤ 2 := by omega
  rcases (by omega : m2 = 1 ∨ m2 = 2) with h | h
  · subst h; simp [cum] at hN; omega
  · subst h; simp [cum] at hN
    exact hb hl ⟨rfl, by omega, hx.2⟩

/-- Going backward and adding.  The last moment of 28 February of a leap year is excluded: see
`C33_backward_witness`. -/
theorem adjust_backward {mode : Mode} {y2 m2 d2 tod2 yt mt dt tod : Int} (junk : Int)
    (p2 : Point mode y2 m2 d2 tod2) (n2 : ¬ (m2 = 2 ∧ d2 = 29))
    (pt : Point mode yt mt dt tod) (nt : ¬ (mt = 2 ∧ dt = 29)) (ok : okYear mode y2)
    (h80 : mode = .basic → tod % 720 = 0 ∨ 1980 ≤ yt)
    (hb : Leap y2 → ¬ (m2 = 2 ∧ d2 = 28 ∧ tod2 = dayUnits mode - 1))
    (hle : number365 yt mt dt ≤ number365 y2 m2 d2) :
    leapYearAdjust mode true junk (enc mode (1721060 + number365 yt mt dt + leapsBefore y2 m2) tod)
      (enc mode (jd y2 m2 d2) tod2) = leapsBefore yt mt - leapsBefore y2 m2 := by
  have hL := leapsBefore_mono pt.ex nt pt.nonneg p2.ex n2 p2.nonneg hle
  have j2 := jd_split p2.ex p2.nonneg
  have jt := jd_split pt.ex pt.nonneg
  have f2 := firstYear_jd pt
  have ft := jd_lt10k p2.ex (by have := p2.nonneg; omega) p2.high
  have pex : ∀ j, jd yt mt dt ≤ j → j ≤ jd y2 m2 d2 → ∃ y m d, Point mode y m d tod ∧ jd y m d = j := by
    intro j h1 h2
    refine point_exists mode j tod (by omega) (by omega) ⟨pt.tod.1, pt.tod.2.1⟩ ?_
    intro hb hj
    rcases h80 hb with h | h
    · exact h
    · have := jd_ge1980 pt.ex h; omega
  obtain ⟨y1, m1, d1, p1, e1⟩ := pex (1721060 + number365 yt mt dt + leapsBefore y2 m2) (by omega) (by omega)
  have y21 := point_year_le p1 p2 (by omega)
  have y1t := point_year_le pt p1 (by omega)
  obtain ⟨a1, b1⟩ := p1.year junk
  obtain ⟨a2, b2⟩ := p2.year junk
  unfold leapYearAdjust
  rw [← e1]
  simp only [a1, b1, a2, b2]
  have r2 := leapsBefore_range y2 m2 p2.nonneg
  by_cases hi : y2 > y1 ∨ (y1 = y2 ∧ m2 > m1)
  · rw [if_pos hi]
    have step : ∀ c v, okYear mode c →
        Bwd mode true (number365 yt mt dt) (leapsBefore yt mt) (leapsBefore y2 m2) tod (c + 1) v →
        Bwd mode true (number365 yt mt dt) (leapsBefore yt mt) (leapsBefore y2 m2) tod c
          (leapYear mode true (-1) (enc mode (jd y2 m2 d2) tod2) v c) := by
      intro c v hc h
      rw [enc_eq p2]
      refine bwd_step (p2.split n2) (pt.split nt) ⟨pt.tod.1, pt.tod.2.1⟩ ⟨p2.tod.1, p2.tod.2.1⟩ ?_ hc h
      intro hl hx
      exact feb28 p2 n2 hb hl hx
    have l1 := doYears_down y2 y1 (Bwd mode true (number365 yt mt dt) (leapsBefore yt mt) (leapsBefore y2 m2) tod)
      (leapYear mode true (-1) (enc mode (jd y2 m2 d2) tod2))
      (fun c v h1 h2 h => step c v (okYear_of (by have := p1.low; omega) ok (by omega)) h)
      ⟨junk, junk, 0, enc mode (jd y1 m1 d1) tod⟩ ⟨by simp only; omega, by rw [e1]; simp⟩ (by omega)
    generalize (doYears y2 y1 (-1)).foldl (leapYear mode true (-1) (enc mode (jd y2 m2 d2) tod2))
      ⟨junk, junk, 0, enc mode (jd y1 m1 d1) tod⟩ = v at l1 ⊢
    obtain ⟨nd, td⟩ := l1
    simp only [if_true] at td
    obtain ⟨yL, mL, dL, pL, eL⟩ := pex (1721060 + number365 yt mt dt + (leapsBefore y2 m2 + v.ndays))
      (by omega) (by omega)
    rw [td, ← eL, (pL.year _).1]
    have y1L := point_year_le pL p1 (by omega)
    have yLt := point_year_le pt pL (by omega)
    have ey : y1 + -1 + 1 = y1 := by omega
    have l2 := doYears_down (y1 + -1) yL (Bwd mode true (number365 yt mt dt) (leapsBefore yt mt) (leapsBefore y2 m2) tod)
      (leapYear mode true (-1) (enc mode (jd y2 m2 d2) tod2))
      (fun c v h1 h2 h => step c v (okYear_of (by have := pL.low; omega) ok (by omega)) h)
      v (by rw [ey]; exact ⟨nd, by rw [td]; simp⟩) (by omega)
    have cover : leaps yL ≤ leapsBefore yt mt := by
      by_cases c : leaps yL ≤ leapsBefore yt mt
      · exact c
      · have af := before_year pt.ex nt pt.nonneg yL pL.nonneg (by omega)
        have bl := p1.year_bounds
        have bL := pL.year_bounds
        have m1 := leaps_mono yL y1 pL.nonneg (by omega)
        have m2 := leaps_small (y2 + 1) (by have := p2.nonneg; omega) (by have := p2.high; omega)
        have m3 := leaps_small y1 p1.nonneg (by have := p1.high; omega)
        omega
    rw [l2.1]
    omega
  · rw [if_neg hi]
    have hy : y1 = y2 := by omega
    subst hy
    have hm : m1 = m2 := by
      have := point_month_le p1 p2 (by omega)
      omega
    subst hm
    have same : leapsBefore yt mt = leapsBefore y1 m1 := by
      by_cases c : leapsBefore yt mt = leapsBefore y1 m1
      · exact c
      · exfalso
        have j1 := jd_split p1.ex p1.nonneg
        have hN1 : number365 y1 m1 d1 = number365 yt mt dt := by omega
        have : ¬ (m1 = 2 ∧ d1 = 29) := by
          intro h
          have e := p2.ex.2.2.2
          have l := (monthLen_le y1 m1)
          simp only at e
          have q2 : number365 y1 m1 d2 = number365 y1 m1 d1 + (d2 - d1) := by unfold number365; omega
          have : monthLen y1 m1 ≤ 29 := by
            rw [h.1]; unfold monthLen; simp only [if_true]; split <;> omega
          exact n2 ⟨h.1, by omega⟩
        have := leapsBefore_mono p1.ex this p1.nonneg pt.ex nt pt.nonneg (by omega)
        omega
    have step : ∀ c v, okYear mode c →
        Fwd mode true (number365 yt mt dt) (leapsBefore yt mt) (leapsBefore y1 m1) tod c v →
        Fwd mode true (number365 yt mt dt) (leapsBefore yt mt) (leapsBefore y1 m1) tod (c + 1)
          (leapYear mode true 1 (enc mode (jd y1 m1 d2) tod2) v c) := by
      intro c v hc h
      rw [enc_eq p2]
      exact fwd_step (p2.split n2) (pt.split nt) ⟨pt.tod.1, pt.tod.2.1⟩ ⟨p2.tod.1, p2.tod.2.1⟩ hc h
    have l1 := doYears_up y1 y1 (Fwd mode true (number365 yt mt dt) (leapsBefore yt mt) (leapsBefore y1 m1) tod)
      (leapYear mode true 1 (enc mode (jd y1 m1 d2) tod2))
      (fun c v h1 h2 h => step c v (okYear_of (by have := p1.low; omega) ok (by omega)) h)
      ⟨junk, junk, 0, enc mode (jd y1 m1 d1) tod⟩ ⟨by simp only; omega, by rw [e1]; simp⟩ (by omega)
    generalize (doYears y1 y1 1).foldl (leapYear mode true 1 (enc mode (jd y1 m1 d2) tod2))
      ⟨junk, junk, 0, enc mode (jd y1 m1 d1) tod⟩ = v at l1 ⊢
    obtain ⟨nd, td⟩ := l1
    simp only [if_true] at td
    have z : v.ndays = 0 := by omega
    rw [z, Int.add_zero, ← e1] at td
    rw [td, (p1.year _).1, doYears_up_empty _ _ (by omega)]
    simp only [List.foldl_nil]
    omega

/-- The same when subtracting. -/
theorem adjust_backward_diff {mode : Mode} {y2 m2 d2 tod2 yt mt dt tod : Int} (junk : Int)
    (p2 : Point mode y2 m2 d2 tod2) (n2 : ¬ (m2 = 2 ∧ d2 = 29))
    (pt : Point mode yt mt dt tod) (nt : ¬ (mt = 2 ∧ dt = 29)) (ok : okYear mode y2)
    (hb : Leap y2 → ¬ (m2 = 2 ∧ d2 = 28 ∧ tod2 = dayUnits mode - 1))
    (hle : number365 yt mt dt ≤ number365 y2 m2 d2) :
    leapYearAdjust mode false junk (enc mode (jd yt mt dt) tod) (enc mode (jd y2 m2 d2) tod2) =
      leapsBefore yt mt - leapsBefore y2 m2 := by
  have hL := leapsBefore_mono pt.ex nt pt.nonneg p2.ex n2 p2.nonneg hle
  have j2 := jd_split p2.ex p2.nonneg
  have jt := jd_split pt.ex pt.nonneg
  have y21 := point_year_le pt p2 (by omega)
  obtain ⟨a1, b1⟩ := pt.year junk
  obtain ⟨a2, b2⟩ := p2.year junk
  unfold leapYearAdjust
  simp only [a1, b1, a2, b2]
  have r2 := leapsBefore_range y2 m2 p2.nonneg
  have rt := leapsBefore_range yt mt pt.nonneg
  by_cases hi : y2 > yt ∨ (yt = y2 ∧ m2 > mt)
  · rw [if_pos hi]
    have step : ∀ c v, okYear mode c →
        Bwd mode false (number365 yt mt dt) (leapsBefore yt mt) (leapsBefore y2 m2) tod (c + 1) v →
        Bwd mode false (number365 yt mt dt) (leapsBefore yt mt) (leapsBefore y2 m2) tod c
          (leapYear mode false (-1) (enc mode (jd y2 m2 d2) tod2) v c) := by
      intro c v hc h
      rw [enc_eq p2]
      refine bwd_step (p2.split n2) (pt.split nt) ⟨pt.tod.1, pt.tod.2.1⟩ ⟨p2.tod.1, p2.tod.2.1⟩ ?_ hc h
      intro hl hx
      exact feb28 p2 n2 hb hl hx
    have l1 := doYears_down y2 yt (Bwd mode false (number365 yt mt dt) (leapsBefore yt mt) (leapsBefore y2 m2) tod)
      (leapYear mode false (-1) (enc mode (jd y2 m2 d2) tod2))
      (fun c v h1 h2 h => step c v (okYear_of (by have := pt.low; omega) ok (by omega)) h)
      ⟨junk, junk, 0, enc mode (jd yt mt dt) tod⟩ ⟨by simp only; omega, by rw [enc_eq pt]; simp⟩ (by omega)
    generalize (doYears y2 yt (-1)).foldl (leapYear mode false (-1) (enc mode (jd y2 m2 d2) tod2))
      ⟨junk, junk, 0, enc mode (jd yt mt dt) tod⟩ = v at l1 ⊢
    obtain ⟨nd, td⟩ := l1
    simp only [Bool.false_eq_true, if_false] at td
    rw [td, ← enc_eq pt, (pt.year _).1, doYears_down_empty _ _ (by omega)]
    simp only [List.foldl_nil]
    rw [nd]
    omega
  · rw [if_neg hi]
    have hy : yt = y2 := by omega
    subst hy
    have hm : mt = m2 := by
      have := point_month_le pt p2 (by omega)
      omega
    subst hm
    have step : ∀ c v, okYear mode c →
        Fwd mode false (number365 yt mt dt) (leapsBefore yt mt) (leapsBefore yt mt) tod c v →
        Fwd mode false (number365 yt mt dt) (leapsBefore yt mt) (leapsBefore yt mt) tod (c + 1)
          (leapYear mode false 1 (enc mode (jd yt mt d2) tod2) v c) := by
      intro c v hc h
      rw [enc_eq p2]
      exact fwd_step (p2.split n2) (pt.split nt) ⟨pt.tod.1, pt.tod.2.1⟩ ⟨p2.tod.1, p2.tod.2.1⟩ hc h
    have l1 := doYears_up yt yt (Fwd mode false (number365 yt mt dt) (leapsBefore yt mt) (leapsBefore yt mt) tod)
      (leapYear mode false 1 (enc mode (jd yt mt d2) tod2))
      (fun c v h1 h2 h => step c v (okYear_of (by have := pt.low; omega) ok (by omega)) h)
      ⟨junk, junk, 0, enc mode (jd yt mt dt) tod⟩ ⟨by simp only; omega, by rw [enc_eq pt]; simp⟩ (by omega)
    generalize (doYears yt yt 1).foldl (leapYear mode false 1 (enc mode (jd yt mt d2) tod2))
      ⟨junk, junk, 0, enc mode (jd yt mt dt) tod⟩ = v at l1 ⊢
    obtain ⟨nd, td⟩ := l1
    simp only [Bool.false_eq_true, if_false] at td
    rw [td, ← enc_eq pt, (pt.year _).1, doYears_up_empty _ _ (by omega)]
    simp only [List.foldl_nil]
    omega

end Verif.Date
