import Mathlib.Tactic.Ring
import Verif.DateNum
import Verif.DateAdj
/-!
# `CcclxDays_Adjust`: the 360-day calendar
-/
namespace Verif.Date

/-- A day that the 360-day calendar keeps: no 29 February, no 31st from May on. -/
def Has360 (y m d : Int) : Prop := (⟨y, m, d⟩ : Day).Exists ∧ ¬ (m = 2 ∧ d = 29) ∧ ¬ (m > 4 ∧ d = 31)

/-- Rank of the day in the year of the 360-day calendar, from 1. -/
def rank360 (m d : Int) : Int := if m ≤ 3 then cum m + d else 90 + 30 * (m - 4) + d

theorem has360_cases {y m d : Int} (h : Has360 y m d) :
    (m = 1 ∧ 1 ≤ d ∧ d ≤ 31) ∨ (m = 2 ∧ 1 ≤ d ∧ d ≤ 28) ∨ (m = 3 ∧ 1 ≤ d ∧ d ≤ 31) ∨
      (4 ≤ m ∧ m ≤ 12 ∧ 1 ≤ d ∧ d ≤ 30) := by
  obtain ⟨he, h2, h3⟩ := h
  have a := exists_le31 he
  have b : d ≤ monthLen y m := he.2.2.2
  rcases (by omega : m = 1 ∨ m = 2 ∨ m = 3 ∨ m = 4 ∨ 5 ≤ m) with h | h | h | h | h
  · omega
  · have : monthLen y m ≤ 29 := by rw [h]; unfold monthLen; simp only [if_true]; split <;> omega
    omega
  · omega
  · have : monthLen y m ≤ 30 := by rw [h]; unfold monthLen; simp
    omega
  · omega

theorem rank_to360 {y m d : Int} (h : Has360 y m d) :
    ((to360 m d).1 - 1) * 30 + (to360 m d).2 = rank360 m d ∧ 1 ≤ rank360 m d ∧ rank360 m d ≤ 360 := by
  rcases has360_cases h with h | h | h | h
  · obtain ⟨rfl, h1, h2⟩ := h
    unfold to360 rank360 cum
    by_cases c : d = 31
    · subst c; simp
    · simp [c]; omega
  · obtain ⟨rfl, h1, h2⟩ := h
    unfold to360 rank360 cum
    simp; omega
  · obtain ⟨rfl, h1, h2⟩ := h
    unfold to360 rank360 cum
    by_cases c : d = 1
    · subst c; simp
    · simp [c]; omega
  · unfold to360 rank360
    rw [if_neg (by omega), if_neg (by omega), if_neg (by omega), if_neg (by omega)]
    simp only
    omega

theorem from_rank360 {y m d : Int} (h : Has360 y m d) :
    from360 ((rank360 m d - 1) ÷ 30 + 1) (rank360 m d - ((rank360 m d - 1) ÷ 30 + 1 - 1) * 30) = (m, d) := by
  have r := (rank_to360 h).2
  rw [tdiv_pos _ _ (by omega)]
  rcases has360_cases h with h | h | h | h
  · obtain ⟨rfl, h1, h2⟩ := h
    have e : rank360 1 d = d := by unfold rank360 cum; simp
    rw [e]
    by_cases c : d = 31
    · subst c; rfl
    · have q : (d - 1) / 30 = 0 := by omega
      rw [q]; unfold from360; simp
  · obtain ⟨rfl, h1, h2⟩ := h
    have e : rank360 2 d = 31 + d := by unfold rank360 cum; simp
    have q : (31 + d - 1) / 30 = 1 := by omega
    rw [e, q]; unfold from360
    rw [if_neg (by omega), if_pos (by omega), if_neg (by omega)]
    simp; omega
  · obtain ⟨rfl, h1, h2⟩ := h
    have e : rank360 3 d = 59 + d := by unfold rank360 cum; simp
    rw [e]
    by_cases c : d = 1
    · subst c; rfl
    · have q : (59 + d - 1) / 30 = 2 := by omega
      rw [q]; unfold from360
      rw [if_neg (by omega), if_neg (by omega), if_pos (by omega)]
      simp; omega
  · have e : rank360 m d = 90 + 30 * (m - 4) + d := by unfold rank360; rw [if_neg (by omega)]
    have q : (90 + 30 * (m - 4) + d - 1) / 30 = m - 1 := by omega
    rw [e, q]; unfold from360
    rw [if_neg (by omega), if_neg (by omega), if_neg (by omega), Prod.mk.injEq]
    omega

theorem has360_ok {y m d : Int} (h : Has360 y m d) : ¬ ((d > 28 ∧ m = 2) ∨ (d > 30 ∧ m > 4)) := by
  rcases has360_cases h with h | h | h | h <;> omega

/-- Minutes and seconds of a time of day. -/
def minutes : Mode → Int → Int
  | .basic, tod => tod % 720 / 12
  | .extended, _ => 0
def seconds : Mode → Int → Int
  | .basic, tod => tod % 720 % 12 * 5
  | .extended, _ => 0

theorem dec_time {mode : Mode} {y m d tod : Int} (p : Point mode y m d tod) :
    true2print mode (enc mode (jd y m d) tod) = some (y * 10000 + m * 100 + d,
      tod / hourUnits mode * 1000000 + minutes mode tod * 10000 + seconds mode tod * 100) := by
  obtain ⟨he, h0, h1, ht⟩ := p
  cases mode with
  | basic =>
    simp only [firstYear, okTod, dayUnits, forall_const] at *
    exact tdToPrint_eq he h0 ⟨ht.1, ht.2.1⟩ ht.2.2
  | extended =>
    simp only [firstYear, okTod, dayUnits] at *
    refine (extTdToPrint_eq he ⟨h0, h1⟩ ⟨ht.1, by omega⟩).trans ?_
    simp [hourUnits, minutes, seconds]

theorem tod_time {mode : Mode} {tod : Int} (h : 0 ≤ tod ∧ tod < dayUnits mode) :
    0 ≤ tod / hourUnits mode ∧ tod / hourUnits mode ≤ 23 ∧ 0 ≤ minutes mode tod ∧ minutes mode tod ≤ 59 ∧
    0 ≤ seconds mode tod ∧ seconds mode tod ≤ 59 := by
  cases mode <;> simp only [hourUnits, minutes, seconds, dayUnits] at * <;> omega

theorem print_enc {mode : Mode} {y m d tod : Int} (p : Point mode y m d tod) (ok : okYear mode y)
    (hne : mode = .basic → ¬ (y = 1901 ∧ m = 1 ∧ d = 1 ∧ tod = 720)) :
    print2true mode ((y * 100 + m) * 100 + d)
      (((tod / hourUnits mode * 100 + minutes mode tod) * 100 + seconds mode tod) * 100) =
      some (enc mode (jd y m d) tod) := by
  obtain ⟨he, h0, h1, ht⟩ := p
  have tt := tod_time ⟨ht.1, ht.2.1⟩
  have e1 : (y * 100 + m) * 100 + d = y * 10000 + m * 100 + d := by omega
  have e2 : ((tod / hourUnits mode * 100 + minutes mode tod) * 100 + seconds mode tod) * 100 =
    tod / hourUnits mode * 1000000 + minutes mode tod * 10000 + seconds mode tod * 100 := by omega
  rw [e1, e2]
  cases mode with
  | basic =>
    simp only [firstYear, okTod, dayUnits, forall_const, okYear, hourUnits, minutes, seconds] at *
    refine (printToTd_eq he ok ⟨tt.1, tt.2.1⟩ ⟨tt.2.2.1, tt.2.2.2.1⟩ ⟨tt.2.2.2.2.1, tt.2.2.2.2.2⟩ ?_).trans ?_
    · intro h
      exact hne ⟨h.1, h.2.1, h.2.2.1, by omega⟩
    · simp only [enc, base, dayUnits]; congr 1; omega
  | extended =>
    simp only [firstYear, okTod, dayUnits, okYear, hourUnits, minutes, seconds] at *
    refine (printToExtTd_eq he ok ⟨tt.1, tt.2.1⟩ (by omega) (by omega)).trans ?_
    simp only [enc, base, dayUnits, hours]; simp

theorem date_fields {y m d : Int} (he : (⟨y, m, d⟩ : Day).Exists) (hy : 0 ≤ y) :
    (y * 10000 + m * 100 + d) ÷ 10000 = y ∧ (y * 10000 + m * 100 + d) ÷ 100 mod 100 = m ∧
    (y * 10000 + m * 100 + d) mod 100 = d := by
  have a := exists_le31 he
  rw [tdiv_pos _ _ (by omega), tdiv_pos _ _ (by omega), tmod_pos _ _ (by omega), tmod_pos _ _ (by omega)]
  omega

theorem time_fields {h mi s : Int} (hh : 0 ≤ h ∧ h ≤ 23) (hm : 0 ≤ mi ∧ mi ≤ 59) (hs : 0 ≤ s ∧ s ≤ 59) :
    (h * 1000000 + mi * 10000 + s * 100) ÷ 1000000 = h ∧ (h * 1000000 + mi * 10000 + s * 100) ÷ 10000 mod 100 = mi ∧
    (h * 1000000 + mi * 10000 + s * 100) ÷ 100 mod 100 = s := by
  rw [tdiv_pos _ _ (by omega), tdiv_pos _ _ (by omega), tdiv_pos _ _ (by omega), tmod_pos _ _ (by omega),
    tmod_pos _ _ (by omega)]
  omega

/-- Whole hours later, minutes and seconds are the same. -/
theorem same_minutes {mode : Mode} {a tod tod2 n : Int} (h : tod = tod2 + n * hourUnits mode + a * dayUnits mode) :
    minutes mode tod = minutes mode tod2 ∧ seconds mode tod = seconds mode tod2 ∧
      tod / hourUnits mode = tod2 / hourUnits mode + n + a * 24 := by
  cases mode
  · simp only [hourUnits, minutes, seconds, dayUnits] at *; omega
  · simp only [hourUnits, minutes, seconds, dayUnits] at *
    refine ⟨trivial, trivial, ?_⟩
    simp; omega

theorem sub360_eq (y s h M S n yt st ht : Int) (hM : 0 ≤ M) (hS : 0 ≤ S) (hs : 1 ≤ s ∧ s ≤ 360) (hh : 0 ≤ h ∧ h ≤ 23)
    (hst : 1 ≤ st ∧ st ≤ 360) (hht : 0 ≤ ht ∧ ht ≤ 23) (hn : 0 ≤ n)
    (e : ht = h - n + (360 * y + s - (360 * yt + st)) * 24) :
    sub360 (y, s, h, M, S) (n ÷ (360 * 24), n mod (360 * 24) ÷ 24, n mod (360 * 24) mod 24, 0, 0) = (yt, st, ht, M, S) := by
  have q : 0 ≤ n mod (360 * 24) := by rw [tmod_pos _ _ hn]; omega
  rw [tdiv_pos _ _ hn, tdiv_pos _ _ q, tmod_pos _ _ q, tmod_pos _ _ hn]
  unfold sub360
  have cS : ¬ (S < 0) := by omega
  have cM : ¬ (M < 0) := by omega
  simp only [Int.sub_zero, if_neg cS, if_neg cM]
  generalize hA : n / (360 * 24) = A
  generalize hB : n % (360 * 24) / 24 = B
  generalize hC : n % (360 * 24) % 24 = C
  have hn' : n = A * 8640 + B * 24 + C := by omega
  have hB' : 0 ≤ B ∧ B < 360 := by omega
  have hC' : 0 ≤ C ∧ C < 24 := by omega
  by_cases c1 : h - C < 0
  · simp only [if_pos c1]
    by_cases c2 : s - 1 - B < 1
    · simp only [if_pos c2, Prod.mk.injEq, and_true]
      omega
    · simp only [if_neg c2, Prod.mk.injEq, and_true]
      omega
  · simp only [if_neg c1]
    by_cases c2 : s - B < 1
    · simp only [if_pos c2, Prod.mk.injEq, and_true]
      omega
    · simp only [if_neg c2, Prod.mk.injEq, and_true]
      omega

theorem add360_eq (y s h M S n yt st ht : Int) (hM : M ≤ 59) (hS : S ≤ 59) (hs : 1 ≤ s ∧ s ≤ 360) (hh : 0 ≤ h ∧ h ≤ 23)
    (hst : 1 ≤ st ∧ st ≤ 360) (hht : 0 ≤ ht ∧ ht ≤ 23) (hn : 0 ≤ n)
    (e : ht = h + n + (360 * y + s - (360 * yt + st)) * 24) :
    add360 (y, s, h, M, S) (n ÷ (360 * 24), n mod (360 * 24) ÷ 24, n mod (360 * 24) mod 24, 0, 0) = (yt, st, ht, M, S) := by
  have q : 0 ≤ n mod (360 * 24) := by rw [tmod_pos _ _ hn]; omega
  rw [tdiv_pos _ _ hn, tdiv_pos _ _ q, tmod_pos _ _ q, tmod_pos _ _ hn]
  unfold add360
  have cS : ¬ (S > 59) := by omega
  have cM : ¬ (M > 59) := by omega
  simp only [Int.add_zero, if_neg cS, if_neg cM]
  generalize hA : n / (360 * 24) = A
  generalize hB : n % (360 * 24) / 24 = B
  generalize hC : n % (360 * 24) % 24 = C
  have hn' : n = A * 8640 + B * 24 + C := by omega
  have hB' : 0 ≤ B ∧ B < 360 := by omega
  have hC' : 0 ≤ C ∧ C < 24 := by omega
  by_cases c1 : h + C > 23
  · simp only [if_pos c1]
    by_cases c2 : s + 1 + B > 360
    · simp only [if_pos c2, Prod.mk.injEq, and_true]
      omega
    · simp only [if_neg c2, Prod.mk.injEq, and_true]
      omega
  · simp only [if_neg c1]
    by_cases c2 : s + B > 360
    · simp only [if_pos c2, Prod.mk.injEq, and_true]
      omega
    · simp only [if_neg c2, Prod.mk.injEq, and_true]
      omega

/-- Adding in the 360-day calendar. -/
theorem ccclxAdd_eq {mode : Mode} {y2 m2 d2 tod2 yt mt dt tod n : Int} (R : Rounding 53) (junk : Int)
    (p2 : Point mode y2 m2 d2 tod2) (c2 : Has360 y2 m2 d2)
    (pt : Point mode yt mt dt tod) (ct : Has360 yt mt dt) (ok : okYear mode yt)
    (hne : mode = .basic → ¬ (yt = 1901 ∧ mt = 1 ∧ dt = 1 ∧ tod = 720))
    (hn : (360 * yt + rank360 mt dt) * dayUnits mode + tod =
      (360 * y2 + rank360 m2 d2) * dayUnits mode + tod2 + n * hourUnits mode) :
    enc mode (jd y2 m2 d2) tod2 + n * hourUnits mode +
      ccclxAdd R mode junk (enc mode (jd y2 m2 d2) tod2 + n * hourUnits mode) (enc mode (jd y2 m2 d2) tod2) *
        dayUnits mode = enc mode (jd yt mt dt) tod := by
  obtain ⟨r2, r2a, r2b⟩ := rank_to360 c2
  obtain ⟨rt, rta, rtb⟩ := rank_to360 ct
  have ft := from_rank360 ct
  obtain ⟨g1, g2, g3⟩ := date_fields p2.ex p2.nonneg
  have tt := tod_time ⟨p2.tod.1, p2.tod.2.1⟩
  have ttt := tod_time ⟨pt.tod.1, pt.tod.2.1⟩
  obtain ⟨k1, k2, k3⟩ := time_fields ⟨tt.1, tt.2.1⟩ ⟨tt.2.2.1, tt.2.2.2.1⟩ ⟨tt.2.2.2.2.1, tt.2.2.2.2.2⟩
  have pe := print_enc pt ok hne
  obtain ⟨q1, q2, q3⟩ := same_minutes (mode := mode) (tod := tod) (tod2 := tod2) (n := n)
    (a := 360 * y2 + rank360 m2 d2 - (360 * yt + rank360 mt dt)) (by cases mode <;> simp only [dayUnits] at * <;> omega)
  have y0 := p2.nonneg
  have yt0 := pt.nonneg
  have hy2 := p2.high
  have hyt := pt.high
  have hb : |n| ≤ 2 ^ 53 := by rw [abs_le]; constructor <;> omega
  unfold ccclxAdd
  rw [dec_time p2]
  simp only [Option.getD_some, g1, g2, g3, k1, k2, k3, r2]
  rw [if_neg (has360_ok c2), fl_hours R mode _ n hb, trunc_abs]
  have z1 : R.fl (|(n : ℚ)| - ((|n| : ℤ) : ℚ)) = ((0 : ℤ) : ℚ) := fl_int R 0 (by simp) _ (by simp)
  have z2 : R.fl (((0 : ℤ) : ℚ) * 3600) = ((0 : ℤ) : ℚ) := fl_int R 0 (by simp) _ (by simp)
  rw [z1, z2, nint_int]
  simp only [Int.zero_tdiv, Int.zero_tmod, Int.cast_lt_zero]
  rw [q1, q2] at pe
  have parts : (if n < 0 then sub360 (y2, rank360 m2 d2, tod2 / hourUnits mode, minutes mode tod2, seconds mode tod2)
        (|n| ÷ (360 * 24), |n| mod (360 * 24) ÷ 24, |n| mod (360 * 24) mod 24, 0, 0)
      else add360 (y2, rank360 m2 d2, tod2 / hourUnits mode, minutes mode tod2, seconds mode tod2)
        (|n| ÷ (360 * 24), |n| mod (360 * 24) ÷ 24, |n| mod (360 * 24) mod 24, 0, 0)) =
      (yt, rank360 mt dt, tod / hourUnits mode, minutes mode tod2, seconds mode tod2) := by
    by_cases c : n < 0
    · rw [if_pos c, abs_of_neg c]
      exact sub360_eq _ _ _ _ _ _ _ _ _ tt.2.2.1 tt.2.2.2.2.1 ⟨r2a, r2b⟩ ⟨tt.1, tt.2.1⟩ ⟨rta, rtb⟩
        ⟨ttt.1, ttt.2.1⟩ (by omega) (by omega)
    · rw [if_neg c, abs_of_nonneg (by omega)]
      exact add360_eq _ _ _ _ _ _ _ _ _ tt.2.2.2.1 tt.2.2.2.2.2 ⟨r2a, r2b⟩ ⟨tt.1, tt.2.1⟩ ⟨rta, rtb⟩
        ⟨ttt.1, ttt.2.1⟩ (by omega) (by omega)
  rw [parts]
  simp only
  rw [ft]
  simp only
  rw [pe]
  simp only [Option.getD_some]
  have e : enc mode (jd yt mt dt) tod - (enc mode (jd y2 m2 d2) tod2 + n * hourUnits mode) =
      (jd yt mt dt - jd y2 m2 d2 - (360 * yt + rank360 mt dt) + (360 * y2 + rank360 m2 d2)) * dayUnits mode := by
    cases mode <;> simp only [enc, dayUnits, hourUnits] at * <;> omega
  rw [e, Int.mul_tdiv_cancel _ (by cases mode <;> simp [dayUnits])]
  rw [← e]; omega

/-- Subtracting in the 360-day calendar. -/
theorem ccclxDiff_eq {mode : Mode} {y2 m2 d2 tod2 yt mt dt tod n : Int} (R : Rounding 53) (junk : Int)
    (p2 : Point mode y2 m2 d2 tod2) (c2 : Has360 y2 m2 d2)
    (pt : Point mode yt mt dt tod) (ct : Has360 yt mt dt)
    (hn : (360 * yt + rank360 mt dt) * dayUnits mode + tod =
      (360 * y2 + rank360 m2 d2) * dayUnits mode + tod2 + n * hourUnits mode) :
    enc mode (jd yt mt dt) tod - enc mode (jd y2 m2 d2) tod2 =
      (n + 24 * ccclxDiff R mode junk (enc mode (jd yt mt dt) tod) (enc mode (jd y2 m2 d2) tod2)) *
        hourUnits mode := by
  obtain ⟨r2, r2a, r2b⟩ := rank_to360 c2
  obtain ⟨rt, rta, rtb⟩ := rank_to360 ct
  obtain ⟨g1, g2, g3⟩ := date_fields p2.ex p2.nonneg
  obtain ⟨f1, f2, f3⟩ := date_fields pt.ex pt.nonneg
  have tt := tod_time ⟨p2.tod.1, p2.tod.2.1⟩
  have ttt := tod_time ⟨pt.tod.1, pt.tod.2.1⟩
  obtain ⟨k1, k2, k3⟩ := time_fields ⟨tt.1, tt.2.1⟩ ⟨tt.2.2.1, tt.2.2.2.1⟩ ⟨tt.2.2.2.2.1, tt.2.2.2.2.2⟩
  obtain ⟨l1, l2, l3⟩ := time_fields ⟨ttt.1, ttt.2.1⟩ ⟨ttt.2.2.1, ttt.2.2.2.1⟩ ⟨ttt.2.2.2.2.1, ttt.2.2.2.2.2⟩
  obtain ⟨q1, q2, q3⟩ := same_minutes (mode := mode) (tod := tod) (tod2 := tod2) (n := n)
    (a := 360 * y2 + rank360 m2 d2 - (360 * yt + rank360 mt dt)) (by cases mode <;> simp only [dayUnits] at * <;> omega)
  have y0 := p2.nonneg
  have yt0 := pt.nonneg
  have hy2 := p2.high
  have hyt := pt.high
  have hj2 := p2.year_bounds
  have hjt := pt.year_bounds
  have ls1 := leaps_small y2 y0 (by omega)
  have ls2 := leaps_small yt yt0 (by omega)
  have ls3 := leaps_small (y2 + 1) (by omega) (by omega)
  have ls4 := leaps_small (yt + 1) (by omega) (by omega)
  have e : enc mode (jd yt mt dt) tod = enc mode (jd y2 m2 d2) tod2 +
      (n + 24 * (jd yt mt dt - jd y2 m2 d2 - (360 * yt + rank360 mt dt) + (360 * y2 + rank360 m2 d2))) * hourUnits mode := by
    cases mode <;> simp only [enc, dayUnits, hourUnits] at * <;> omega
  unfold ccclxDiff
  rw [dec_time p2, dec_time pt]
  simp only [Option.getD_some, g1, g2, g3, k1, k2, k3, r2, f1, f2, f3, l1, l2, l3, rt]
  rw [if_neg (has360_ok c2), if_neg (has360_ok ct), q1, q2]
  rw [e, fl_hours R mode _ _ (by rw [abs_le]; constructor <;> omega)]
  have a1 : R.fl (((seconds mode tod2 - seconds mode tod2 : ℤ) : ℚ) / 3600) = ((0 : ℤ) : ℚ) :=
    fl_int R 0 (by simp) _ (by simp)
  have a2 : R.fl (((minutes mode tod2 - minutes mode tod2 : ℤ) : ℚ) / 60) = ((0 : ℤ) : ℚ) :=
    fl_int R 0 (by simp) _ (by simp)
  have a3 : R.fl (((0 : ℤ) : ℚ) + ((0 : ℤ) : ℚ)) = ((0 : ℤ) : ℚ) := fl_int R 0 (by simp) _ (by simp)
  rw [a1, a2, a3]
  generalize tod / hourUnits mode = h1 at *
  generalize tod2 / hourUnits mode = h2 at *
  generalize rank360 m2 d2 = s2 at *
  generalize rank360 mt dt = s1 at *
  generalize jd yt mt dt = j1 at *
  generalize jd y2 m2 d2 = j2 at *
  have a4 : R.fl (((0 : ℤ) : ℚ) + ((h1 - h2 : ℤ) : ℚ)) = ((h1 - h2 : ℤ) : ℚ) :=
    fl_int R _ (by rw [abs_le]; constructor <;> omega) _ (by push_cast; ring)
  have a5 : R.fl (((s1 - s2 : ℤ) : ℚ) * 24) = (((s1 - s2) * 24 : ℤ) : ℚ) :=
    fl_int R _ (by rw [abs_le]; constructor <;> omega) _ (by push_cast; ring)
  have a6 : R.fl (((yt - y2 : ℤ) : ℚ) * 8640) = (((yt - y2) * 8640 : ℤ) : ℚ) :=
    fl_int R _ (by rw [abs_le]; constructor <;> omega) _ (by push_cast; ring)
  rw [a4, a5, a6]
  have a7 : R.fl (((h1 - h2 : ℤ) : ℚ) + (((s1 - s2) * 24 : ℤ) : ℚ)) = ((h1 - h2 + (s1 - s2) * 24 : ℤ) : ℚ) :=
    fl_int R _ (by rw [abs_le]; constructor <;> omega) _ (by push_cast; ring)
  rw [a7]
  have a8 : R.fl (((h1 - h2 + (s1 - s2) * 24 : ℤ) : ℚ) + (((yt - y2) * 8640 : ℤ) : ℚ)) = ((n : ℤ) : ℚ) :=
    fl_int R _ (by rw [abs_le]; constructor <;> omega) _ (by
      rw [← Int.cast_add, Int.cast_inj]; omega)
  rw [a8]
  have a9 : R.fl (((n + 24 * (j1 - j2 - (360 * yt + s1) + (360 * y2 + s2)) : ℤ) : ℚ) - (n : ℚ)) =
      ((24 * (j1 - j2 - (360 * yt + s1) + (360 * y2 + s2)) : ℤ) : ℚ) :=
    fl_int R _ (by rw [abs_le]; constructor <;> omega) _ (by push_cast; ring)
  rw [a9]
  have a10 : R.fl (((24 * (j1 - j2 - (360 * yt + s1) + (360 * y2 + s2)) : ℤ) : ℚ) / 24) =
      ((j1 - j2 - (360 * yt + s1) + (360 * y2 + s2) : ℤ) : ℚ) :=
    fl_int R _ (by rw [abs_le]; constructor <;> omega) _ (by push_cast; ring)
  rw [a10, nint_int]
  omega

end Verif.Date
