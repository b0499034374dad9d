import Mathlib.Tactic.Ring
import Verif.DateOut
/-!
# `incdat` and `difdat` on stamps
-/
namespace Verif.Date

theorem toHour_of (X : Int) (h : X % 720 = 0) : toHour X = X := by
  unfold toHour
  by_cases c : X ≥ 0
  · rw [if_pos c, tdiv_pos _ _ (by omega)]; omega
  · rw [if_neg c]
    have e : X + -360 = -(-X + 360) := by omega
    rw [e, Int.neg_tdiv, tdiv_pos _ _ (by omega)]; omega

theorem Moment.td_mod (t : Moment) (h : t.mi = 0 ∧ t.s = 0) : t.td % 720 = 0 := by
  unfold Moment.td; simp only [jd1980]; omega

theorem Moment.td_low (t : Moment) (h : t.Valid) (hy : 1900 ≤ t.y) : td1900 ≤ t.td := by
  have := jd_ge (y := t.y) (m := t.m) (d := t.d) h.1 hy
  have hr := h.2
  unfold Moment.td; simp only [jd1980, td1900]; omega

theorem Moment.td_1980 (t : Moment) (h : t.Valid) (hy : 1980 ≤ t.y) : 0 ≤ t.td := by
  have := jd_ge1980 (y := t.y) (m := t.m) (d := t.d) h.1 hy
  have hr := h.2
  unfold Moment.td; simp only [jd1980]; omega

theorem Moment.td_high (t : Moment) (h : t.Valid) (h0 : 0 ≤ t.y) (hy : t.y ≤ 2235) (hm : t.mi = 0 ∧ t.s = 0) :
    t.td ≤ td2235 := by
  have := jd_lt2236 (y := t.y) (m := t.m) (d := t.d) h.1 (by omega) (by omega)
  have hr := h.2
  unfold Moment.td; simp only [jd1980, td2235]; omega

theorem Moment.td_high' (t : Moment) (h : t.Valid) (h0 : 0 ≤ t.y) (hy : t.y ≤ 2235) : t.td < td2235 + 12 := by
  have := jd_lt2236 (y := t.y) (m := t.m) (d := t.d) h.1 (by omega) (by omega)
  have hr := h.2
  unfold Moment.td; simp only [jd1980, td2235]; omega

theorem Moment.basicPoint (t : Moment) (h : t.Valid) (hy : 1900 ≤ t.y) (hy' : t.y ≤ 2235)
    (h80 : t.y < 1980 → t.mi = 0 ∧ t.s = 0) : Point .basic t.y t.m t.d t.tod := by
  have tr := t.tod_range h
  refine ⟨h.1, hy, by omega, tr.1, tr.2, ?_⟩
  intro _ c
  have := h80 c
  unfold Moment.tod
  omega

theorem Moment.extPoint (t : Moment) (h : t.Valid) (hy : 0 ≤ t.y) (hy' : t.y < 10000) :
    Point .extended t.y t.m t.d t.h := by
  have hr := h.2
  refine ⟨h.1, hy, hy', by omega, ?_, fun c => by cases c⟩
  simp only [dayUnits]; omega

/-- Within the years of basic stamps. -/
theorem incdat_basic (R : Rounding 53) (cal : Calendar) (junk : Int) (rounding : Bool) {st : Int} {t u : Moment} {n : Int}
    (hs : -1 ≤ st) (sh : Shows st t) (vt : t.Valid) (vu : u.Valid) (ct : cal.Has t.day) (cu : cal.Has u.day)
    (hu : 1900 ≤ u.y ∧ u.y ≤ 2235) (u5 : u.s % 5 = 0)
    (hr : rounding = true → t.mi = 0 ∧ t.s = 0) (h80 : (t.mi = 0 ∧ t.s = 0) ∨ 1980 ≤ u.y) (hmax : u.td ≤ td2235)
    (hb : cal = .noLeap → n < 0 → Leap t.y → ¬ (t.m = 2 ∧ t.d = 28 ∧ t.tod = 17279))
    (hne : cal = .days360 → ¬ (u.y = 1901 ∧ u.m = 1 ∧ u.d = 1 ∧ u.tod = 720))
    (hn : cal.number u.day * 17280 + u.tod = cal.number t.day * 17280 + t.tod + n * 720) :
    Shows (incdat R cal junk rounding st n) u := by
  obtain ⟨t1, t2, t3, t4, run, e, hrun⟩ := shows_basic hs sh vt
  have trt := t.tod_range vt
  have tru := u.tod_range vu
  have same : u.mi = t.mi ∧ u.s = t.s := by
    have := vt.2; have := vu.2
    unfold Moment.tod at hn
    omega
  have u80 : u.y < 1980 → u.mi = 0 ∧ u.s = 0 := by
    intro c; rw [same.1, same.2]; rcases h80 with h | h
    · exact h
    · omega
  have pt := t.basicPoint vt t1 t2 t3
  have pu := u.basicPoint vu hu.1 hu.2 u80
  have adj := adjust_ok (mode := .basic) R cal junk pt ct ⟨t1, by omega⟩ pu cu ⟨hu.1, by omega⟩ (n := n)
    (by
      intro _
      by_cases c : t.mi = 0 ∧ t.s = 0
      · left; unfold Moment.tod; rw [same.1, same.2]; omega
      · right
        constructor
        · by_cases q : t.y < 1980
          · exact absurd (t3 q) c
          · omega
        · rcases h80 with h | h
          · exact absurd h c
          · exact h)
    (by intro a b d; exact hb a b d) (fun a _ => hne a) hn
  have bet := naive_between (mode := .basic) cal pt ct pu cu (n := n) hn
  rw [← t.td_enc, ← u.td_enc] at bet
  rw [← t.td_enc, ← u.td_enc] at adj
  simp only [hourUnits, dayUnits] at bet adj
  have lt := t.td_low vt t1
  have lu := u.td_low vu hu.1
  have ht := t.td_high' vt (by omega) t2
  unfold incdat
  rw [if_neg (by omega), e]
  simp only
  have hround : (rounding || decide (t.td < 0)) = true → t.mi = 0 ∧ t.s = 0 := by
    intro h
    cases rounding with
    | true => exact hr rfl
    | false =>
      simp only [Bool.false_or, decide_eq_true_eq] at h
      apply t3
      by_cases q : t.y < 1980
      · exact q
      · have := t.td_1980 vt (by omega); omega
  have e1 : (if (rounding || decide (t.td < 0)) = true then toHour t.td else t.td) = t.td := by
    split
    · exact toHour_of _ (t.td_mod (hround (by assumption)))
    · rfl
  have e2 : (if (rounding || decide (t.td < 0)) = true then 720 * nint (n : ℚ) else nint (R.fl (720 * (n : ℚ)))) = n * 720 := by
    split
    · rw [nint_int]; omega
    · rw [fl_add720 R n (by rw [abs_le]; simp only [td1900, td2235] at *; constructor <;> omega)]; omega
  rw [e1, e2]
  clear e1 e2 hround
  have e3 : t.td + n * 720 + calendarAdjust R cal .basic true junk (t.td + n * 720) t.td * 24 * 720 = u.td := by
    rw [Int.mul_assoc]; exact adj
  rw [e3, if_pos]
  · exact shows_td vu hu.1 (by omega) u80 u5 hrun
  · simp only [td1900, td2235] at *; omega

theorem hours_enc (t : Moment) : hours t.y t.m t.d t.h = enc .extended (jd t.y t.m t.d) t.h := rfl

/-- In hours since the year 0. -/
theorem incExtended_eq (R : Rounding 53) (cal : Calendar) (junk : Int) {t u : Moment} {n : Int}
    (vt : t.Valid) (vu : u.Valid) (ct : cal.Has t.day) (cu : cal.Has u.day)
    (ht : 0 ≤ t.y ∧ t.y < 10000) (hu : 0 ≤ u.y ∧ u.y < 10000) (u0 : u.mi = 0 ∧ u.s = 0)
    (hb : cal = .noLeap → n < 0 → Leap t.y → ¬ (t.m = 2 ∧ t.d = 28 ∧ t.h = 23))
    (hn : cal.number u.day * 24 + u.h = cal.number t.day * 24 + t.h + n) :
    Shows ((incExtended R cal junk (hours t.y t.m t.d t.h) n).getD badStamp) u := by
  have pt := t.extPoint vt ht.1 ht.2
  have pu := u.extPoint vu hu.1 hu.2
  have adj := adjust_ok (mode := .extended) R cal junk pt ct ht pu cu hu (n := n)
    (fun h => by cases h) (by intro a b d; exact hb a b d) (fun _ h => by cases h)
    (by simp only [dayUnits, hourUnits]; rw [Int.mul_one]; exact hn)
  simp only [hourUnits, dayUnits, Int.mul_one, ← hours_enc] at adj
  unfold incExtended
  simp only [nint_int]
  rw [adj]
  exact shows_extTd vu hu.1 hu.2 u0.1 u0.2

/-- From an extended stamp. -/
theorem incdat_ext (R : Rounding 53) (cal : Calendar) (junk : Int) (rounding : Bool) {st : Int} {t u : Moment} {n : Int}
    (hs : st < -1) (sh : Shows st t) (vt : t.Valid) (vu : u.Valid) (ct : cal.Has t.day) (cu : cal.Has u.day)
    (hu : 0 ≤ u.y ∧ u.y < 10000) (u0 : u.mi = 0 ∧ u.s = 0)
    (hb : cal = .noLeap → n < 0 → Leap t.y → ¬ (t.m = 2 ∧ t.d = 28 ∧ t.h = 23))
    (hn : cal.number u.day * 24 + u.h = cal.number t.day * 24 + t.h + n) :
    Shows (incdat R cal junk rounding st n) u := by
  obtain ⟨t1, t2, t3, t4, e⟩ := shows_ext hs sh vt
  unfold incdat
  rw [if_pos hs, e]
  simp only
  exact incExtended_eq R cal junk vt vu ct cu ⟨t1, t2⟩ hu u0 hb hn

/-- From a basic stamp to a year that basic stamps do not have. -/
theorem incdat_out (R : Rounding 53) (cal : Calendar) (junk : Int) (rounding : Bool) {st : Int} {t u : Moment} {n : Int}
    (hs : -1 ≤ st) (sh : Shows st t) (vt : t.Valid) (vu : u.Valid) (ct : cal.Has t.day) (cu : cal.Has u.day)
    (hu : 0 ≤ u.y ∧ u.y < 10000) (hout : u.y < 1900 ∨ 2236 ≤ u.y) (t0 : t.mi = 0 ∧ t.s = 0) (u0 : u.mi = 0 ∧ u.s = 0)
    (hb : cal = .noLeap → n < 0 → Leap t.y → ¬ (t.m = 2 ∧ t.d = 28 ∧ t.h = 23))
    (h360 : cal = .days360 → ¬ (td1900 ≤ t.td + n * 720 ∧ t.td + n * 720 ≤ td2235))
    (hn : cal.number u.day * 24 + u.h = cal.number t.day * 24 + t.h + n) :
    Shows (incdat R cal junk rounding st n) u := by
  obtain ⟨t1, t2, t3, t4, run, e, hrun⟩ := shows_basic hs sh vt
  have trt := t.tod_range vt
  have tru := u.tod_range vu
  have vt2 := vt.2
  have vu2 := vu.2
  have et : t.tod = t.h * 720 := by unfold Moment.tod; omega
  have eu : u.tod = u.h * 720 := by unfold Moment.tod; omega
  have pt := t.basicPoint vt t1 t2 t3
  have nr : |n| ≤ 2 ^ 40 := by
    have m1 := cal.slack_mono (y := t.y) (m := t.m) (d := t.d) (y' := u.y) (m' := u.m) (d' := u.d) ct cu (by omega) (by omega)
    have m2 := cal.slack_mono (y := u.y) (m := u.m) (d := u.d) (y' := t.y) (m' := t.m) (d' := t.d) cu ct (by omega) (by omega)
    have a := jd_ge0 (y := t.y) (m := t.m) (d := t.d) vt.1 (by omega)
    have b := jd_lt10k (y := t.y) (m := t.m) (d := t.d) vt.1 (by omega) (by omega)
    have a' := jd_ge0 (y := u.y) (m := u.m) (d := u.d) vu.1 (by omega)
    have b' := jd_lt10k (y := u.y) (m := u.m) (d := u.d) vu.1 (by omega) (by omega)
    unfold Moment.day at hn
    rw [abs_le]
    generalize cal.number ⟨t.y, t.m, t.d⟩ = A at *
    generalize cal.number ⟨u.y, u.m, u.d⟩ = B at *
    by_cases c : A ≤ B
    · have := m1 c; constructor <;> omega
    · have := m2 (by omega); constructor <;> omega
  have lt := t.td_low vt t1
  have ht := t.td_high' vt (by omega) t2
  unfold incdat
  rw [if_neg (by omega), e]
  simp only
  have e1 : (if (rounding || decide (t.td < 0)) = true then toHour t.td else t.td) = t.td := by
    split
    · exact toHour_of _ (t.td_mod t0)
    · rfl
  have e2 : (if (rounding || decide (t.td < 0)) = true then 720 * nint (n : ℚ) else nint (R.fl (720 * (n : ℚ)))) = n * 720 := by
    split
    · rw [nint_int]; omega
    · rw [fl_add720 R n nr]; omega
  rw [e1, e2]
  clear e1 e2
  rw [if_neg]
  · unfold Shows at sh
    rw [sh]
    simp only
    unfold Moment.date Moment.time
    rw [printToExtTd_eq (y := t.y) (m := t.m) (d := t.d) vt.1 ⟨by omega, by omega⟩ (by omega) (by omega) (by omega)]
    exact incExtended_eq R cal junk vt vu ct cu ⟨by omega, by omega⟩ hu u0 hb hn
  · rintro ⟨c1, c2, c3⟩
    have ju : (u.y < 1900 ∧ jd u.y u.m u.d < 2415021) ∨ (2236 ≤ u.y ∧ 2537742 ≤ jd u.y u.m u.d) := by
      rcases hout with h | h
      · exact Or.inl ⟨h, jd_lt1900 vu.1 (by omega) h⟩
      · exact Or.inr ⟨h, jd_ge2236 vu.1 h⟩
    have ju' : jd u.y u.m u.d < 2415021 ∨ 2537742 ≤ jd u.y u.m u.d := by omega
    cases cal with
    | gregorian =>
      simp only [Calendar.number, Moment.day] at hn
      unfold Moment.td at *
      simp only [td1900, td2235, jd1980] at *
      omega
    | days360 => exact h360 rfl (by omega)
    | noLeap =>
      have jt := jd_split (y := t.y) (m := t.m) (d := t.d) vt.1 (by omega)
      have jsu := jd_split (y := u.y) (m := u.m) (d := u.d) vu.1 (by omega)
      have mono1 := leapsBefore_mono (y := t.y) (m := t.m) (d := t.d) vt.1 ct.2 (by omega) (y' := u.y) (m' := u.m) (d' := u.d) vu.1 cu.2 (by omega)
      simp only [Calendar.number, Moment.day] at hn
      have en : t.td + n * 720 = enc .basic (1721060 + number365 u.y u.m u.d + leapsBefore t.y t.m) (u.h * 720) := by
        rw [t.td_enc, jt, et]
        simp only [enc, base, dayUnits]
        omega
      have hub : u.y < 10000 := hu.2
      rw [en] at c3
      have c1' : td1900 ≤ t.td + n * 720 := by omega
      have c2' : t.td + n * 720 ≤ td2235 := by omega
      rw [en] at c1' c2'
      rw [t.td_enc] at c3
      have hadj : calendarAdjust R .noLeap .basic true junk
        (enc .basic (1721060 + number365 u.y u.m u.d + leapsBefore t.y t.m) (u.h * 720)) (enc .basic (jd t.y t.m t.d) t.tod) =
        leapYearAdjust .basic true junk
        (enc .basic (1721060 + number365 u.y u.m u.d + leapsBefore t.y t.m) (u.h * 720)) (enc .basic (jd t.y t.m t.d) t.tod) := rfl
      rw [hadj] at c3
      rcases ju with ⟨h, hj⟩ | ⟨h, hj⟩
      · have := adjust_before (y2 := t.y) (m2 := t.m) (d2 := t.d) (tod2 := t.tod) (yt := u.y) (mt := u.m) (dt := u.d)
          (tod := u.h * 720) junk pt ct.2 ⟨t1, by omega⟩ vu.1 hu.1 cu.2 h (by omega) (by omega)
          (by intro _ q; simp only [dayUnits] at q; omega)
          (by
            by_cases q : number365 u.y u.m u.d ≤ number365 t.y t.m t.d
            · exact q
            · have := mono1 (by omega)
              have := jd_ge (y := t.y) (m := t.m) (d := t.d) vt.1 t1
              omega)
          (by simp only [enc, base, dayUnits, td1900, jd1980] at c1'; omega)
        generalize leapYearAdjust .basic true junk _ _ = q at *
        simp only [enc, base, dayUnits, td1900, td2235, jd1980] at *
        omega
      · have pu : Point .basic u.y u.m u.d (u.h * 720) :=
          ⟨vu.1, by simp only [firstYear]; omega, hu.2, by omega, by simp only [dayUnits]; omega, fun _ _ => by omega⟩
        have := adjust_after (y2 := t.y) (m2 := t.m) (d2 := t.d) (tod2 := t.tod) (yt := u.y) (mt := u.m) (dt := u.d)
          (tod := u.h * 720) junk pt ct.2 pu cu.2 h (by omega)
          (by
            by_cases q : number365 t.y t.m t.d ≤ number365 u.y u.m u.d
            · exact q
            · have := leapsBefore_mono (y := u.y) (m := u.m) (d := u.d) vu.1 cu.2 (by omega) (y' := t.y) (m' := t.m) (d' := t.d) vt.1 ct.2 (by omega) (by omega)
              have := jd_lt2236 (y := t.y) (m := t.m) (d := t.d) vt.1 (by omega) (by omega)
              omega)
          (by simp only [enc, base, dayUnits, td2235, jd1980] at c2'; omega)
        generalize leapYearAdjust .basic true junk _ _ = q at *
        simp only [enc, base, dayUnits, td1900, td2235, jd1980] at *
        omega

/-- The hours between two basic stamps. -/
theorem difdat_basic (R : Rounding 53) (S : Rounding 24) (cal : Calendar) (junk : Int) (rounding : Bool)
    {st su : Int} {t u : Moment} {n : Int}
    (hs : -1 ≤ st) (sh : Shows st t) (hsu : -1 ≤ su) (shu : Shows su u) (vt : t.Valid) (vu : u.Valid)
    (ct : cal.Has t.day) (cu : cal.Has u.day) (hr : rounding = true → t.mi = 0 ∧ t.s = 0)
    (hb : cal = .noLeap → n < 0 → Leap t.y → ¬ (t.m = 2 ∧ t.d = 28 ∧ t.tod = 17279))
    (hn : cal.number u.day * 17280 + u.tod = cal.number t.day * 17280 + t.tod + n * 720) :
    difdat R S cal junk rounding su st = n := by
  obtain ⟨t1, t2, t3, t4, run, e, hrun⟩ := shows_basic hs sh vt
  obtain ⟨u1, u2, u3, u4, runu, eu, -⟩ := shows_basic hsu shu vu
  have same : u.mi = t.mi ∧ u.s = t.s := by
    have := vt.2; have := vu.2
    unfold Moment.tod at hn
    omega
  have pt := t.basicPoint vt t1 t2 t3
  have pu := u.basicPoint vu u1 u2 u3
  have adj := adjust_diff (mode := .basic) R cal junk pt ct ⟨t1, by omega⟩ pu cu ⟨u1, by omega⟩ (n := n)
    (by intro a b d; exact hb a b d) hn
  rw [← t.td_enc, ← u.td_enc] at adj
  simp only [hourUnits] at adj
  have lt := t.td_low vt t1
  have lu := u.td_low vu u1
  have ht := t.td_high' vt (by omega) t2
  have hu := u.td_high' vu (by omega) u2
  have e1 : (if rounding = true then toHour t.td else t.td) = t.td := by
    split
    · exact toHour_of _ (t.td_mod (hr (by assumption)))
    · rfl
  have e2 : (if rounding = true then toHour u.td else u.td) = u.td := by
    split
    · exact toHour_of _ (u.td_mod (by rw [same.1, same.2]; exact hr (by assumption)))
    · rfl
  unfold difdat
  rw [if_neg (by omega), e, eu]
  simp only
  rw [e1, e2]
  clear e1 e2
  generalize hA : calendarAdjust R cal .basic false junk u.td t.td = A at *
  have small : |n + 24 * A| ≤ 3000000 := by
    rw [abs_le]; simp only [td1900, td2235] at *; constructor <;> omega
  have e3 : (if rounding = true then ((nint (S.fl (S.fl ((u.td - t.td : Int) : ℚ) / 720)) : Int) : ℚ)
      else R.fl (((u.td - t.td : Int) : ℚ) / 720)) = ((n + 24 * A : Int) : ℚ) := by
    split
    · have q : u.td - t.td = 720 * (n + 24 * A) := by omega
      rw [q, fl4_hours S _ small]
    · refine fl_int R _ ?_ _ ?_
      · rw [abs_le] at *; constructor <;> omega
      · rw [adj]; push_cast; ring
  rw [e3]
  split
  · have : A = 0 := by
      rw [← hA]; subst_vars; rfl
    rw [this]; simp
  · refine fl_int R n ?_ _ ?_
    · have nn : |n| ≤ 2 ^ 40 := by
        have m1 := cal.slack_mono (y := t.y) (m := t.m) (d := t.d) (y' := u.y) (m' := u.m) (d' := u.d) ct cu (by omega) (by omega)
        have m2 := cal.slack_mono (y := u.y) (m := u.m) (d := u.d) (y' := t.y) (m' := t.m) (d' := t.d) cu ct (by omega) (by omega)
        have a := jd_ge0 (y := t.y) (m := t.m) (d := t.d) vt.1 (by omega)
        have b := jd_lt10k (y := t.y) (m := t.m) (d := t.d) vt.1 (by omega) (by omega)
        have a' := jd_ge0 (y := u.y) (m := u.m) (d := u.d) vu.1 (by omega)
        have b' := jd_lt10k (y := u.y) (m := u.m) (d := u.d) vu.1 (by omega) (by omega)
        have trt := t.tod_range vt
        have tru := u.tod_range vu
        unfold Moment.day at hn
        rw [abs_le]
        generalize cal.number ⟨t.y, t.m, t.d⟩ = A at *
        generalize cal.number ⟨u.y, u.m, u.d⟩ = B at *
        by_cases c : A ≤ B
        · have := m1 c; constructor <;> omega
        · have := m2 (by omega); constructor <;> omega
      rw [abs_le] at *; constructor <;> omega
    · push_cast; ring

/-- Hours since the year 0 of a stamp. -/
theorem hoursOf_eq {st : Int} {t : Moment} (hs : st ≠ -1) (sh : Shows st t) (vt : t.Valid) :
    hoursOf st = some (hours t.y t.m t.d t.h) ∧ 0 ≤ t.y ∧ t.y < 10000 := by
  unfold hoursOf
  by_cases c : st > -1
  · obtain ⟨t1, t2, -⟩ := shows_basic (by omega) sh vt
    have v2 := vt.2
    unfold Shows at sh
    rw [if_pos c, sh]
    simp only
    unfold Moment.date Moment.time
    rw [printToExtTd_eq (y := t.y) (m := t.m) (d := t.d) vt.1 ⟨by omega, by omega⟩ (by omega) (by omega) (by omega)]
    exact ⟨rfl, by omega, by omega⟩
  · obtain ⟨t1, t2, t3, t4, e⟩ := shows_ext (by omega) sh vt
    rw [if_neg c, e]
    exact ⟨rfl, t1, t2⟩

/-- The hours between two stamps of which one is extended. -/
theorem difdat_ext (R : Rounding 53) (S : Rounding 24) (cal : Calendar) (junk : Int) (rounding : Bool)
    {st su : Int} {t u : Moment} {n : Int}
    (hs : st < -1 ∨ su < -1) (sh : Shows st t) (shu : Shows su u) (vt : t.Valid) (vu : u.Valid)
    (ct : cal.Has t.day) (cu : cal.Has u.day)
    (hb : cal = .noLeap → n < 0 → Leap t.y → ¬ (t.m = 2 ∧ t.d = 28 ∧ t.h = 23))
    (hn : cal.number u.day * 24 + u.h = cal.number t.day * 24 + t.h + n) :
    difdat R S cal junk rounding su st = n := by
  obtain ⟨e, t1, t2⟩ := hoursOf_eq (fun h => not_shows_minus_one t (h ▸ sh)) sh vt
  obtain ⟨eu, u1, u2⟩ := hoursOf_eq (fun h => not_shows_minus_one u (h ▸ shu)) shu vu
  have pt := t.extPoint vt t1 t2
  have pu := u.extPoint vu u1 u2
  have adj := adjust_diff (mode := .extended) R cal junk pt ct ⟨t1, t2⟩ pu cu ⟨u1, u2⟩ (n := n)
    (by intro a b d; exact hb a b d)
    (by simp only [dayUnits, hourUnits]; rw [Int.mul_one]; exact hn)
  simp only [hourUnits, Int.mul_one, ← hours_enc] at adj
  unfold difdat
  rw [if_pos hs, e, eu]
  simp only
  generalize hA : calendarAdjust R cal .extended false junk (hours u.y u.m u.d u.h) (hours t.y t.m t.d t.h) = A at *
  rw [adj]
  split
  · have : A = 0 := by
      rw [← hA]; subst_vars; rfl
    rw [this]; simp
  · refine fl_int R n ?_ _ ?_
    · have m1 := cal.slack_mono (y := t.y) (m := t.m) (d := t.d) (y' := u.y) (m' := u.m) (d' := u.d) ct cu (by omega) (by omega)
      have m2 := cal.slack_mono (y := u.y) (m := u.m) (d := u.d) (y' := t.y) (m' := t.m) (d' := t.d) cu ct (by omega) (by omega)
      have a := jd_ge0 (y := t.y) (m := t.m) (d := t.d) vt.1 (by omega)
      have b := jd_lt10k (y := t.y) (m := t.m) (d := t.d) vt.1 (by omega) (by omega)
      have a' := jd_ge0 (y := u.y) (m := u.m) (d := u.d) vu.1 (by omega)
      have b' := jd_lt10k (y := u.y) (m := u.m) (d := u.d) vu.1 (by omega) (by omega)
      have v2 := vt.2
      have w2 := vu.2
      unfold Moment.day at hn
      rw [abs_le]
      generalize cal.number ⟨t.y, t.m, t.d⟩ = A at *
      generalize cal.number ⟨u.y, u.m, u.d⟩ = B at *
      by_cases c : A ≤ B
      · have := m1 c; constructor <;> omega
      · have := m2 (by omega); constructor <;> omega
    · push_cast; ring

end Verif.Date
