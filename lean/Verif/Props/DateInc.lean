import Verif.DateMain
/-!
# Properties of hour arithmetic on date stamps (C32, C33)

The moment `n` hours after another one is described by counting days of the calendar one at a time
(`Calendar.next`); no formula of the library occurs in it.
-/
namespace Verif.Date

/-- `u` is `n` hours after `t` in the calendar (before it, if `n` is negative). -/
def HoursLater (cal : Calendar) (t u : Moment) (n : Int) : Prop :=
  u.mi = t.mi ∧ u.s = t.s ∧ ∃ k : Nat,
    (n = 24 * k + (u.h - t.h) ∧ u.day = cal.next^[k] t.day) ∨ (n = -24 * k + (u.h - t.h) ∧ t.day = cal.next^[k] u.day)

/-- A moment of the calendar, on the hour. -/
def OnHour (cal : Calendar) (t : Moment) : Prop := t.Valid ∧ cal.Has t.day ∧ t.mi = 0 ∧ t.s = 0

instance (cal : Calendar) (t : Moment) : Decidable (OnHour cal t) := by unfold OnHour; infer_instance

theorem Calendar.next_y (c : Calendar) (t : Day) (h : c.Has t) : t.y ≤ (c.next t).y := by
  obtain ⟨y, m, d⟩ := t
  rw [c.next_eq y m d h]
  split
  · exact Int.le_refl _
  · split
    · exact Int.le_refl _
    · simp only; omega

theorem Calendar.iterate (c : Calendar) (t : Day) (h : c.Has t) (hy : -4800 < t.y) (k : Nat) :
    c.Has (c.next^[k] t) ∧ c.number (c.next^[k] t) = c.number t + k ∧ -4800 < (c.next^[k] t).y := by
  induction k with
  | zero => simp only [Function.iterate_zero, id]; exact ⟨h, by simp, hy⟩
  | succ k ih =>
    obtain ⟨a, b, e⟩ := ih
    have n := c.number_next _ a e
    have y := c.next_y _ a
    rw [Function.iterate_succ_apply']
    refine ⟨n.1, ?_, by omega⟩
    rw [n.2, b]; push_cast; omega

theorem Calendar.previous (c : Calendar) (t : Day) (h : c.Has t) : ∃ s, c.Has s ∧ c.next s = t ∧ t.y - 1 ≤ s.y := by
  obtain ⟨y, m, d⟩ := t
  have hi := (c.has_iff y m d).1 h
  by_cases c1 : 1 < d
  · have hs : c.Has ⟨y, m, d - 1⟩ := (c.has_iff _ _ _).2 ⟨hi.1, hi.2.1, by omega, by omega⟩
    refine ⟨⟨y, m, d - 1⟩, hs, ?_, by simp only; omega⟩
    rw [c.next_eq _ _ _ hs, if_pos (by omega)]
    rw [Int.sub_add_cancel]
  · have d1 : d = 1 := by omega
    subst d1
    by_cases c2 : 1 < m
    · have k := c.kept_len y (m - 1) ⟨by omega, by omega⟩
      have hs : c.Has ⟨y, m - 1, c.kept y (m - 1)⟩ := (c.has_iff _ _ _).2 ⟨by omega, by omega, k.2.2, Int.le_refl _⟩
      refine ⟨_, hs, ?_, by simp only; omega⟩
      rw [c.next_eq _ _ _ hs, if_neg (by omega), if_pos (by omega), Int.sub_add_cancel]
    · have m1 : m = 1 := by omega
      subst m1
      have k := c.kept_len (y - 1) 12 ⟨by omega, by omega⟩
      have hs : c.Has ⟨y - 1, 12, c.kept (y - 1) 12⟩ := (c.has_iff _ _ _).2 ⟨by omega, by omega, k.2.2, Int.le_refl _⟩
      refine ⟨_, hs, ?_, by simp only; omega⟩
      rw [c.next_eq _ _ _ hs, if_neg (by omega), if_neg (by omega), Int.sub_add_cancel]

theorem HoursLater.number {cal : Calendar} {t u : Moment} {n : Int} (h : HoursLater cal t u n)
    (ct : cal.Has t.day) (cu : cal.Has u.day) (ht : 0 ≤ t.y) (hu : 0 ≤ u.y) :
    cal.number u.day * 24 + u.h = cal.number t.day * 24 + t.h + n ∧
    cal.number u.day * 17280 + u.tod = cal.number t.day * 17280 + t.tod + n * 720 := by
  obtain ⟨h1, h2, k, h | h⟩ := h
  · have := (cal.iterate t.day ct (by show -4800 < t.y; omega) k).2.1
    rw [← h.2] at this
    unfold Moment.tod
    rw [h1, h2]
    omega
  · have := (cal.iterate u.day cu (by show -4800 < u.y; omega) k).2.1
    rw [← h.2] at this
    unfold Moment.tod
    rw [h1, h2]
    omega

/-- Every number of hours leads somewhere: exactly one moment is `n` hours after `t`, as long as years
stay above -4000. -/
theorem hoursLater_exists (cal : Calendar) (t : Moment) (n : Int) (vt : t.Valid) (ct : cal.Has t.day) :
    ∃ u : Moment, HoursLater cal t u n ∧ cal.Has u.day ∧ u.Valid := by
  have v := vt.2
  have back : ∀ k : Nat, ∃ s : Day, cal.Has s ∧ cal.next^[k] s = t.day := by
    intro k
    induction k with
    | zero => exact ⟨t.day, ct, rfl⟩
    | succ k ih =>
      obtain ⟨s, hs, e⟩ := ih
      obtain ⟨r, hr, e2, -⟩ := cal.previous s hs
      exact ⟨r, hr, by rw [Function.iterate_succ_apply, e2, e]⟩
  have fwd : ∀ k : Nat, cal.Has (cal.next^[k] t.day) := by
    intro k
    induction k with
    | zero => exact ct
    | succ k ih =>
      rw [Function.iterate_succ_apply']
      have hh := ih
      generalize cal.next^[k] t.day = s at *
      obtain ⟨y, m, d⟩ := s
      have hi := (cal.has_iff y m d).1 hh
      rw [cal.next_eq y m d hh]
      split
      · exact (cal.has_iff _ _ _).2 ⟨hi.1, hi.2.1, by omega, by omega⟩
      · split
        · exact (cal.has_iff _ _ _).2 ⟨by omega, by omega, by omega, (cal.kept_len _ _ ⟨by omega, by omega⟩).2.2⟩
        · exact (cal.has_iff _ _ _).2 ⟨by omega, by omega, by omega, (cal.kept_len _ _ ⟨by omega, by omega⟩).2.2⟩
  by_cases c : 0 ≤ (t.h + n) / 24
  · refine ⟨⟨(cal.next^[((t.h + n) / 24).toNat] t.day).y, (cal.next^[((t.h + n) / 24).toNat] t.day).m,
      (cal.next^[((t.h + n) / 24).toNat] t.day).d, (t.h + n) % 24, t.mi, t.s⟩,
      ⟨rfl, rfl, ((t.h + n) / 24).toNat, Or.inl ⟨by simp only; omega, rfl⟩⟩, fwd _,
      cal.has_exists (fwd _), by simp only; omega⟩
  · obtain ⟨s, hs, e⟩ := back (-((t.h + n) / 24)).toNat
    refine ⟨⟨s.y, s.m, s.d, (t.h + n) % 24, t.mi, t.s⟩,
      ⟨rfl, rfl, (-((t.h + n) / 24)).toNat, Or.inr ⟨by simp only; omega, e.symm⟩⟩, hs,
      cal.has_exists hs, by simp only; omega⟩

/-! ## C32 -/

/-- The cases in which the library goes wrong: subtracting hours from 28 February 23h of a leap year in the
365-day calendar, when it works in hours; and, starting from a basic stamp in the 360-day calendar,
1901-01-01 01h as a result, and a result outside the years 1900 to 2235 although the Gregorian sum is inside. -/
def Trouble (cal : Calendar) (st : Int) (t u : Moment) (n : Int) : Prop :=
  (cal = .noLeap ∧ n < 0 ∧ Leap t.y ∧ t.m = 2 ∧ t.d = 28 ∧ t.h = 23 ∧ (st < -1 ∨ u.y < 1900 ∨ 2235 < u.y)) ∨
  (cal = .days360 ∧ -1 ≤ st ∧ ((u.y = 1901 ∧ u.m = 1 ∧ u.d = 1 ∧ u.h = 1) ∨
    ((u.y < 1900 ∨ 2235 < u.y) ∧ td1900 ≤ t.td + n * 720 ∧ t.td + n * 720 ≤ td2235)))

/-- Adding `n` hours to a stamp of `t` gives a stamp of the moment `n` hours after `t` in the calendar chosen:
from any stamp, old, new or extended, to any moment of the years 0 to 9999. -/
theorem C32_incdat (R : Rounding 53) (cal : Calendar) (junk : Int) (rounding : Bool) (st : Int) (t u : Moment) (n : Int)
    (sh : Shows st t) (ht : OnHour cal t) (hu : OnHour cal u) (y0 : 0 ≤ u.y) (y1 : u.y ≤ 9999)
    (later : HoursLater cal t u n) (ok : ¬ Trouble cal st t u n) :
    Shows (incdat R cal junk rounding st n) u := by
  obtain ⟨vt, ct, t0⟩ := ht
  obtain ⟨vu, cu, u0⟩ := hu
  have v := vt.2
  have w := vu.2
  unfold Trouble at ok
  by_cases hs : st < -1
  · obtain ⟨t1, -⟩ := shows_ext hs sh vt
    obtain ⟨hn, hn'⟩ := later.number ct cu t1 y0
    exact incdat_ext R cal junk rounding hs sh vt vu ct cu ⟨y0, by omega⟩ u0
      (fun a b c d => ok (Or.inl ⟨a, b, c, d.1, d.2.1, d.2.2, Or.inl hs⟩)) hn
  · obtain ⟨t1, -⟩ := shows_basic (by omega) sh vt
    obtain ⟨hn, hn'⟩ := later.number ct cu (by omega) y0
    by_cases hin : 1900 ≤ u.y ∧ u.y ≤ 2235
    · refine incdat_basic R cal junk rounding (by omega) sh vt vu ct cu hin (by omega) (fun _ => t0) (Or.inl t0)
        (u.td_high vu y0 hin.2 u0) ?_ ?_ hn'
      · intro _ _ _ d
        have := d.2.2
        unfold Moment.tod at this
        omega
      · intro a b
        have := b.2.2.2
        unfold Moment.tod at this
        exact ok (Or.inr ⟨a, by omega, Or.inl ⟨b.1, b.2.1, b.2.2.1, by omega⟩⟩)
    · exact incdat_out R cal junk rounding (by omega) sh vt vu ct cu ⟨y0, by omega⟩ (by omega) t0 u0
        (fun a b c d => ok (Or.inl ⟨a, b, c, d.1, d.2.1, d.2.2, by omega⟩))
        (fun a b => ok (Or.inr ⟨a, by omega, Or.inr ⟨by omega, b.1, b.2⟩⟩)) hn

/-- The case in which the difference is wrong: from 28 February 23h of a leap year back, in the 365-day
calendar, when one of the two stamps is extended. -/
def TroubleDiff (cal : Calendar) (st su : Int) (t : Moment) (n : Int) : Prop :=
  cal = .noLeap ∧ n < 0 ∧ Leap t.y ∧ t.m = 2 ∧ t.d = 28 ∧ t.h = 23 ∧ (st < -1 ∨ su < -1)

/-- The difference of a stamp of `u` and a stamp of `t` is the number of hours from `t` to `u` in the calendar. -/
theorem C32_difdat (R : Rounding 53) (S : Rounding 24) (cal : Calendar) (junk : Int) (rounding : Bool) (st su : Int)
    (t u : Moment) (n : Int) (sh : Shows st t) (shu : Shows su u) (ht : OnHour cal t) (hu : OnHour cal u)
    (later : HoursLater cal t u n) (ok : ¬ TroubleDiff cal st su t n) :
    difdat R S cal junk rounding su st = n := by
  obtain ⟨vt, ct, t0⟩ := ht
  obtain ⟨vu, cu, u0⟩ := hu
  have y : ∀ {st t}, Shows st t → t.Valid → 0 ≤ t.y := by
    intro st t sh v
    by_cases hs : st < -1
    · exact (shows_ext hs sh v).1
    · have := (shows_basic (by omega) sh v).1; omega
  obtain ⟨hn, hn'⟩ := later.number ct cu (y sh vt) (y shu vu)
  have v := vt.2
  by_cases hs : st < -1 ∨ su < -1
  · exact difdat_ext R S cal junk rounding hs sh shu vt vu ct cu
      (fun a b c d => ok ⟨a, b, c, d.1, d.2.1, d.2.2, hs⟩) hn
  · refine difdat_basic R S cal junk rounding (by omega) sh (by omega) shu vt vu ct cu (fun _ => t0) ?_ hn'
    intro _ _ _ d
    have := d.2.2
    unfold Moment.tod at this
    omega

theorem Calendar.number_inj (c : Calendar) {a b : Day} (ha : c.Has a) (hb : c.Has b) (ya : 0 ≤ a.y) (yb : 0 ≤ b.y)
    (h : c.number a = c.number b) : a = b := by
  obtain ⟨y, m, d⟩ := a
  obtain ⟨y', m', d'⟩ := b
  have s1 := c.slack_mono ha hb ya yb (by omega)
  have s2 := c.slack_mono hb ha yb ya (by omega)
  have e : jd y m d = jd y' m' d' := by omega
  have d1 := datec_jd y m d (c.has_exists ha) (by simp only at ya; omega)
  have d2 := datec_jd y' m' d' (c.has_exists hb) (by simp only at yb; omega)
  rw [e, d2] at d1
  simp only [Prod.mk.injEq] at d1
  rw [d1.1, d1.2.1, d1.2.2]

theorem Calendar.reach (c : Calendar) {a b : Day} (ha : c.Has a) (hb : c.Has b) (ya : 0 ≤ a.y) (yb : 0 ≤ b.y)
    (h : c.number a ≤ c.number b) : b = c.next^[(c.number b - c.number a).toNat] a := by
  have up : ∀ k, c.Has (c.next^[k] a) ∧ a.y ≤ (c.next^[k] a).y := by
    intro k
    induction k with
    | zero => exact ⟨ha, Int.le_refl _⟩
    | succ k ih =>
      rw [Function.iterate_succ_apply']
      exact ⟨(c.number_next _ ih.1 (by omega)).1, Int.le_trans ih.2 (c.next_y _ ih.1)⟩
  have n := (c.iterate a ha (by omega) (c.number b - c.number a).toNat).2.1
  have u := up (c.number b - c.number a).toNat
  exact c.number_inj hb u.1 yb (by omega) (by omega)

/-- Any two moments on the hour are some number of hours apart. -/
theorem hoursLater_between (cal : Calendar) (t u : Moment) (ht : OnHour cal t) (hu : OnHour cal u) (yt : 0 ≤ t.y)
    (yu : 0 ≤ u.y) : ∃ n, HoursLater cal t u n := by
  obtain ⟨vt, ct, t0⟩ := ht
  obtain ⟨vu, cu, u0⟩ := hu
  by_cases c : cal.number t.day ≤ cal.number u.day
  · exact ⟨_, by omega, by omega, (cal.number u.day - cal.number t.day).toNat, Or.inl ⟨rfl, cal.reach ct cu yt yu c⟩⟩
  · exact ⟨_, by omega, by omega, (cal.number t.day - cal.number u.day).toNat,
      Or.inr ⟨rfl, cal.reach cu ct yu yt (by omega)⟩⟩

theorem Shows.year {st : Int} {t : Moment} (sh : Shows st t) (v : t.Valid) : 0 ≤ t.y ∧ t.y ≤ 9999 := by
  by_cases hs : st < -1
  · have := shows_ext hs sh v; omega
  · have := shows_basic (by omega) sh v; omega

/-- 28 February 23h of a leap year. -/
def LastOfFeb (t : Moment) : Prop := Leap t.y ∧ t.m = 2 ∧ t.d = 28 ∧ t.h = 23

/-- Adding hours and subtracting the stamps: for any stamp on the hour and any number of hours there is a moment
so many hours away in the calendar; if its year is one of 0 to 9999 (and the case is none of those in
`Trouble`) the sum is a stamp of it and the difference is the number of hours added. -/
theorem C32_add_subtract_partial (R : Rounding 53) (S : Rounding 24) (cal : Calendar) (junk junk' : Int) (rounding rounding' : Bool)
    (st : Int) (t : Moment) (n : Int) (sh : Shows st t) (ht : OnHour cal t)
    (feb : cal = .noLeap → n < 0 → ¬ LastOfFeb t) :
    ∃ u, HoursLater cal t u n ∧ OnHour cal u ∧ (0 ≤ u.y → u.y ≤ 9999 → ¬ Trouble cal st t u n →
      Shows (incdat R cal junk rounding st n) u ∧
      difdat R S cal junk' rounding' (incdat R cal junk rounding st n) st = n) := by
  obtain ⟨u, later, cu, vu⟩ := hoursLater_exists cal t n ht.1 ht.2.1
  have ou : OnHour cal u := ⟨vu, cu, by rw [later.1]; exact ht.2.2.1, by rw [later.2.1]; exact ht.2.2.2⟩
  refine ⟨u, later, ou, fun y0 y1 ok => ?_⟩
  have shu := C32_incdat R cal junk rounding st t u n sh ht ou y0 y1 later ok
  refine ⟨shu, C32_difdat R S cal junk' rounding' st _ t u n sh shu ht ou later ?_⟩
  rintro ⟨a, b, c, d, e, f, -⟩
  exact feb a b ⟨c, d, e, f⟩

/-- Subtracting the stamps and adding the hours: the result is a stamp of the first date. -/
theorem C32_subtract_add_partial (R : Rounding 53) (S : Rounding 24) (cal : Calendar) (junk junk' : Int) (rounding rounding' : Bool)
    (st su : Int) (t u : Moment) (sh : Shows st t) (shu : Shows su u) (ht : OnHour cal t) (hu : OnHour cal u)
    (feb : cal = .noLeap → ¬ LastOfFeb t)
    (h360 : cal = .days360 → -1 ≤ st → 1902 ≤ u.y ∧ u.y ≤ 2235) :
    Shows (incdat R cal junk rounding st (difdat R S cal junk' rounding' su st)) u := by
  have yt := sh.year ht.1
  have yu := shu.year hu.1
  obtain ⟨n, later⟩ := hoursLater_between cal t u ht hu yt.1 yu.1
  rw [C32_difdat R S cal junk' rounding' st su t u n sh shu ht hu later]
  · refine C32_incdat R cal junk rounding st t u n sh ht hu yu.1 yu.2 later ?_
    rintro (⟨a, b, c, d, e, f, -⟩ | ⟨a, b, h⟩)
    · exact feb a ⟨c, d, e, f⟩
    · have := h360 a b
      omega
  · rintro ⟨a, b, c, d, e, f, -⟩
    exact feb a ⟨c, d, e, f⟩

/-- Dates with minutes and seconds, which basic stamps hold from 1980 to 2235, with whole hours added: minutes and
seconds are kept. -/
theorem C32_incdat_minutes (R : Rounding 53) (cal : Calendar) (junk : Int) (st : Int) (t u : Moment) (n : Int)
    (hs : -1 ≤ st) (sh : Shows st t) (vt : t.Valid) (vu : u.Valid) (ct : cal.Has t.day) (cu : cal.Has u.day)
    (y0 : 1980 ≤ u.y) (y1 : u.y ≤ 2235) (hmax : u.td ≤ td2235) (later : HoursLater cal t u n)
    (feb : cal = .noLeap → n < 0 → ¬ (Leap t.y ∧ t.m = 2 ∧ t.d = 28 ∧ t.tod = 17279)) :
    Shows (incdat R cal junk false st n) u := by
  obtain ⟨t1, t2, t3, t5, -⟩ := shows_basic hs sh vt
  obtain ⟨hn, hn'⟩ := later.number ct cu (by omega) (by omega)
  exact incdat_basic R cal junk false hs sh vt vu ct cu ⟨by omega, y1⟩ (by rw [later.2.1]; exact t5) (by simp)
    (Or.inr y0) hmax (fun a b c d => feb a b ⟨c, d⟩) (fun _ h => by omega) hn'

theorem C32_difdat_minutes (R : Rounding 53) (S : Rounding 24) (cal : Calendar) (junk : Int) (st su : Int) (t u : Moment)
    (n : Int) (hs : -1 ≤ st) (sh : Shows st t) (hsu : -1 ≤ su) (shu : Shows su u) (vt : t.Valid) (vu : u.Valid)
    (ct : cal.Has t.day) (cu : cal.Has u.day) (later : HoursLater cal t u n)
    (feb : cal = .noLeap → n < 0 → ¬ (Leap t.y ∧ t.m = 2 ∧ t.d = 28 ∧ t.tod = 17279)) :
    difdat R S cal junk false su st = n := by
  obtain ⟨hn, hn'⟩ := later.number ct cu (sh.year vt).1 (shu.year vu).1
  exact difdat_basic R S cal junk false hs sh hsu shu vt vu ct cu (by simp) (fun a b c d => feb a b ⟨c, d⟩) hn'

/-- Fractions of hours, Gregorian calendar: for any two basic stamps of the years 1980 to 2235, whatever their
minutes and seconds, adding the (rounded, double precision) difference in hours gives the first date exactly. -/
theorem C32_real (R : Rounding 53) (S : Rounding 24) (junk junk' : Int) (st su : Int) (t u : Moment)
    (hs : -1 ≤ st) (sh : Shows st t) (hsu : -1 ≤ su) (shu : Shows su u) (vt : t.Valid) (vu : u.Valid)
    (yt : 1980 ≤ t.y) (yu : 1980 ≤ u.y) (hmax : u.td ≤ td2235) :
    Shows (incdat R .gregorian junk false st (difdat R S .gregorian junk' false su st)) u := by
  obtain ⟨t1, t2, t3, t5, run, e, hrun⟩ := shows_basic hs sh vt
  obtain ⟨u1, u2, u3, u5, runu, eu, -⟩ := shows_basic hsu shu vu
  have lt := t.td_1980 vt yt
  have lu := u.td_1980 vu yu
  have ht := t.td_high' vt (by omega) t2
  have e1 : difdat R S .gregorian junk' false su st = R.fl (((u.td - t.td : Int) : ℚ) / 720) := by
    unfold difdat
    rw [if_neg (by omega), e, eu]
    simp
  rw [e1]
  unfold incdat
  rw [if_neg (by omega), e]
  have nd : ¬ t.td < 0 := by omega
  simp only [Bool.false_or, nd, decide_false, Bool.false_eq_true, if_false]
  rw [fl_back R _ (by rw [abs_le]; simp only [td2235] at *; constructor <;> omega)]
  simp only [calendarAdjust, Int.zero_mul, Int.add_zero]
  have e2 : t.td + (u.td - t.td) = u.td := by omega
  rw [e2, if_pos (by simp only [td1900, td2235] at *; omega)]
  exact shows_td vu (by omega) (by omega) (by omega) u5 hrun

/-- Exact arithmetic is one of the roundings covered. -/
def exactly (p : Nat) : Rounding p := ⟨id, fun _ _ => rfl, fun x => by simp; positivity⟩

/-- A day later in each calendar, from 28 February 2000 (stamp 282260600). -/
example : Shows 282260600 ⟨2000, 2, 28, 22, 0, 0⟩ ∧ OnHour .noLeap ⟨2000, 2, 28, 22, 0, 0⟩ ∧
    OnHour .days360 ⟨2000, 2, 28, 22, 0, 0⟩ ∧
    HoursLater .gregorian ⟨2000, 2, 28, 22, 0, 0⟩ ⟨2000, 2, 29, 23, 0, 0⟩ 25 ∧
    HoursLater .noLeap ⟨2000, 2, 28, 22, 0, 0⟩ ⟨2000, 3, 1, 23, 0, 0⟩ 25 ∧
    ¬ Trouble .noLeap 282260600 ⟨2000, 2, 28, 22, 0, 0⟩ ⟨2000, 3, 1, 23, 0, 0⟩ 25 ∧
    HoursLater .days360 ⟨2000, 5, 30, 22, 0, 0⟩ ⟨2000, 6, 1, 21, 0, 0⟩ 23 ∧
    HoursLater .days360 ⟨2000, 6, 1, 21, 0, 0⟩ ⟨2000, 5, 30, 22, 0, 0⟩ (-23) ∧
    Shows (incdat (exactly 53) .noLeap 7 true 282260600 25) ⟨2000, 3, 1, 23, 0, 0⟩ ∧
    Shows (incdat (exactly 53) .gregorian 7 true 282260600 25) ⟨2000, 2, 29, 23, 0, 0⟩ := by
  refine ⟨by decide +kernel, by decide, by decide, ⟨rfl, rfl, 1, Or.inl ⟨by decide, by decide⟩⟩,
    ⟨rfl, rfl, 1, Or.inl ⟨by decide, by decide⟩⟩, ?_, ⟨rfl, rfl, 1, Or.inl ⟨by decide, by decide⟩⟩,
    ⟨rfl, rfl, 1, Or.inr ⟨by decide, by decide⟩⟩, by decide +kernel, by decide +kernel⟩
  rintro (⟨-, h, -⟩ | ⟨h, -⟩)
  · omega
  · exact absurd h (by decide)

/-- Out of the years of basic stamps and back. -/
example : Shows (incdat (exactly 53) .noLeap 7 true 282260600 (8760 * 300)) ⟨2300, 2, 28, 22, 0, 0⟩ ∧
    difdat (exactly 53) (exactly 24) .noLeap 7 true (incdat (exactly 53) .noLeap 7 true 282260600 (8760 * 300)) 282260600 =
      8760 * 300 := by decide +kernel

/-- What is excluded does go wrong.  365-day calendar, extended stamps: 28 days before 1600-02-28 23h the library
finds 1600-01-30 23h instead of 1600-01-31 23h. -/
theorem C32_backward_witness :
    ∃ st, Shows st ⟨1600, 2, 28, 23, 0, 0⟩ ∧ HoursLater .noLeap ⟨1600, 2, 28, 23, 0, 0⟩ ⟨1600, 1, 31, 23, 0, 0⟩ (-672) ∧
      Shows (incdat (exactly 53) .noLeap 0 true st (-672)) ⟨1600, 1, 30, 23, 0, 0⟩ :=
  ⟨-1277433889, by decide +kernel, ⟨rfl, rfl, 28, Or.inr ⟨by decide, by decide +kernel⟩⟩, by decide +kernel⟩

/-- 360-day calendar, basic stamps: a day before 1901-01-02 01h the library finds a date in 1982. -/
theorem C32_exception_witness :
    ∃ st, Shows st ⟨1901, 1, 2, 1, 0, 0⟩ ∧ HoursLater .days360 ⟨1901, 1, 2, 1, 0, 0⟩ ⟨1901, 1, 1, 1, 0, 0⟩ (-24) ∧
      Shows (incdat (exactly 53) .days360 0 true st (-24)) ⟨1982, 8, 22, 1, 0, 0⟩ :=
  ⟨10201010, by decide +kernel, ⟨rfl, rfl, 1, Or.inr ⟨by decide, by decide⟩⟩, by decide +kernel⟩

/-- 360-day calendar, basic stamps: 236 years after 2000-01-02 01h the result depends on the contents of an uninitialised
variable (`tdateL`); the right answer is 2236-01-02 01h. -/
theorem C32_uninitialised_witness :
    ∃ st, Shows st ⟨2000, 1, 2, 1, 0, 0⟩ ∧
      Shows (incdat (exactly 53) .days360 0 true st (8640 * 236)) ⟨1980, 1, 1, 1, 0, 0⟩ ∧
      Shows (incdat (exactly 53) .days360 1000000 true st (8640 * 236)) ⟨1980, 2, 28, 1, 0, 0⟩ :=
  ⟨281010500, by decide +kernel, by decide +kernel, by decide +kernel⟩

/-! ## C33 -/

/-- 365-day calendar: 29 February is never produced.  Whatever stamp on the hour one starts from and however many hours
one adds, the result (within the years 0 to 9999) is the stamp of a day that is not 29 February, and it is the
right number of days of the calendar away. -/
theorem C33_never_partial (R : Rounding 53) (junk : Int) (rounding : Bool) (st : Int) (t : Moment) (n : Int)
    (sh : Shows st t) (ht : OnHour .noLeap t) (feb : n < 0 → ¬ LastOfFeb t) :
    ∃ u, HoursLater .noLeap t u n ∧ u.Valid ∧ ¬ (u.m = 2 ∧ u.d = 29) ∧
      (0 ≤ u.y → u.y ≤ 9999 → Shows (incdat R .noLeap junk rounding st n) u) := by
  obtain ⟨u, later, cu, vu⟩ := hoursLater_exists .noLeap t n ht.1 ht.2.1
  have ou : OnHour .noLeap u := ⟨vu, cu, by rw [later.1]; exact ht.2.2.1, by rw [later.2.1]; exact ht.2.2.2⟩
  refine ⟨u, later, vu, cu.2, fun y0 y1 => C32_incdat R .noLeap junk rounding st t u n sh ht ou y0 y1 later ?_⟩
  rintro (⟨a, b, c, d, e, f, -⟩ | ⟨a, -⟩)
  · exact feb b ⟨c, d, e, f⟩
  · exact absurd a (by decide)

/-- Adding 365 days, any number of times, leads to the same day and hour of a later year; in the 360-day calendar so do
360 days. -/
theorem C33_years (R : Rounding 53) (junk : Int) (rounding : Bool) (st : Int) (t : Moment) (k : Nat)
    (sh : Shows st t) (ht : OnHour .noLeap t) (y1 : t.y + k ≤ 9999) :
    Shows (incdat R .noLeap junk rounding st (8760 * k : Int)) { t with y := t.y + k } := by
  obtain ⟨y, m, d, h, mi, s⟩ := t
  obtain ⟨⟨vt, vr⟩, ct, t0⟩ := ht
  have yy := sh.year ⟨vt, vr⟩
  simp only [Moment.day] at *
  have cu : Calendar.Has .noLeap ⟨y + k, m, d⟩ := by
    rw [Calendar.has_iff] at ct ⊢
    refine ⟨ct.1, ct.2.1, ct.2.2.1, ?_⟩
    have e := ct.2.2.2
    simp only [Calendar.kept] at e ⊢
    by_cases c : m = 2
    · rw [if_pos c] at e ⊢; exact e
    · rw [if_neg c] at e ⊢
      rw [monthLen_at _ _ ⟨ct.1, ct.2.1⟩ c] at e ⊢; exact e
  have vu : (⟨y + k, m, d, h, mi, s⟩ : Moment).Valid := ⟨cu.1, vr⟩
  have num : Calendar.number .noLeap ⟨y + k, m, d⟩ = Calendar.number .noLeap ⟨y, m, d⟩ + 365 * k := by
    simp only [Calendar.number, number365]; omega
  have later : HoursLater .noLeap ⟨y, m, d, h, mi, s⟩ ⟨y + k, m, d, h, mi, s⟩ (8760 * k : Int) := by
    refine ⟨rfl, rfl, 365 * k, Or.inl ⟨by simp only; push_cast; omega, ?_⟩⟩
    have r := Calendar.reach .noLeap (a := ⟨y, m, d⟩) (b := ⟨y + k, m, d⟩) ct cu (by simp only; omega) (by simp only; omega)
      (by rw [num]; omega)
    rw [num] at r
    have e : (Calendar.number .noLeap ⟨y, m, d⟩ + 365 * (k : Int) - Calendar.number .noLeap ⟨y, m, d⟩).toNat = 365 * k := by omega
    rw [e] at r
    exact r
  refine C32_incdat R .noLeap junk rounding st _ _ _ sh ⟨⟨vt, vr⟩, ct, t0⟩ ⟨vu, cu, t0⟩ (by simp only; omega) y1 later ?_
  rintro (⟨-, b, -⟩ | ⟨a, -⟩)
  · omega
  · exact absurd a (by decide)

example : OnHour .noLeap ⟨2003, 3, 1, 6, 0, 0⟩ ∧ Shows 305941400 ⟨2003, 3, 1, 6, 0, 0⟩ ∧ ¬ LastOfFeb ⟨2003, 3, 1, 6, 0, 0⟩ ∧
    Shows (incdat (exactly 53) .noLeap 7 false 305941400 8760) ⟨2004, 3, 1, 6, 0, 0⟩ := by
  refine ⟨by decide, by decide +kernel, fun h => absurd h.2.1 (by decide), by decide +kernel⟩

end Verif.Date
