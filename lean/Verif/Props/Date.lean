import Verif.DateModes
/-!
# Properties of dates and date stamps (C29, C30, C31, C54)
-/
namespace Verif.Date

/-! ## C29: days and day numbers -/

/-- Every day of the years 0 to 9999 comes back from its Julian day number. -/
theorem C29_date_back (t : Day) (ht : t.Exists) (h0 : 0 ≤ t.y) (_h1 : t.y ≤ 9999) :
    datec (jd t.y t.m t.d) = (t.y, t.m, t.d) :=
  datec_jd t.y t.m t.d ht (by omega)

/-- Every day number from that of the first of January of year 0 to that of the last of December
9999 is the number of an existing day of these years, and `datec` finds that day. -/
theorem C29_number_back (j : Int) (h0 : 1721060 ≤ j) (h1 : j < 5373485) :
    ∃ t : Day, t.Exists ∧ 0 ≤ t.y ∧ t.y ≤ 9999 ∧ datec j = (t.y, t.m, t.d) ∧ jd t.y t.m t.d = j := by
  obtain ⟨y, m, d, z, he, hy, hz, e⟩ := hours_exists ((j - 1721060) * 24) (by omega) (by omega)
  have : jd y m d = j := by
    unfold hours at e; simp only [jd0] at e; omega
  exact ⟨⟨y, m, d⟩, he, hy.1, by simp only; omega, by rw [← this]; exact datec_jd y m d he (by omega), this⟩

/-- The day after a day has the next number; the first day has number 1721060. -/
theorem C29_consecutive :
    jd 0 1 1 = 1721060 ∧ ∀ t : Day, t.Exists → 0 ≤ t.y → t.next.jd = t.jd + 1 :=
  ⟨by decide, fun t h h0 => jd_next t h (by omega)⟩

example : (⟨2000, 2, 28⟩ : Day).Exists ∧ (⟨2000, 2, 28⟩ : Day).next = ⟨2000, 2, 29⟩ ∧
    (⟨1900, 2, 28⟩ : Day).next = ⟨1900, 3, 1⟩ ∧ datec (jd 2000 2 29) = (2000, 2, 29) := by decide

/-- The intermediate results of `jd` (src/base/jdatec.f:58-60), in the order of evaluation; the
last one is the result. -/
def jdSteps (year month day : Int) : List Int :=
  let a := (month - 14) ÷ 12
  let b := year + 4800 + a
  let c := 1461 * b
  let e := month - 2 - a * 12
  let f := 367 * e
  let g := year + 4900 + a
  let h := 3 * (g ÷ 100)
  [month - 14, a, b, c, c ÷ 4, e, f, f ÷ 12, g, g ÷ 100, h, h ÷ 4, day - 32075, day - 32075 + c ÷ 4,
    day - 32075 + c ÷ 4 + f ÷ 12, day - 32075 + c ÷ 4 + f ÷ 12 - h ÷ 4]

/-- The intermediate results of `datec` (src/base/datec.f:58-67). -/
def datecSteps (JD : Int) : List Int :=
  let L := JD + 68569
  let N := (4 * L) ÷ 146097
  let L1 := L - (146097 * N + 3) ÷ 4
  let I := (4000 * (L1 + 1)) ÷ 1461001
  let L2 := L1 - (1461 * I) ÷ 4 + 31
  let J := (80 * L2) ÷ 2447
  [L, 4 * L, N, 146097 * N, 146097 * N + 3, (146097 * N + 3) ÷ 4, L1, L1 + 1, 4000 * (L1 + 1), I, 1461 * I,
    (1461 * I) ÷ 4, L1 - (1461 * I) ÷ 4, L2, 80 * L2, J, 2447 * J, (2447 * J) ÷ 80]

/-- Nothing leaves 32 bits on the way, for all days of the years 0 to 9999. -/
theorem C29_no_overflow (t : Day) (ht : t.Exists) (h0 : 0 ≤ t.y) (h1 : t.y ≤ 9999) :
    (jdSteps t.y t.m t.d).getLast? = some (jd t.y t.m t.d) ∧
    (∀ x ∈ jdSteps t.y t.m t.d, -2 ^ 31 ≤ x ∧ x < 2 ^ 31) ∧
    ∀ x ∈ datecSteps (jd t.y t.m t.d), -2 ^ 31 ≤ x ∧ x < 2 ^ 31 := by
  obtain ⟨y, m, d⟩ := t
  have hb := exists_le31 ht
  simp only at *
  have hm : (m ≤ 2 ∧ (m - 14) ÷ 12 = -1) ∨ (2 < m ∧ (m - 14) ÷ 12 = 0) := by
    rcases (by omega : m = 1 ∨ m = 2 ∨ m = 3 ∨ m = 4 ∨ m = 5 ∨ m = 6 ∨ m = 7 ∨ m = 8 ∨ m = 9 ∨ m = 10 ∨ m = 11 ∨ m = 12)
      with rfl | rfl | rfl | rfl | rfl | rfl | rfl | rfl | rfl | rfl | rfl | rfl <;> decide
  refine ⟨rfl, ?_, ?_⟩
  · unfold jdSteps
    generalize hA : (m - 14) ÷ 12 = A at *
    have e1 := tdiv_pos (1461 * (y + 4800 + A)) 4 (by omega)
    have e2 := tdiv_pos (367 * (m - 2 - A * 12)) 12 (by omega)
    have e3 := tdiv_pos (y + 4900 + A) 100 (by omega)
    have e4 := tdiv_pos (3 * ((y + 4900 + A) / 100)) 4 (by omega)
    simp only [e1, e2, e3, e4]
    intro x hx
    simp only [List.mem_cons, List.not_mem_nil, or_false] at hx
    rcases hx with h | h | h | h | h | h | h | h | h | h | h | h | h | h | h | h <;> omega
  · have j0 := jd_ge0 ht h0
    have j1 := jd_lt10k ht (by omega) (by omega)
    generalize jd y m d = j at *
    unfold datecSteps
    have n0 := tdiv_pos (4 * (j + 68569)) 146097 (by omega)
    simp only [n0]
    generalize hN : 4 * (j + 68569) / 146097 = N
    have n1 := tdiv_pos (146097 * N + 3) 4 (by omega)
    simp only [n1]
    generalize hL1 : j + 68569 - (146097 * N + 3) / 4 = L1
    have b1 : 0 ≤ L1 ∧ L1 < 36525 := by omega
    have n2 := tdiv_pos (4000 * (L1 + 1)) 1461001 (by omega)
    simp only [n2]
    generalize hI : 4000 * (L1 + 1) / 1461001 = I
    have b2 : 0 ≤ I ∧ I ≤ 100 := by omega
    have n3 := tdiv_pos (1461 * I) 4 (by omega)
    simp only [n3]
    generalize hL2 : L1 - 1461 * I / 4 + 31 = L2
    have b3 : 0 ≤ L2 ∧ L2 < 1000 := by omega
    have n4 := tdiv_pos (80 * L2) 2447 (by omega)
    simp only [n4]
    have n5 := tdiv_pos (2447 * (80 * L2 / 2447)) 80 (by omega)
    simp only [n5]
    intro x hx
    simp only [List.mem_cons, List.not_mem_nil, or_false] at hx
    rcases hx with h | h | h | h | h | h | h | h | h | h | h | h | h | h | h | h | h | h <;> omega

/-! ## C30: stamps -/

theorem time_zero (h : Int) : h * 1000000 = h * 1000000 + 0 * 10000 + 0 * 100 := by omega

/-- What a stamp can hold of a moment: five seconds from 1980 on, the hour before. -/
def Moment.kept (t : Moment) : Moment := if 1980 ≤ t.y then t.five else t.hour

/-- Printable date and time to stamp and back (modes 3 and -3): every moment of the years 1900
to 2235 comes back, its seconds rounded down to a multiple of five from 1980 on and without minutes
and seconds before.  The stamp fits in 32 bits. -/
theorem C30_printable (t : Moment) (ht : t.Valid) (h0 : 1900 ≤ t.y) (h1 : t.y ≤ 2235) :
    ∃ stamp, printToStamp t.date t.time = some stamp ∧ -2 ^ 31 ≤ stamp ∧ stamp < 2 ^ 31 ∧
      stampToPrint stamp = some (t.kept.date, t.kept.time) := by
  obtain ⟨y, m, d, h, mi, s⟩ := t
  obtain ⟨he, a1, a2, a3, a4, a5, a6⟩ := ht
  simp only [Moment.day, Moment.date, Moment.time] at *
  by_cases hx : y = 1901 ∧ m = 1 ∧ d = 1 ∧ h = 1 ∧ mi = 0 ∧ s = 0
  · obtain ⟨rfl, rfl, rfl, rfl, rfl, rfl⟩ := hx
    exact ⟨-1274137515, by decide, by decide, by decide, by decide⟩
  · have hp := printToStamp_eq he ⟨h0, by omega⟩ ⟨a1, a2⟩ ⟨a3, a4⟩ ⟨a5, a6⟩ hx
    by_cases c : y ≥ 2000 ∨ (y ≥ 1980 ∧ mi * 60 + s ≠ 0)
    · rw [if_pos c] at hp
      have h80 : 1980 ≤ y := by omega
      have ht : 0 ≤ h * 720 + (mi * 60 + s) / 5 ∧ h * 720 + (mi * 60 + s) / 5 < 17280 := by omega
      have j0 := jd_ge1980 he h80
      have j1 := jd_lt2236 he (by omega) (by omega : y < 2236)
      have n0 : 0 ≤ (jd y m d - jd1980) * 17280 + (h * 720 + (mi * 60 + s) / 5) := by simp only [jd1980]; omega
      have n1 := newStamp_ge _ n0
      have n2 := stampOf_le _ n0
      refine ⟨_, hp, by simp only [tdstart] at n1; omega, ?_, ?_⟩
      · unfold newStamp; simp only [tdstart, jd1980] at *; omega
      · rw [stampToPrint_new he ⟨h80, by omega⟩ ht, Option.some.injEq, Prod.mk.injEq]
        simp only [Moment.kept, h80, if_true, Moment.five, true_and]
        omega
    · rw [if_neg c] at hp
      have r := oldStamp_range (run := 0) he ⟨h0, by omega⟩ ⟨a1, a2⟩ (by omega)
      have q := stampToPrint_old (run := 0) he ⟨h0, by omega⟩ ⟨a1, a2⟩ (by omega)
      rw [Int.add_zero] at r q
      refine ⟨_, hp, by omega, by simp only [tdstart] at r; omega, ?_⟩
      rw [q]
      unfold Moment.kept
      split
      · simp only [Moment.five, Option.some.injEq, Prod.mk.injEq]
        simp only at *
        have : mi * 60 + s = 0 := by omega
        refine ⟨trivial, ?_⟩
        omega
      · simp only [Moment.hour, Option.some.injEq, Prod.mk.injEq]
        refine ⟨trivial, ?_⟩
        omega

example : (⟨1985, 2, 28, 23, 59, 58⟩ : Moment).Valid ∧
    printToStamp 19850228 23595800 = some 163937597 ∧ stampToPrint 163937597 = some (19850228, 23595500) ∧
    printToStamp 19721231 18300000 = some 123172180 ∧ stampToPrint 123172180 = some (19721231, 18000000) ∧
    printToStamp 20240229 12345500 = some 471619323 ∧ stampToPrint 471619323 = some (20240229, 12345500) := by
  decide +kernel

/-- True date and run number to stamp and back (modes -1 and 1): every true date from 1900 to the
end of 2235 (whole hours before 1980) comes back; the run number comes back from old style stamps. -/
theorem C30_truedate (td run : Int) (h0 : -504904320 ≤ td) (h1 : td < 1615714560)
    (h80 : td < 0 → td % 720 = 0) (hr : 0 ≤ run) (hr9 : run ≤ 9) :
    ∃ stamp, tdToStamp td run = some stamp ∧ -2 ^ 31 ≤ stamp ∧ stamp < 2 ^ 31 ∧
      ∃ run', stampToTd stamp = some (td, run') ∧ (stamp < 123200000 → run' = run) := by
  obtain ⟨y, m, d, tod, he, hy, t0, t1, e⟩ := td_exists td h0
  have hc : y < 1980 → tod % 720 = 0 := by
    intro c
    have j := jd_lt1980 he (by omega) c
    have : td < 0 := by rw [e]; simp only [jd1980]; omega
    have := h80 this
    rw [e] at this; simp only [jd1980] at this; omega
  have hs := tdToStamp_eq (run := run) he hy ⟨t0, t1⟩ hc hr9
  rw [← e] at hs
  by_cases c : y ≥ 2000 ∨ tod % 720 ≠ 0
  · rw [if_pos c] at hs
    have hp : 0 ≤ td := by
      have j := jd_ge1980 he (by omega)
      rw [e]; simp only [jd1980]; omega
    have n1 := newStamp_ge _ hp
    have n2 := stampOf_le _ hp
    refine ⟨_, hs, by simp only [tdstart] at n1; omega, ?_, 0, stampToTd_new td hp, ?_⟩
    · unfold newStamp; simp only [tdstart]; omega
    · intro h; simp only [tdstart] at n1; omega
  · rw [if_neg c] at hs
    have r := oldStamp_range (run := run) he ⟨hy, by omega⟩ (by omega : 0 ≤ tod / 720 ∧ tod / 720 ≤ 23) ⟨hr, hr9⟩
    refine ⟨_, hs, by omega, by simp only [tdstart] at r; omega, run, ?_, fun _ => rfl⟩
    rw [stampToTd_old he ⟨hy, by omega⟩ (by omega) ⟨hr, hr9⟩]
    rw [Option.some.injEq, Prod.mk.injEq]
    refine ⟨?_, rfl⟩
    rw [e]; omega

example : tdToStamp (-720) 3 = some 123179233 ∧ stampToTd 123179233 = some (-720, 3) ∧
    tdToStamp 1615714559 0 = some 2142843197 ∧ stampToTd 2142843197 = some (1615714559, 0) := by decide +kernel

/-- Mode -1 refuses whatever mode 1 would not give back: an accepted true date is either in the
range of `C30_truedate` or after 2235. -/
theorem C30_truedate_accepted (td run stamp : Int) (h : tdToStamp td run = some stamp) :
    run ≤ 9 ∧ -504904320 ≤ td ∧ (td < 0 → td % 720 = 0) := by
  unfold tdToStamp at h
  by_cases c : run > 9 ∨ ¬ validtd td
  · rw [if_pos c] at h; exact absurd h (by simp)
  · have v : validtd td := Decidable.not_not.mp (fun x => c (Or.inr x))
    unfold validtd at v
    simp only [td1900] at v
    rcases v with v | ⟨v1, v2, v3⟩
    · omega
    · rw [tmod_pos _ _ (by omega)] at v3; omega

example : tdToStamp (-504904320) 9 = some 10100009 ∧ tdToStamp (-360) 0 = none ∧
    tdToStamp (-504904321) 0 = none := by decide +kernel

/-- Stamp to true date and back (modes 1 and -1), for the stamps `newdate` makes: old style stamps
of existing dates, and new style stamps from 2000 on or with a fraction of an hour. -/
theorem C30_stamp_back :
    (∀ y m d h run : Int, (⟨y, m, d⟩ : Day).Exists → 1900 ≤ y → y ≤ 1999 → 0 ≤ h → h ≤ 23 → 0 ≤ run →
      run ≤ 9 → ∃ td, stampToTd (m * 10000000 + d * 100000 + (y - 1900) * 1000 + h * 10 + run) =
        some (td, run) ∧ tdToStamp td run = some (m * 10000000 + d * 100000 + (y - 1900) * 1000 + h * 10 + run)) ∧
    (∀ q r : Int, 0 ≤ q → 0 ≤ r → r ≤ 7 → (q * 8 + r ≥ 126230400 ∨ (q * 8 + r) % 720 ≠ 0) →
      stampToTd (123200000 + q * 10 + r) = some (q * 8 + r, 0) ∧
        tdToStamp (q * 8 + r) 0 = some (123200000 + q * 10 + r)) := by
  refine ⟨?_, ?_⟩
  · intro y m d h run he y0 y1 h0 h1 r0 r1
    refine ⟨_, stampToTd_old he ⟨y0, by omega⟩ ⟨h0, h1⟩ ⟨r0, r1⟩, ?_⟩
    rw [tdToStamp_eq he y0 (by omega) (by omega) r1, if_neg (by omega)]
    have e : h * 720 / 720 = h := by omega
    rw [e]; rfl
  · intro q r q0 r0 r1 hc
    have e : newStamp (q * 8 + r) = 123200000 + q * 10 + r := by
      unfold newStamp stampOf
      rw [tdiv_pos _ _ (by omega), tmod_pos _ _ (by omega)]
      simp only [tdstart]; omega
    rw [← e]
    refine ⟨stampToTd_new _ (by omega), ?_⟩
    unfold tdToStamp
    rw [if_neg (fun h => h.elim (by omega) (fun h => h (validtd_pos _ (by omega)))),
      if_pos (by simp only [td2000]; rw [tmod_pos _ _ (by omega)]; exact hc)]
    rfl

/-- Printable to true date and back (modes 2 and -2), except the one moment of
`C30_mode2_witness`. -/
theorem C30_printable_truedate_partial (t : Moment) (ht : t.Valid) (h0 : 1900 ≤ t.y) (h1 : t.y ≤ 2235)
    (h80 : t.y < 1980 → t.mi = 0 ∧ t.s = 0) (hx : t ≠ ⟨1901, 1, 1, 1, 0, 0⟩) :
    ∃ td, printToTd t.date t.time = some td ∧ tdToPrint td = some (t.five.date, t.five.time) := by
  obtain ⟨y, m, d, h, mi, s⟩ := t
  obtain ⟨he, a1, a2, a3, a4, a5, a6⟩ := ht
  simp only [Moment.day, Moment.date, Moment.time] at *
  have hx2 : ¬ (y = 1901 ∧ m = 1 ∧ d = 1 ∧ h = 1 ∧ mi = 0 ∧ s = 0) := by
    rintro ⟨rfl, rfl, rfl, rfl, rfl, rfl⟩; exact hx rfl
  refine ⟨_, printToTd_eq he ⟨h0, by omega⟩ ⟨a1, a2⟩ ⟨a3, a4⟩ ⟨a5, a6⟩ hx2, ?_⟩
  have e : (jd y m d - jd1980) * 17280 + h * 720 + (mi * 60 + s) / 5 =
      (jd y m d - jd1980) * 17280 + (h * 720 + (mi * 60 + s) / 5) := by omega
  rw [e, tdToPrint_eq he h0 (by omega) (by intro c; have := h80 c; omega), Option.some.injEq, Prod.mk.injEq]
  simp only [Moment.five]
  refine ⟨trivial, ?_⟩
  omega

/-- Mode 2 answers in hours since year 0 instead of five second intervals since 1980 for
1901-01-01 01:00: the "true date" it gives is that of another moment altogether. -/
theorem C30_mode2_witness :
    (⟨1901, 1, 1, 1, 0, 0⟩ : Moment).Valid ∧ printToTd 19010101 01000000 = some 16663825 ∧
      tdToPrint 16663825 = some (19820822, 8120500) := by decide +kernel

/-- Printable to extended stamp and back (modes 5 and -5), printable to extended true date and back
(modes 7 and -7), extended true date to stamp and back (modes -6 and 6): every hour of the years 0 to
9999 comes back. -/
theorem C30_extended (t : Moment) (ht : t.Valid) (h0 : 0 ≤ t.y) (h1 : t.y ≤ 9999) :
    (∃ stamp, printToExtStamp t.date t.time = some stamp ∧ -2 ^ 31 ≤ stamp ∧ stamp < -1 ∧
      extStampToPrint stamp = some (t.hour.date, t.hour.time)) ∧
    (∃ e, printToExtTd t.date t.time = some e ∧ extTdToPrint e = some (t.hour.date, t.hour.time) ∧
      ∃ stamp, extTdToStamp e = some stamp ∧ stampToExtTd stamp = some (e, 0)) := by
  obtain ⟨y, m, d, h, mi, s⟩ := t
  obtain ⟨he, a1, a2, a3, a4, a5, a6⟩ := ht
  simp only [Moment.day, Moment.date, Moment.time, Moment.hour] at *
  have hy : 0 ≤ y ∧ y < 10000 := by omega
  obtain ⟨r1, r2⟩ := hours_range he hy ⟨a1, a2⟩
  have u := (extStamp_unsigned _ r1 r2).1
  have u2 := extStamp_eq _ r1 r2
  have u3 := stampOf_nonneg _ r1
  rw [← time_zero h]
  refine ⟨⟨_, printToExtStamp_eq he hy ⟨a1, a2⟩ ⟨a3, a4⟩ ⟨a5, a6⟩, ?_, u, extStampToPrint_eq he hy ⟨a1, a2⟩⟩,
    ⟨_, printToExtTd_eq he hy ⟨a1, a2⟩ ⟨a3, a4⟩ ⟨a5, a6⟩, extTdToPrint_eq he hy ⟨a1, a2⟩, ?_⟩⟩
  · rw [u2]; simp only [troisg]; omega
  · rw [extTdToStamp_eq he hy ⟨a1, a2⟩]
    split
    · exact ⟨_, rfl, stampToExtTd_ext _ r1 r2⟩
    · rename_i c
      split
      · refine ⟨_, rfl, ?_⟩
        rw [stampToExtTd_new he (by omega) (by omega)]
        have e2 : h * 720 / 720 = h := by omega
        rw [e2]
      · refine ⟨_, rfl, ?_⟩
        have := stampToExtTd_old (run := 0) he (by omega) ⟨a1, a2⟩ (by omega)
        rwa [Int.add_zero] at this

example : printToExtStamp 5000704 13000000 = some (-1289483101) ∧
    extStampToPrint (-1289483101) = some (5000704, 13000000) ∧ printToExtTd 99991231 23590000 = some 87658199 := by
  decide +kernel

/-! ## C31: different moments have different stamps, later ones larger -/

theorem date_inj (y m d y' m' d' : Int) (a : (⟨y, m, d⟩ : Day).Exists) (a' : (⟨y', m', d'⟩ : Day).Exists)
    (e : y * 10000 + m * 100 + d = y' * 10000 + m' * 100 + d') : y = y' ∧ m = m' ∧ d = d' := by
  have b := exists_le31 a
  have b' := exists_le31 a'
  omega

/-- Two moments with the same stamp agree in everything a stamp can hold. -/
theorem C31_injective (t u : Moment) (ht : t.Valid) (hu : u.Valid) (ht0 : 1900 ≤ t.y) (ht1 : t.y ≤ 2235)
    (hu0 : 1900 ≤ u.y) (hu1 : u.y ≤ 2235) (e : printToStamp t.date t.time = printToStamp u.date u.time) :
    t.kept = u.kept := by
  obtain ⟨st, a, _, _, b⟩ := C30_printable t ht ht0 ht1
  obtain ⟨st', a', _, _, b'⟩ := C30_printable u hu hu0 hu1
  rw [a, a', Option.some.injEq] at e
  rw [e, b', Option.some.injEq, Prod.mk.injEq] at b
  obtain ⟨y, m, d, h, mi, s⟩ := t
  obtain ⟨y', m', d', h', mi', s'⟩ := u
  obtain ⟨ta, tb, tc, td, te, tf, tg⟩ := ht
  obtain ⟨ua, ub, uc, ud, ue, uf, ug⟩ := hu
  simp only [Moment.day] at *
  obtain ⟨b1, b2⟩ := b
  have hk : ∀ v : Moment, v.kept.date = v.date := by
    intro v; unfold Moment.kept; split <;> rfl
  rw [hk, hk] at b1
  obtain ⟨rfl, rfl, rfl⟩ := date_inj _ _ _ _ _ _ ua ta b1
  unfold Moment.kept at b2 ⊢
  simp only at *
  by_cases c : 1980 ≤ y'
  · rw [if_pos c, if_pos c] at *
    simp only [Moment.five, Moment.time] at *
    rw [Moment.mk.injEq]
    omega
  · rw [if_neg c, if_neg c] at *
    simp only [Moment.hour, Moment.time] at *
    rw [Moment.mk.injEq]
    omega

/-- `t` is earlier than `u`, by comparing year, month, day, hour, minute and second in turn. -/
def Moment.Before (t u : Moment) : Prop :=
  t.y < u.y ∨ (t.y = u.y ∧ (t.m < u.m ∨ (t.m = u.m ∧ (t.d < u.d ∨ (t.d = u.d ∧ (t.h < u.h ∨ (t.h = u.h ∧
    (t.mi < u.mi ∨ (t.mi = u.mi ∧ t.s < u.s)))))))))

theorem jd_month_lt (y m d m' d' : Int) (h : (⟨y, m, d⟩ : Day).Exists) (h' : (⟨y, m', d'⟩ : Day).Exists)
    (hy : -4800 < y) (hlt : m < m' ∨ (m = m' ∧ d < d')) : jd y m d < jd y m' d' := by
  have a := exists_le31 h
  have b := exists_le31 h'
  have q := quad_step y
  have c := cent_step y
  rw [jd_eq y m d hy ⟨a.1, a.2.1⟩, jd_eq y m' d' hy ⟨b.1, b.2.1⟩]
  obtain ⟨_, _, _, h4⟩ := h
  simp only at h4
  have hl : m > 2 → d ≤ 367 * (m - 2 + 1) / 12 - 367 * (m - 2) / 12 := by
    intro c; revert h4; unfold monthLen; rw [if_neg (by omega)]
    rcases (by omega : m = 3 ∨ m = 4 ∨ m = 5 ∨ m = 6 ∨ m = 7 ∨ m = 8 ∨ m = 9 ∨ m = 10 ∨ m = 11 ∨ m = 12)
      with rfl | rfl | rfl | rfl | rfl | rfl | rfl | rfl | rfl | rfl <;> simp
  have hl2 : m = 2 → d ≤ if Leap y then 29 else 28 := by
    intro c; revert h4; unfold monthLen; rw [if_pos c]; exact id
  generalize 1461 * (y + 4800) / 4 = A at *
  generalize 1461 * (y + 4799) / 4 = B at *
  generalize 3 * ((y + 4900) / 100) / 4 = C at *
  generalize 3 * ((y + 4899) / 100) / 4 = D at *
  have hl3 : m = 2 → d ≤ 28 + (A - B - 365) - (C - D) := by
    intro c2
    have := hl2 c2
    rw [q, c]
    by_cases c4 : y % 4 = 0
    · rw [if_pos c4]
      by_cases c5 : y % 100 = 0 ∧ y % 400 ≠ 0
      · rw [if_pos c5]; rw [if_neg (by unfold Leap; omega)] at this; omega
      · rw [if_neg c5]; rw [if_pos (by unfold Leap; omega)] at this; omega
    · rw [if_neg c4, if_neg (by omega)]; rw [if_neg (by unfold Leap; omega)] at this; omega
  have hq : 365 ≤ A - B := by rw [q]; split <;> omega
  have hcc : C - D ≤ 1 := by rw [c]; split <;> omega
  have hcq : C - D ≤ A - B - 365 := by
    rw [c, q]; split <;> split <;> omega
  by_cases c1 : m ≤ 2
  · rw [if_pos c1]
    by_cases c2 : m' ≤ 2
    · rw [if_pos c2]; omega
    · rw [if_neg c2]
      by_cases c3 : m = 2
      · have := hl3 c3; omega
      · omega
  · rw [if_neg c1, if_neg (by omega)]
    have := hl (by omega)
    omega

theorem td_lt (t u : Moment) (ht : t.Valid) (hu : u.Valid) (h0 : 0 ≤ t.y) (h : t.Before u)
    (h5 : t.s % 5 = 0) (h5' : u.s % 5 = 0) : t.td < u.td := by
  obtain ⟨y, m, d, h, mi, s⟩ := t
  obtain ⟨y', m', d', h', mi', s'⟩ := u
  obtain ⟨ta, tb, tc, td, te, tf, tg⟩ := ht
  obtain ⟨ua, ub, uc, ud, ue, uf, ug⟩ := hu
  simp only [Moment.day, Moment.Before, Moment.td] at *
  by_cases c : y = y' ∧ m = m' ∧ d = d'
  · obtain ⟨rfl, rfl, rfl⟩ := c; omega
  · have : jd y m d < jd y' m' d' := by
      by_cases c1 : y < y'
      · exact jd_year_lt y m d y' m' d' ta ua (by omega) c1
      · have : y = y' := by omega
        subst this
        exact jd_month_lt y m d m' d' ta ua (by omega) (by omega)
    simp only [jd1980]
    omega

/-- From 2000 on, a later moment (at the resolution of five seconds) has a larger stamp. -/
theorem C31_monotone (t u : Moment) (ht : t.Valid) (hu : u.Valid) (ht0 : 2000 ≤ t.y) (ht1 : t.y ≤ 2235)
    (hu1 : u.y ≤ 2235) (h5 : t.s % 5 = 0) (h5' : u.s % 5 = 0) (hb : t.Before u) :
    ∃ a b, printToStamp t.date t.time = some a ∧ printToStamp u.date u.time = some b ∧ a < b := by
  have hlt := td_lt t u ht hu (by omega) hb h5 h5'
  have hu0 : 2000 ≤ u.y := by
    unfold Moment.Before at hb; omega
  obtain ⟨y, m, d, h, mi, s⟩ := t
  obtain ⟨y', m', d', h', mi', s'⟩ := u
  obtain ⟨ta, tb, tc, td, te, tf, tg⟩ := ht
  obtain ⟨ua, ub, uc, ud, ue, uf, ug⟩ := hu
  simp only [Moment.day, Moment.td, Moment.date, Moment.time] at *
  have p1 := printToStamp_eq ta ⟨by omega, by omega⟩ ⟨tb, tc⟩ ⟨td, te⟩ ⟨tf, tg⟩ (by omega)
  have p2 := printToStamp_eq ua ⟨by omega, by omega⟩ ⟨ub, uc⟩ ⟨ud, ue⟩ ⟨uf, ug⟩ (by omega)
  rw [if_pos (Or.inl (by omega))] at p1 p2
  refine ⟨_, _, p1, p2, ?_⟩
  have j := jd_ge2000 ta ht0
  have := stampOf_lt _ _ (by simp only [jd1980]; omega :
    0 ≤ (jd y m d - jd1980) * 17280 + (h * 720 + (mi * 60 + s) / 5))
    (by omega : _ < (jd y' m' d' - jd1980) * 17280 + (h' * 720 + (mi' * 60 + s') / 5))
  unfold newStamp
  omega

/-- Extended stamps (mode 5) of later hours are larger, as signed 32-bit numbers. -/
theorem C31_monotone_extended (t u : Moment) (ht : t.Valid) (hu : u.Valid) (ht0 : 0 ≤ t.y) (ht1 : t.y ≤ 9999)
    (hu1 : u.y ≤ 9999) (hb : t.hour.Before u.hour) :
    ∃ a b, printToExtStamp t.date t.time = some a ∧ printToExtStamp u.date u.time = some b ∧ a < b := by
  have hv : t.hour.Valid := ⟨ht.1, ht.2.1, ht.2.2.1, by simp [Moment.hour], by simp [Moment.hour],
    by simp [Moment.hour], by simp [Moment.hour]⟩
  have hv' : u.hour.Valid := ⟨hu.1, hu.2.1, hu.2.2.1, by simp [Moment.hour], by simp [Moment.hour],
    by simp [Moment.hour], by simp [Moment.hour]⟩
  have hlt := td_lt t.hour u.hour hv hv' ht0 hb rfl rfl
  have hu0 : 0 ≤ u.y := by
    unfold Moment.Before at hb; simp only [Moment.hour] at hb; omega
  obtain ⟨y, m, d, h, mi, s⟩ := t
  obtain ⟨y', m', d', h', mi', s'⟩ := u
  obtain ⟨ta, tb, tc, td, te, tf, tg⟩ := ht
  obtain ⟨ua, ub, uc, ud, ue, uf, ug⟩ := hu
  simp only [Moment.day, Moment.td, Moment.date, Moment.time, Moment.hour] at *
  have y1 : 0 ≤ y ∧ y < 10000 := by omega
  have y2 : 0 ≤ y' ∧ y' < 10000 := by omega
  refine ⟨_, _, printToExtStamp_eq ta y1 ⟨tb, tc⟩ ⟨td, te⟩ ⟨tf, tg⟩,
    printToExtStamp_eq ua y2 ⟨ub, uc⟩ ⟨ud, ue⟩ ⟨uf, ug⟩, ?_⟩
  obtain ⟨r1, r2⟩ := hours_range ta y1 ⟨tb, tc⟩
  obtain ⟨r3, r4⟩ := hours_range ua y2 ⟨ub, uc⟩
  rw [extStamp_eq _ r1 r2, extStamp_eq _ r3 r4]
  have := stampOf_lt (hours y m d h) (hours y' m' d' h') r1 (by
    unfold hours; simp only [jd0]; simp only [jd1980] at hlt; omega)
  omega

example : (⟨2024, 2, 29, 23, 59, 55⟩ : Moment).Before ⟨2024, 3, 1, 0, 0, 0⟩ ∧
    (⟨2024, 2, 29, 23, 59, 55⟩ : Moment).Valid ∧ (⟨2024, 3, 1, 0, 0, 0⟩ : Moment).Valid := by
  refine ⟨?_, by decide, by decide⟩
  unfold Moment.Before; decide

/-! ## C54: the 14-word date array -/

/-- The array built from a stamp (mode -4) gives back the stamp's date and time (mode 4), for all the
stamps of moments of the years 1900 to 2235; its first word counts the days of the week. -/
theorem C54_array (t : Moment) (ht : t.Valid) (h0 : 1900 ≤ t.y) (h1 : t.y ≤ 2235) (h80 : t.kept = t) :
    ∃ stamp, printToStamp t.date t.time = some stamp ∧
      dmagtp2 stamp = (1 + (t.day.jd + 1) % 7, ⟨t.m, t.d, t.y, t.h, t.mi * 6000 + t.s * 100⟩) ∧
      itdmag2 ⟨t.m, t.d, t.y, t.h, t.mi * 6000 + t.s * 100⟩ = stamp := by
  obtain ⟨st, a, _, _, b⟩ := C30_printable t ht h0 h1
  rw [h80] at b
  refine ⟨st, a, ?_, ?_⟩
  · obtain ⟨y, m, d, h, mi, s⟩ := t
    obtain ⟨ta, tb, tc, td, te, tf, tg⟩ := ht
    have c := exists_le31 ta
    simp only [Moment.day, Moment.date, Moment.time, Day.jd] at *
    obtain ⟨d1, d2, d3⟩ := date_parts y m d ⟨by omega, by omega⟩ ⟨c.1, c.2.1⟩ ⟨c.2.2.1, c.2.2.2⟩
    obtain ⟨t1, t2, t3, t4⟩ := time_parts h mi s ⟨tb, tc⟩ ⟨td, te⟩ ⟨tf, tg⟩
    unfold dmagtp2
    rw [b]
    simp only [Option.getD_some, d1, d2, d3, t1, t2, t3, t4]
    rw [tmod_pos _ _ (by have := jd_ge ta h0; omega), Int.add_zero]
  · obtain ⟨y, m, d, h, mi, s⟩ := t
    obtain ⟨ta, tb, tc, td, te, tf, tg⟩ := ht
    simp only [Moment.day, Moment.date, Moment.time] at *
    unfold itdmag2
    simp only
    rw [if_neg (by omega), tdiv_pos _ _ (by omega), tdiv_pos _ 100 (by omega), tmod_pos _ _ (by omega)]
    have e1 : (mi * 6000 + s * 100) / 6000 = mi := by omega
    have e2 : (mi * 6000 + s * 100) / 100 % 60 = s := by omega
    rw [e1, e2, a]

/-- The day of the week goes up by one from a day to the next, from 7 (Saturday) to 1 (Sunday). -/
theorem C54_weekday (t : Day) (ht : t.Exists) (h0 : 0 ≤ t.y) :
    1 + (t.next.jd + 1) % 7 = if 1 + (t.jd + 1) % 7 = 7 then 1 else 1 + (t.jd + 1) % 7 + 1 := by
  rw [jd_next t ht (by omega)]; split <;> omega

example : dmagtp2 471619323 = (5, ⟨2, 29, 2024, 12, 209500⟩) ∧ itdmag2 ⟨2, 29, 2024, 12, 209500⟩ = 471619323 ∧
    (⟨2024, 2, 29, 12, 34, 55⟩ : Moment).kept = ⟨2024, 2, 29, 12, 34, 55⟩ := by decide +kernel

end Verif.Date
