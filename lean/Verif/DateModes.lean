import Verif.DateLemmas
/-!
# The modes of `newdate` on existing dates
-/
namespace Verif.Date

theorem validtm_of {y m d h : Int} (he : (⟨y, m, d⟩ : Day).Exists) (hy : 1900 ≤ y ∧ y < 2236)
    (hh : 0 ≤ h ∧ h ≤ 23) : validtm y m d h := by
  have a := exists_le31 he
  have b := exists_mdays he (by omega)
  unfold validtm
  omega

theorem validtme_of {y m d h : Int} (he : (⟨y, m, d⟩ : Day).Exists) (hy : 0 ≤ y ∧ y < 10000)
    (hh : 0 ≤ h ∧ h ≤ 23) : validtme y m d h := by
  have a := exists_le31 he
  have b := exists_mdays he (by omega)
  unfold validtme
  omega

theorem validtd_pos (t : Int) (h : 0 ≤ t) : validtd t := Or.inl h

/-! ## Extended stamps -/

/-- Hours since the first of January of year 0. -/
def hours (y m d h : Int) : Int := (jd y m d - jd0) * 24 + h

theorem hours_range {y m d h : Int} (he : (⟨y, m, d⟩ : Day).Exists) (hy : 0 ≤ y ∧ y < 10000)
    (hh : 0 ≤ h ∧ h ≤ 23) : 0 ≤ hours y m d h ∧ hours y m d h < 87658200 := by
  have a := jd_ge0 he hy.1
  have b := jd_lt10k he (by omega) hy.2
  unfold hours
  simp only [jd0]
  omega

theorem hours_split {y m d h : Int} (he : (⟨y, m, d⟩ : Day).Exists) (hy : 0 ≤ y) (hh : 0 ≤ h ∧ h ≤ 23) :
    jd0 + hours y m d h ÷ 24 = jd y m d ∧ hours y m d h mod 24 = h := by
  have a := jd_ge0 he hy
  unfold hours
  refine ⟨?_, ?_⟩
  · rw [tdiv_pos _ _ (by simp only [jd0]; omega)]; simp only [jd0]; omega
  · rw [tmod_pos _ _ (by simp only [jd0]; omega)]; simp only [jd0]; omega

theorem hours_exists (e : Int) (h : 0 ≤ e) (h2 : e < 87658200) :
    ∃ y m d z, (⟨y, m, d⟩ : Day).Exists ∧ (0 ≤ y ∧ y < 10000) ∧ (0 ≤ z ∧ z ≤ 23) ∧ e = hours y m d z := by
  have hj : jd (-4799) 1 1 ≤ jd0 + e / 24 := by
    have e : jd (-4799) 1 1 = -31738 := by decide
    simp only [jd0] at *
    omega
  obtain ⟨h1, h2', h3⟩ := jd_datec _ hj
  generalize datec (jd0 + e / 24) = t at *
  obtain ⟨y, m, d⟩ := t
  simp only at *
  refine ⟨y, m, d, e % 24, h1, ⟨?_, ?_⟩, by omega, ?_⟩
  · by_cases c : 0 ≤ y
    · exact c
    · have := jd_year_lt y m d 0 1 1 h1 (by decide) h2' (by omega)
      have e2 : jd 0 1 1 = 1721060 := by decide
      simp only [jd0] at *
      omega
  · by_cases c : y < 10000
    · exact c
    · exfalso
      have : 5373485 ≤ jd y m d := by
        by_cases c : y = 10000
        · subst c
          have := (jd_within 10000 m d h1 (by omega)).1
          have e2 : jd 10000 1 1 = 5373485 := by decide
          omega
        · have := jd_year_lt 10000 1 1 y m d (by decide) h1 (by omega) (by omega)
          have e2 : jd 10000 1 1 = 5373485 := by decide
          omega
      simp only [jd0] at *
      omega
  · unfold hours; rw [h3]; simp only [jd0]; omega

/-- The extended stamp of a number of hours. -/
def extStamp (e : Int) : Int := toInt32 (stampOf e + troisg)

theorem extStamp_eq (e : Int) (h : 0 ≤ e) (h2 : e < 87658200) :
    extStamp e = stampOf e + troisg - 2 ^ 32 := by
  have a := stampOf_nonneg e h
  have b := stampOf_le e h
  unfold extStamp toInt32
  simp only [troisg]
  omega

theorem stampOf_last (e : Int) (h : 0 ≤ e) (h2 : e < 87658200) : stampOf e < max_offset := by
  have := stampOf_lt e 87658200 h h2
  have e2 : stampOf 87658200 = 109572750 := by decide
  rw [e2] at this
  simp only [max_offset]; omega

theorem extStamp_unsigned (e : Int) (h : 0 ≤ e) (h2 : e < 87658200) :
    extStamp e < -1 ∧ unsigned32 (extStamp e) = stampOf e + troisg ∧
      ¬ (stampOf e + troisg < troisg ∨ stampOf e + troisg ≥ troisg + max_offset) := by
  have a := stampOf_nonneg e h
  have b := stampOf_le e h
  have c := stampOf_last e h h2
  rw [extStamp_eq e h h2]
  unfold unsigned32
  simp only [troisg, max_offset] at *
  omega

theorem printToExtStamp_eq {y m d h mi s : Int} (he : (⟨y, m, d⟩ : Day).Exists) (hy : 0 ≤ y ∧ y < 10000)
    (hh : 0 ≤ h ∧ h ≤ 23) (hm : 0 ≤ mi ∧ mi ≤ 59) (hs : 0 ≤ s ∧ s ≤ 59) :
    printToExtStamp (y * 10000 + m * 100 + d) (h * 1000000 + mi * 10000 + s * 100) =
      some (extStamp (hours y m d h)) := by
  have a := exists_le31 he
  obtain ⟨d1, d2, d3⟩ := date_parts y m d hy ⟨a.1, a.2.1⟩ ⟨a.2.2.1, a.2.2.2⟩
  obtain ⟨t1, t2, t3, t4⟩ := time_parts h mi s hh hm hs
  have b := jd_ge0 he hy.1
  have c := jd_lt10k he (by omega) hy.2
  unfold printToExtStamp
  simp only [d1, d2, d3, t1, t2]
  rw [if_neg (not_not_intro (validtme_of he hy hh)), if_neg (exists_mdays he hy.1).2,
    if_neg (by simp only [jd0, jd10k]; omega), tdiv_pos mi 60 hm.1]
  have e : mi / 60 = 0 := by omega
  rw [e]
  simp [extStamp, hours]

theorem extStampToPrint_eq {y m d h : Int} (he : (⟨y, m, d⟩ : Day).Exists) (hy : 0 ≤ y ∧ y < 10000)
    (hh : 0 ≤ h ∧ h ≤ 23) :
    extStampToPrint (extStamp (hours y m d h)) = some (y * 10000 + m * 100 + d, h * 1000000) := by
  obtain ⟨r1, r2⟩ := hours_range he hy hh
  obtain ⟨u1, u2, u3⟩ := extStamp_unsigned _ r1 r2
  obtain ⟨s1, s2⟩ := hours_split he hy.1 hh
  unfold extStampToPrint
  simp only [u2]
  rw [if_neg u3]
  have e : stampOf (hours y m d h) + troisg - troisg = stampOf (hours y m d h) := by omega
  rw [e, tdOf_stampOf _ r1, s1, datec_jd y m d he (by omega), s2]
  simp only
  rw [if_neg (not_not_intro (validtme_of he hy hh)), if_neg (exists_mdays he hy.1).2]

theorem printToExtTd_eq {y m d h mi s : Int} (he : (⟨y, m, d⟩ : Day).Exists) (hy : 0 ≤ y ∧ y < 10000)
    (hh : 0 ≤ h ∧ h ≤ 23) (hm : 0 ≤ mi ∧ mi ≤ 59) (hs : 0 ≤ s ∧ s ≤ 59) :
    printToExtTd (y * 10000 + m * 100 + d) (h * 1000000 + mi * 10000 + s * 100) =
      some (hours y m d h) := by
  have a := exists_le31 he
  obtain ⟨d1, d2, d3⟩ := date_parts y m d hy ⟨a.1, a.2.1⟩ ⟨a.2.2.1, a.2.2.2⟩
  obtain ⟨t1, t2, t3, t4⟩ := time_parts h mi s hh hm hs
  unfold printToExtTd
  simp only [d1, d2, d3, t1]
  rw [if_neg (by omega), if_neg (not_not_intro (validtme_of he hy hh)), if_neg (exists_mdays he hy.1).2]
  rfl

theorem extTdToPrint_eq {y m d h : Int} (he : (⟨y, m, d⟩ : Day).Exists) (hy : 0 ≤ y ∧ y < 10000)
    (hh : 0 ≤ h ∧ h ≤ 23) :
    extTdToPrint (hours y m d h) = some (y * 10000 + m * 100 + d, h * 1000000) := by
  obtain ⟨r1, r2⟩ := hours_range he hy hh
  obtain ⟨s1, s2⟩ := hours_split he hy.1 hh
  unfold extTdToPrint
  rw [if_neg (not_not_intro (validtd_pos _ r1)), s1, datec_jd y m d he (by omega), s2]
  simp only
  rw [if_neg (not_not_intro (validtme_of he hy hh)), if_neg (exists_mdays he hy.1).2]

/-! ## Old and new stamps -/

theorem oldStamp_range {y m d h run : Int} (he : (⟨y, m, d⟩ : Day).Exists) (hy : 1900 ≤ y ∧ y < 2000)
    (hh : 0 ≤ h ∧ h ≤ 23) (hr : 0 ≤ run ∧ run ≤ 9) :
    0 < oldStamp y m d h + run ∧ oldStamp y m d h + run < tdstart := by
  have a := exists_le31 he
  unfold oldStamp
  simp only [tdstart]
  omega

theorem oldStamp_parts {y m d h run : Int} (he : (⟨y, m, d⟩ : Day).Exists) (hy : 1900 ≤ y ∧ y < 2000)
    (hh : 0 ≤ h ∧ h ≤ 23) (hr : 0 ≤ run ∧ run ≤ 9) :
    (oldStamp y m d h + run) mod 10 = run ∧ (oldStamp y m d h + run) ÷ 10 mod 100 = h ∧
    (oldStamp y m d h + run) ÷ 1000 mod 100 + 1900 = y ∧ (oldStamp y m d h + run) ÷ 100000 mod 100 = d ∧
    (oldStamp y m d h + run) ÷ 10000000 mod 100 = m := by
  have a := exists_le31 he
  have b := oldStamp_range he hy hh hr
  unfold oldStamp at *
  refine ⟨?_, ?_, ?_, ?_, ?_⟩
  · rw [tmod_pos _ _ (by omega)]; omega
  · rw [tdiv_pos _ _ (by omega), tmod_pos _ _ (by omega)]; omega
  · rw [tdiv_pos _ _ (by omega), tmod_pos _ _ (by omega)]; omega
  · rw [tdiv_pos _ _ (by omega), tmod_pos _ _ (by omega)]; omega
  · rw [tdiv_pos _ _ (by omega), tmod_pos _ _ (by omega)]; omega

theorem stampToPrint_old {y m d h run : Int} (he : (⟨y, m, d⟩ : Day).Exists) (hy : 1900 ≤ y ∧ y < 2000)
    (hh : 0 ≤ h ∧ h ≤ 23) (hr : 0 ≤ run ∧ run ≤ 9) :
    stampToPrint (oldStamp y m d h + run) = some (y * 10000 + m * 100 + d, h * 1000000) := by
  obtain ⟨r1, r2⟩ := oldStamp_range he hy hh hr
  obtain ⟨p0, p1, p2, p3, p4⟩ := oldStamp_parts he hy hh hr
  unfold stampToPrint
  rw [if_neg (by omega), if_neg (by omega)]
  simp only [p1, p2, p3, p4]
  rw [if_neg (not_not_intro (validtm_of he ⟨hy.1, by omega⟩ hh)), if_neg (exists_mdays he (by omega)).2]

theorem stampToTd_old {y m d h run : Int} (he : (⟨y, m, d⟩ : Day).Exists) (hy : 1900 ≤ y ∧ y < 2000)
    (hh : 0 ≤ h ∧ h ≤ 23) (hr : 0 ≤ run ∧ run ≤ 9) :
    stampToTd (oldStamp y m d h + run) = some ((jd y m d - jd1980) * 17280 + h * 720, run) := by
  obtain ⟨r1, r2⟩ := oldStamp_range he hy hh hr
  obtain ⟨p0, p1, p2, p3, p4⟩ := oldStamp_parts he hy hh hr
  have a := jd_ge he hy.1
  unfold stampToTd
  rw [if_neg (by omega), if_neg (by omega)]
  simp only [p0, p1, p2, p3, p4]
  rw [if_neg]
  apply not_not_intro
  unfold validtd
  by_cases c : 0 ≤ (jd y m d - jd1980) * 17280 + h * 720
  · exact Or.inl c
  · refine Or.inr ⟨by omega, by simp only [jd1980, td1900]; omega, ?_⟩
    rw [tmod_pos _ _ (by simp only [jd1980, td1900]; omega)]
    simp only [jd1980, td1900]; omega

theorem stampToExtTd_old {y m d h run : Int} (he : (⟨y, m, d⟩ : Day).Exists) (hy : 1900 ≤ y ∧ y < 2000)
    (hh : 0 ≤ h ∧ h ≤ 23) (hr : 0 ≤ run ∧ run ≤ 9) :
    stampToExtTd (oldStamp y m d h + run) = some (hours y m d h, run) := by
  obtain ⟨r1, r2⟩ := oldStamp_range he hy hh hr
  obtain ⟨p0, p1, p2, p3, p4⟩ := oldStamp_parts he hy hh hr
  have a := (hours_range he (by omega) hh).1
  unfold stampToExtTd
  rw [if_neg (by omega), if_neg (by omega)]
  simp only [p0, p1, p2, p3, p4]
  rw [if_neg (not_not_intro (validtd_pos ((jd y m d - jd0) * 24 + h) a))]
  rfl

/-- The stamp of a true date in the new style. -/
def newStamp (td : Int) : Int := tdstart + stampOf td

theorem newStamp_ge (td : Int) (h : 0 ≤ td) : tdstart ≤ newStamp td := by
  have := stampOf_nonneg td h
  unfold newStamp; omega

theorem tdOf_newStamp (td : Int) (h : 0 ≤ td) : tdOf (newStamp td - tdstart) = td := by
  unfold newStamp
  have e : tdstart + stampOf td - tdstart = stampOf td := by omega
  rw [e, tdOf_stampOf td h]

theorem stampToTd_new (td : Int) (h : 0 ≤ td) : stampToTd (newStamp td) = some (td, 0) := by
  unfold stampToTd
  rw [if_pos (newStamp_ge td h), tdOf_newStamp td h]
  simp only
  rw [if_neg (not_not_intro (validtd_pos _ h))]

/-- Hour, minute and second from a number of five second intervals in a day. -/
theorem tod_parts (tod : Int) (h : 0 ≤ tod ∧ tod < 17280) :
    tod ÷ 720 = tod / 720 ∧ 0 ≤ (tod - tod / 720 * 720) * 5 ∧ (tod - tod / 720 * 720) * 5 < 3600 ∧
      0 ≤ tod / 720 ∧ tod / 720 ≤ 23 := by
  rw [tdiv_pos _ _ h.1]; omega

theorem stampToPrint_new {y m d tod : Int} (he : (⟨y, m, d⟩ : Day).Exists) (hy : 1980 ≤ y ∧ y < 2236)
    (ht : 0 ≤ tod ∧ tod < 17280) :
    stampToPrint (newStamp ((jd y m d - jd1980) * 17280 + tod)) =
      some (y * 10000 + m * 100 + d,
        tod / 720 * 1000000 + tod % 720 / 12 * 10000 + tod % 720 % 12 * 5 * 100) := by
  have a := jd_ge1980 he hy.1
  have h0 : 0 ≤ (jd y m d - jd1980) * 17280 + tod := by simp only [jd1980]; omega
  obtain ⟨s1, s2⟩ := td_split (jd y m d) tod (by omega) ht
  obtain ⟨t0, t1, t2, t3, t4⟩ := tod_parts tod ht
  have g := newStamp_ge _ h0
  unfold stampToPrint
  rw [if_neg (by simp only [tdstart] at g; omega), if_pos g, tdOf_newStamp _ h0]
  simp only [s1, s2, t0]
  rw [datec_jd y m d he (by omega)]
  simp only
  rw [if_neg (not_not_intro (validtm_of he ⟨by omega, hy.2⟩ ⟨t3, t4⟩)), if_neg (exists_mdays he (by omega)).2,
    printTime_eq _ _ ⟨t1, t2⟩]
  rw [Option.some.injEq, Prod.mk.injEq]
  refine ⟨rfl, ?_⟩
  omega

theorem stampToExtTd_new {y m d tod : Int} (he : (⟨y, m, d⟩ : Day).Exists) (hy : 1980 ≤ y ∧ y < 10000)
    (ht : 0 ≤ tod ∧ tod < 17280) :
    stampToExtTd (newStamp ((jd y m d - jd1980) * 17280 + tod)) = some (hours y m d (tod / 720), 0) := by
  have a := jd_ge1980 he hy.1
  have h0 : 0 ≤ (jd y m d - jd1980) * 17280 + tod := by simp only [jd1980]; omega
  obtain ⟨s1, s2⟩ := td_split (jd y m d) tod (by omega) ht
  obtain ⟨t0, t1, t2, t3, t4⟩ := tod_parts tod ht
  have g := newStamp_ge _ h0
  unfold stampToExtTd
  rw [if_neg (by simp only [tdstart] at g; omega), if_pos g, tdOf_newStamp _ h0]
  simp only [s1, s2, t0]
  rw [datec_jd y m d he (by omega)]
  simp only
  have b := (hours_range he ⟨by omega, hy.2⟩ ⟨t3, t4⟩).1
  rw [if_neg (not_not_intro (validtd_pos ((jd y m d - jd0) * 24 + tod / 720) b))]
  rfl

/-- Mode -1 on a day and a time of it. -/
theorem tdToStamp_eq {y m d tod run : Int} (he : (⟨y, m, d⟩ : Day).Exists) (hy : 1900 ≤ y)
    (ht : 0 ≤ tod ∧ tod < 17280) (h80 : y < 1980 → tod % 720 = 0) (hr : run ≤ 9) :
    tdToStamp ((jd y m d - jd1980) * 17280 + tod) run =
      if y ≥ 2000 ∨ tod % 720 ≠ 0 then some (newStamp ((jd y m d - jd1980) * 17280 + tod))
      else some (oldStamp y m d (tod / 720) + run) := by
  have a := jd_ge he hy
  obtain ⟨s1, s2⟩ := td_split (jd y m d) tod a ht
  have hv : validtd ((jd y m d - jd1980) * 17280 + tod) := by
    unfold validtd
    by_cases c : 0 ≤ (jd y m d - jd1980) * 17280 + tod
    · exact Or.inl c
    · refine Or.inr ⟨by omega, by simp only [jd1980, td1900]; omega, ?_⟩
      have hy8 : y < 1980 := by
        by_cases c2 : y < 1980
        · exact c2
        · have := jd_ge1980 he (by omega)
          simp only [jd1980] at c
          omega
      have := h80 hy8
      rw [tmod_pos _ _ (by simp only [jd1980, td1900]; omega)]
      simp only [jd1980, td1900]; omega
  unfold tdToStamp
  rw [if_neg (fun h => h.elim (fun h => by omega) (fun h => h hv))]
  have hc : ((jd y m d - jd1980) * 17280 + tod ≥ td2000 ∨ ((jd y m d - jd1980) * 17280 + tod) mod 720 ≠ 0) ↔
      (y ≥ 2000 ∨ tod % 720 ≠ 0) := by
    have q : (jd y m d - jd1980) * 17280 + tod ≥ td2000 ↔ y ≥ 2000 := by
      constructor
      · intro h
        by_cases c2 : y < 2000
        · have := jd_lt2000 he (by omega) c2
          simp only [jd1980, td2000] at h
          omega
        · omega
      · intro h
        have := jd_ge2000 he h
        simp only [jd1980, td2000]
        omega
    rw [q]
    have q2 : ((jd y m d - jd1980) * 17280 + tod) mod 720 = 0 ↔ tod % 720 = 0 := by
      rw [← Int.dvd_iff_tmod_eq_zero]
      simp only [jd1980]
      omega
    rw [ne_eq, ne_eq, q2]
  by_cases c : y ≥ 2000 ∨ tod % 720 ≠ 0
  · rw [if_pos (hc.2 c), if_pos c]; rfl
  · rw [if_neg (fun h => c (hc.1 h)), if_neg c]
    rw [s1, datec_jd y m d he (by omega)]
    simp only
    have e : ((jd y m d - jd1980) * 17280 + tod - td1900) ÷ 720 * 720 + td1900 =
        (jd y m d - jd1980) * 17280 + tod := by
      rw [tdiv_pos _ _ (by simp only [jd1980, td1900]; omega)]
      simp only [jd1980, td1900]; omega
    rw [e, s2, tdiv_pos _ _ ht.1]

theorem tdToPrint_eq {y m d tod : Int} (he : (⟨y, m, d⟩ : Day).Exists) (hy : 1900 ≤ y)
    (ht : 0 ≤ tod ∧ tod < 17280) (h80 : y < 1980 → tod % 720 = 0) :
    tdToPrint ((jd y m d - jd1980) * 17280 + tod) = some (y * 10000 + m * 100 + d,
        tod / 720 * 1000000 + tod % 720 / 12 * 10000 + tod % 720 % 12 * 5 * 100) := by
  have a := jd_ge he hy
  obtain ⟨s1, s2⟩ := td_split (jd y m d) tod a ht
  obtain ⟨t0, t1, t2, t3, t4⟩ := tod_parts tod ht
  have hv : validtd ((jd y m d - jd1980) * 17280 + tod) := by
    unfold validtd
    by_cases c : 0 ≤ (jd y m d - jd1980) * 17280 + tod
    · exact Or.inl c
    · refine Or.inr ⟨by omega, by simp only [jd1980, td1900]; omega, ?_⟩
      have hy8 : y < 1980 := by
        by_cases c2 : y < 1980
        · exact c2
        · have := jd_ge1980 he (by omega)
          simp only [jd1980] at c
          omega
      have := h80 hy8
      rw [tmod_pos _ _ (by simp only [jd1980, td1900]; omega)]
      simp only [jd1980, td1900]; omega
  unfold tdToPrint
  rw [if_neg (not_not_intro hv)]
  simp only [s1, s2, t0]
  rw [datec_jd y m d he (by omega)]
  simp only
  rw [printTime_eq _ _ ⟨t1, t2⟩]
  rw [Option.some.injEq, Prod.mk.injEq]
  refine ⟨rfl, ?_⟩
  omega

theorem printToTd_eq {y m d h mi s : Int} (he : (⟨y, m, d⟩ : Day).Exists) (hy : 1900 ≤ y ∧ y < 2236)
    (hh : 0 ≤ h ∧ h ≤ 23) (hm : 0 ≤ mi ∧ mi ≤ 59) (hs : 0 ≤ s ∧ s ≤ 59)
    (hne : ¬ (y = 1901 ∧ m = 1 ∧ d = 1 ∧ h = 1 ∧ mi = 0 ∧ s = 0)) :
    printToTd (y * 10000 + m * 100 + d) (h * 1000000 + mi * 10000 + s * 100) =
      some ((jd y m d - jd1980) * 17280 + h * 720 + (mi * 60 + s) / 5) := by
  have a := exists_le31 he
  obtain ⟨d1, d2, d3⟩ := date_parts y m d ⟨by omega, by omega⟩ ⟨a.1, a.2.1⟩ ⟨a.2.2.1, a.2.2.2⟩
  obtain ⟨t1, t2, t3, t4⟩ := time_parts h mi s hh hm hs
  unfold printToTd
  rw [if_neg (by intro e; apply hne; omega)]
  simp only [d1, d2, d3, t1, t2, t3]
  rw [if_neg (not_not_intro (validtm_of he hy hh)), if_neg (exists_mdays he (by omega)).2,
    tdiv_pos _ _ (by omega)]

theorem printToStamp_eq {y m d h mi s : Int} (he : (⟨y, m, d⟩ : Day).Exists) (hy : 1900 ≤ y ∧ y < 2236)
    (hh : 0 ≤ h ∧ h ≤ 23) (hm : 0 ≤ mi ∧ mi ≤ 59) (hs : 0 ≤ s ∧ s ≤ 59)
    (hne : ¬ (y = 1901 ∧ m = 1 ∧ d = 1 ∧ h = 1 ∧ mi = 0 ∧ s = 0)) :
    printToStamp (y * 10000 + m * 100 + d) (h * 1000000 + mi * 10000 + s * 100) =
      if y ≥ 2000 ∨ (y ≥ 1980 ∧ mi * 60 + s ≠ 0) then
        some (newStamp ((jd y m d - jd1980) * 17280 + (h * 720 + (mi * 60 + s) / 5)))
      else some (oldStamp y m d h) := by
  have a := exists_le31 he
  obtain ⟨d1, d2, d3⟩ := date_parts y m d ⟨by omega, by omega⟩ ⟨a.1, a.2.1⟩ ⟨a.2.2.1, a.2.2.2⟩
  obtain ⟨t1, t2, t3, t4⟩ := time_parts h mi s hh hm hs
  unfold printToStamp
  rw [if_neg (by intro e; apply hne; omega)]
  simp only [d1, d2, d3, t1, t2, t3]
  rw [if_neg (by omega), if_neg (not_not_intro (validtm_of he hy hh)), if_neg (exists_mdays he (by omega)).2,
    tdiv_pos (mi * 60 + s) 5 (by omega)]
  have e0 : (jd y m d - jd1980) * 17280 + h * 720 + (mi * 60 + s) / 5 =
      (jd y m d - jd1980) * 17280 + (h * 720 + (mi * 60 + s) / 5) := by omega
  rw [e0]
  split
  · rfl
  · have b := jd_ge he hy.1
    have e1 : ((jd y m d - jd1980) * 17280 + (h * 720 + (mi * 60 + s) / 5) - td1900) ÷ 720 * 720 + td1900 =
        (jd y m d - jd1980) * 17280 + h * 720 := by
      rw [tdiv_pos _ _ (by simp only [jd1980, td1900]; omega)]
      simp only [jd1980, td1900]; omega
    rw [e1]
    obtain ⟨s1, s2⟩ := td_split (jd y m d) (h * 720) b (by omega)
    rw [s1, s2, datec_jd y m d he (by omega)]
    simp only
    rw [tdiv_pos (h * 720) _ (by omega)]
    have e2 : h * 720 / 720 = h := by omega
    rw [e2]

/-- Mode -6 on a day and an hour. -/
theorem extTdToStamp_eq {y m d h : Int} (he : (⟨y, m, d⟩ : Day).Exists) (hy : 0 ≤ y ∧ y < 10000)
    (hh : 0 ≤ h ∧ h ≤ 23) :
    extTdToStamp (hours y m d h) =
      if (y = 1901 ∧ m = 1 ∧ d = 1 ∧ h = 1) ∨ y < 1900 ∨ y ≥ 2236 then some (extStamp (hours y m d h))
      else if y ≥ 2000 then some (newStamp ((jd y m d - jd1980) * 17280 + h * 720))
      else some (oldStamp y m d h) := by
  obtain ⟨s1, s2⟩ := hours_split he hy.1 hh
  have hx : hours y m d h = exception ↔ (y = 1901 ∧ m = 1 ∧ d = 1 ∧ h = 1) := by
    constructor
    · intro e
      have e1 : hours 1901 1 1 1 = exception := by decide
      obtain ⟨r1, r2⟩ := hours_split (y := 1901) (m := 1) (d := 1) (h := 1) (by decide) (by omega) (by omega)
      rw [e1, ← e, s1] at r1
      rw [e1, ← e, s2] at r2
      have q := datec_jd y m d he (by omega)
      rw [r1, datec_jd 1901 1 1 (by decide) (by omega)] at q
      simp only [Prod.mk.injEq] at q
      omega
    · rintro ⟨rfl, rfl, rfl, rfl⟩; decide
  have h1 : hours y m d h ÷ 24 + jd0 = jd y m d := by omega
  have h2 : jd y m d < jd1900 ↔ y < 1900 := by
    constructor
    · intro c
      by_cases c2 : y < 1900
      · exact c2
      · have := jd_ge he (by omega)
        simp only [jd1900] at c
        omega
    · intro c
      exact jd_lt1900 he (by omega) c
  have h3 : jd y m d ≥ jd2236 ↔ y ≥ 2236 := by
    constructor
    · intro c
      by_cases c2 : y < 2236
      · have := jd_lt2236 he (by omega) c2
        simp only [jd2236] at c
        omega
      · omega
    · intro c
      exact jd_ge2236 he c
  unfold extTdToStamp
  rw [h1, s2]
  have hcond : (hours y m d h = exception ∨ jd y m d < jd1900 ∨ jd y m d ≥ jd2236) ↔
      ((y = 1901 ∧ m = 1 ∧ d = 1 ∧ h = 1) ∨ y < 1900 ∨ y ≥ 2236) := by rw [h2, h3, hx]
  by_cases c : (y = 1901 ∧ m = 1 ∧ d = 1 ∧ h = 1) ∨ y < 1900 ∨ y ≥ 2236
  · rw [if_pos (hcond.2 c), if_pos c]; rfl
  · rw [if_neg (fun x => c (hcond.1 x)), if_neg c]
    simp only
    rw [tdToStamp_eq he (by omega) (by omega) (by omega) (by omega)]
    have e1 : h * 720 % 720 = 0 := by omega
    have e2 : h * 720 / 720 = h := by omega
    simp only [e1, e2, ne_eq, not_true, or_false, Int.add_zero]

theorem stampToExtTd_ext (e : Int) (h : 0 ≤ e) (h2 : e < 87658200) :
    stampToExtTd (extStamp e) = some (e, 0) := by
  obtain ⟨u1, u2, u3⟩ := extStamp_unsigned _ h h2
  unfold stampToExtTd
  rw [if_pos u1]
  simp only [u2]
  rw [if_neg (by omega)]
  have e : stampOf e + troisg - troisg = stampOf e := by omega
  rw [e, tdOf_stampOf _ h]

end Verif.Date
