import Verif.DateCalendars
/-!
# The leap day adjustment when the moment lies outside the years of basic stamps

`LeapYear_Adjust` is then called with a sum inside the years 1900 to 2235.  It need not count all
leap days, but the date it leads to is outside as well.
-/
namespace Verif.Date

theorem leapYear_up (mode : Mode) (adding : Bool) (td2 : Int) (v : LeapState) (a : Int) :
    v.ndays ≤ (leapYear mode adding 1 td2 v a).ndays := by
  unfold leapYear
  split
  · simp only [show (1 : Int) > 0 by omega, if_true]
    split <;> simp
  · exact Int.le_refl _

theorem loop_up (mode : Mode) (adding : Bool) (td2 : Int) (l : List Int) (v : LeapState) :
    v.ndays ≤ (l.foldl (leapYear mode adding 1 td2) v).ndays := by
  induction l generalizing v with
  | nil => exact Int.le_refl _
  | cons a l ih =>
    simp only [List.foldl_cons]
    exact Int.le_trans (leapYear_up mode adding td2 v a) (ih _)

theorem adjust_after {y2 m2 d2 tod2 yt mt dt tod : Int} (junk : Int)
    (p2 : Point .basic y2 m2 d2 tod2) (n2 : ¬ (m2 = 2 ∧ d2 = 29))
    (pt : Point .basic yt mt dt tod) (nt : ¬ (mt = 2 ∧ dt = 29)) (hout : 2236 ≤ yt)
    (h80 : tod % 720 = 0) (hle : number365 y2 m2 d2 ≤ number365 yt mt dt)
    (hin : 1721060 + number365 yt mt dt + leapsBefore y2 m2 < 2537742) :
    2537742 ≤ 1721060 + number365 yt mt dt + leapsBefore y2 m2 +
      leapYearAdjust .basic true junk (enc .basic (1721060 + number365 yt mt dt + leapsBefore y2 m2) tod)
        (enc .basic (jd y2 m2 d2) tod2) := by
  have hL := leapsBefore_mono p2.ex n2 p2.nonneg pt.ex nt pt.nonneg hle
  have j2 := jd_split p2.ex p2.nonneg
  have jt := jd_split pt.ex pt.nonneg
  have f2 := firstYear_jd p2
  have ft := jd_lt10k pt.ex (by have := pt.nonneg; omega) pt.high
  have jout := jd_ge2236 pt.ex hout
  have pex : ∀ j, jd y2 m2 d2 ≤ j → j ≤ jd yt mt dt → ∃ y m d, Point .basic y m d tod ∧ jd y m d = j := by
    intro j h1 h2
    exact point_exists .basic j tod (by omega) (by omega) ⟨pt.tod.1, pt.tod.2.1⟩ (fun _ _ => h80)
  obtain ⟨y1, m1, d1, p1, e1⟩ := pex (1721060 + number365 yt mt dt + leapsBefore y2 m2) (by omega) (by omega)
  have y1in : y1 < 2236 := by
    by_cases c : y1 < 2236
    · exact c
    · have := jd_ge2236 p1.ex (by omega); omega
  have y21 := point_year_le p2 p1 (by omega)
  have y1t := point_year_le p1 pt (by omega)
  obtain ⟨a1, b1⟩ := p1.year junk
  obtain ⟨a2, b2⟩ := p2.year junk
  have inc : (if y2 > y1 ∨ (y1 = y2 ∧ m2 > m1) then (-1 : Int) else 1) = 1 := by
    rw [if_neg]
    rintro (h | ⟨h, h'⟩)
    · omega
    · subst h
      have := point_month_le p2 p1 (by omega)
      omega
  unfold leapYearAdjust
  rw [← e1]
  simp only [a1, b1, a2, b2, inc]
  have r2 := leapsBefore_range y2 m2 p2.nonneg
  have step : ∀ c v, okYear .basic c → Fwd .basic true (number365 yt mt dt) (leapsBefore yt mt) (leapsBefore y2 m2) tod c v →
      Fwd .basic true (number365 yt mt dt) (leapsBefore yt mt) (leapsBefore y2 m2) tod (c + 1)
        (leapYear .basic true 1 (enc .basic (jd y2 m2 d2) tod2) v c) := by
    intro c v hc h
    rw [enc_eq p2]
    exact fwd_step (p2.split n2) (pt.split nt) ⟨pt.tod.1, pt.tod.2.1⟩ ⟨p2.tod.1, p2.tod.2.1⟩ hc h
  have low := p2.low
  simp only [firstYear] at low
  have l1 := doYears_up y2 y1 (Fwd .basic true (number365 yt mt dt) (leapsBefore yt mt) (leapsBefore y2 m2) tod)
    (leapYear .basic true 1 (enc .basic (jd y2 m2 d2) tod2))
    (fun c v h1 h2 h => step c v (by simp only [okYear]; omega) h)
    ⟨junk, junk, 0, enc .basic (jd y1 m1 d1) tod⟩ ⟨by simp only; omega, by rw [e1]; simp⟩ (by omega)
  generalize (doYears y2 y1 1).foldl (leapYear .basic true 1 (enc .basic (jd y2 m2 d2) tod2))
    ⟨junk, junk, 0, enc .basic (jd y1 m1 d1) tod⟩ = v at l1 ⊢
  obtain ⟨nd, td⟩ := l1
  simp only [if_true] at td
  obtain ⟨yL, mL, dL, pL, eL⟩ := pex (1721060 + number365 yt mt dt + (leapsBefore y2 m2 + v.ndays))
    (by omega) (by omega)
  rw [td, ← eL, (pL.year _).1]
  have y1L := point_year_le p1 pL (by omega)
  have yLt := point_year_le pL pt (by omega)
  by_cases yLin : yL < 2236
  · have l2 := doYears_up (y1 + 1) yL (Fwd .basic true (number365 yt mt dt) (leapsBefore yt mt) (leapsBefore y2 m2) tod)
      (leapYear .basic true 1 (enc .basic (jd y2 m2 d2) tod2))
      (fun c v h1 h2 h => step c v (by simp only [okYear]; omega) h)
      v ⟨nd, by rw [td]; simp⟩ (by omega)
    have cover : leapsBefore yt mt ≤ leaps (yL + 1) := by
      by_cases c : leapsBefore yt mt ≤ leaps (yL + 1)
      · exact c
      · have af := after_feb pt.ex nt pt.nonneg (yL + 1) (by have := pL.nonneg; omega) (by omega)
        have bl := p1.year_bounds
        have bL := pL.year_bounds
        have m1 := leaps_mono (y1 + 1) (yL + 1) (by have := p1.nonneg; omega) (by omega)
        have m2 := leaps_small (y1 + 1) (by have := p1.nonneg; omega) (by have := p1.high; omega)
        have m3 := leaps_small y2 p2.nonneg (by have := p2.high; omega)
        omega
    rw [l2.1]
    omega
  · have up := loop_up .basic true (enc .basic (jd y2 m2 d2) tod2) (doYears (y1 + 1) yL 1) v
    have jL := jd_ge2236 pL.ex (by omega)
    omega

theorem adjust_before {y2 m2 d2 tod2 yt mt dt tod : Int} (junk : Int)
    (p2 : Point .basic y2 m2 d2 tod2) (n2 : ¬ (m2 = 2 ∧ d2 = 29)) (ok : okYear .basic y2)
    (he : (⟨yt, mt, dt⟩ : Day).Exists) (h0 : 0 ≤ yt) (nt : ¬ (mt = 2 ∧ dt = 29)) (hout : yt < 1900)
    (hd : 0 ≤ tod ∧ tod < 17280) (h80 : tod % 720 = 0)
    (hb : Leap y2 → ¬ (m2 = 2 ∧ d2 = 28 ∧ tod2 = dayUnits .basic - 1))
    (hle : number365 yt mt dt ≤ number365 y2 m2 d2)
    (hin : 2415021 ≤ 1721060 + number365 yt mt dt + leapsBefore y2 m2) :
    1721060 + number365 yt mt dt + leapsBefore y2 m2 +
      leapYearAdjust .basic true junk (enc .basic (1721060 + number365 yt mt dt + leapsBefore y2 m2) tod)
        (enc .basic (jd y2 m2 d2) tod2) < 2415021 := by
  have hL := leapsBefore_mono he nt h0 p2.ex n2 p2.nonneg hle
  have j2 := jd_split p2.ex p2.nonneg
  have jt := jd_split he h0
  have jout := jd_lt1900 he (by omega) hout
  have ft := jd_lt10k p2.ex (by have := p2.nonneg; omega) p2.high
  have e1900 : jd 1900 1 1 = 2415021 := by decide
  have pex : ∀ j, 2415021 ≤ j → j ≤ jd y2 m2 d2 → ∃ y m d, Point .basic y m d tod ∧ jd y m d = j := by
    intro j h1 h2
    exact point_exists .basic j tod (by simp only [firstYear]; omega) (by omega) hd (fun _ _ => h80)
  have spl : Split (number365 yt mt dt) (leapsBefore yt mt) := fun a ha hl => before_feb he nt h0 a ha hl
  obtain ⟨y1, m1, d1, p1, e1⟩ := pex (1721060 + number365 yt mt dt + leapsBefore y2 m2) (by omega) (by omega)
  have y21 := point_year_le p1 p2 (by omega)
  have low1 := p1.low
  simp only [firstYear, okYear] at low1 ok
  obtain ⟨a1, b1⟩ := p1.year junk
  obtain ⟨a2, b2⟩ := p2.year junk
  unfold leapYearAdjust
  rw [← e1]
  simp only [a1, b1, a2, b2]
  have r2 := leapsBefore_range y2 m2 p2.nonneg
  by_cases hi : y2 > y1 ∨ (y1 = y2 ∧ m2 > m1)
  · rw [if_pos hi]
    have step : ∀ c v, okYear .basic c →
        Bwd .basic true (number365 yt mt dt) (leapsBefore yt mt) (leapsBefore y2 m2) tod (c + 1) v →
        Bwd .basic true (number365 yt mt dt) (leapsBefore yt mt) (leapsBefore y2 m2) tod c
          (leapYear .basic true (-1) (enc .basic (jd y2 m2 d2) tod2) v c) := by
      intro c v hc h
      rw [enc_eq p2]
      refine bwd_step (p2.split n2) spl hd ⟨p2.tod.1, p2.tod.2.1⟩ ?_ hc h
      intro hl hx
      exact feb28 p2 n2 hb hl hx
    have l1 := doYears_down y2 y1 (Bwd .basic true (number365 yt mt dt) (leapsBefore yt mt) (leapsBefore y2 m2) tod)
      (leapYear .basic true (-1) (enc .basic (jd y2 m2 d2) tod2))
      (fun c v h1 h2 h => step c v (by simp only [okYear]; omega) h)
      ⟨junk, junk, 0, enc .basic (jd y1 m1 d1) tod⟩ ⟨by simp only; omega, by rw [e1]; simp⟩ (by omega)
    generalize (doYears y2 y1 (-1)).foldl (leapYear .basic true (-1) (enc .basic (jd y2 m2 d2) tod2))
      ⟨junk, junk, 0, enc .basic (jd y1 m1 d1) tod⟩ = v at l1 ⊢
    obtain ⟨nd, td⟩ := l1
    simp only [if_true] at td
    by_cases cL : 2415021 ≤ 1721060 + number365 yt mt dt + (leapsBefore y2 m2 + v.ndays)
    · obtain ⟨yL, mL, dL, pL, eL⟩ := pex (1721060 + number365 yt mt dt + (leapsBefore y2 m2 + v.ndays)) cL (by omega)
      have lowL := pL.low
      simp only [firstYear] at lowL
      rw [td, ← eL, (pL.year _).1]
      have y1L := point_year_le pL p1 (by omega)
      have ey : y1 + -1 + 1 = y1 := by omega
      have l2 := doYears_down (y1 + -1) yL (Bwd .basic true (number365 yt mt dt) (leapsBefore yt mt) (leapsBefore y2 m2) tod)
        (leapYear .basic true (-1) (enc .basic (jd y2 m2 d2) tod2))
        (fun c v h1 h2 h => step c v (by simp only [okYear]; omega) h)
        v (by rw [ey]; exact ⟨nd, by rw [td]; simp⟩) (by omega)
      have cover : leaps yL ≤ leapsBefore yt mt := by
        by_cases c : leaps yL ≤ leapsBefore yt mt
        · exact c
        · have af := before_year he nt h0 yL pL.nonneg (by omega)
          have bl := p1.year_bounds
          have bL := pL.year_bounds
          have m1 := leaps_mono yL y1 pL.nonneg (by omega)
          have m2 := leaps_small (y2 + 1) (by have := p2.nonneg; omega) (by have := p2.high; omega)
          have m3 := leaps_small y1 p1.nonneg (by have := p1.high; omega)
          omega
      rw [l2.1]
      omega
    · have bad : true2print .basic v.tdate1L = none := by
        rw [td]
        show tdToPrint _ = none
        unfold tdToPrint
        rw [if_pos]
        unfold validtd enc base dayUnits
        simp only [jd1980, td1900]
        omega
      rw [bad]
      have y1d := (date_fields p1.ex p1.nonneg).1
      obtain ⟨pt', ep⟩ := dec p1.ex p1.low p1.high p1.tod
      rw [ep]
      simp only [Option.map_none, Option.getD_none, Option.map_some, Option.getD_some, y1d]
      rw [doYears_down_empty _ _ (by omega)]
      simp only [List.foldl_nil]
      omega
  · exfalso
    have hy : y1 = y2 := by omega
    subst hy
    have hm : m1 = m2 := by
      have := point_month_le p1 p2 (by omega)
      omega
    subst hm
    have same : leapsBefore yt mt = leapsBefore y1 m1 := by
      by_cases c : leapsBefore yt mt = leapsBefore y1 m1
      · exact c
      · exfalso
        have j1 := jd_split p1.ex p1.nonneg
        have hN1 : number365 y1 m1 d1 = number365 yt mt dt := by omega
        have : ¬ (m1 = 2 ∧ d1 = 29) := by
          intro h
          have e := p2.ex.2.2.2
          have l := (monthLen_le y1 m1)
          simp only at e
          have q2 : number365 y1 m1 d2 = number365 y1 m1 d1 + (d2 - d1) := by unfold number365; omega
          have : monthLen y1 m1 ≤ 29 := by
            rw [h.1]; unfold monthLen; simp only [if_true]; split <;> omega
          exact n2 ⟨h.1, by omega⟩
        have := leapsBefore_mono p1.ex this p1.nonneg he nt h0 (by omega)
        omega
    omega

end Verif.Date
