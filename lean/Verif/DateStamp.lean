import Verif.DateCcclx
/-!
# What a stamp stands for
-/
namespace Verif.Date

/-- The stamp prints as the moment. -/
def Shows (stamp : Int) (t : Moment) : Prop := stampToPrint stamp = some (t.date, t.time)

instance (s : Int) (t : Moment) : Decidable (Shows s t) := by unfold Shows; infer_instance

/-- Five second intervals since the start of the day. -/
def Moment.tod (t : Moment) : Int := t.h * 720 + (t.mi * 60 + t.s) / 5

theorem Moment.td_enc (t : Moment) : t.td = enc .basic (jd t.y t.m t.d) t.tod := by
  unfold Moment.td Moment.tod enc base dayUnits; simp only; omega

theorem Moment.tod_range (t : Moment) (h : t.Valid) : 0 ≤ t.tod ∧ t.tod < 17280 := by
  obtain ⟨_, a⟩ := h
  unfold Moment.tod; omega

theorem unpack {y m d a : Int} {t : Moment} (he : (⟨y, m, d⟩ : Day).Exists) (ht : t.Valid)
    (h : some (y * 10000 + m * 100 + d, a) = some (t.date, t.time)) :
    y = t.y ∧ m = t.m ∧ d = t.d ∧ a = t.time := by
  rw [Option.some.injEq, Prod.mk.injEq] at h
  have a := exists_le31 he
  have b := exists_le31 (y := t.y) (m := t.m) (d := t.d) ht.1
  have e := h.1
  unfold Moment.date at e
  refine ⟨by omega, by omega, by omega, h.2⟩

theorem not_shows_minus_one (t : Moment) : ¬ Shows (-1) t := by
  unfold Shows
  have : stampToPrint (-1) = none := by decide
  rw [this]; simp

theorem shows_basic {st : Int} {t : Moment} (h : -1 ≤ st) (hs : Shows st t) (ht : t.Valid) :
    1900 ≤ t.y ∧ t.y ≤ 2235 ∧ (t.y < 1980 → t.mi = 0 ∧ t.s = 0) ∧ t.s % 5 = 0 ∧
      ∃ run, stampToTd st = some (t.td, run) ∧ 0 ≤ run ∧ run ≤ 9 := by
  have hm : st ≠ -1 := fun h => not_shows_minus_one t (h ▸ hs)
  unfold Shows at hs
  have htr := ht.2
  by_cases c : st ≥ tdstart
  · have hb : 0 ≤ st - tdstart := by omega
    have hp : 0 ≤ tdOf (st - tdstart) := by
      unfold tdOf; rw [tdiv_pos _ _ hb, tmod_pos _ _ hb]; omega
    have e1 : stampToPrint st = stampToPrint (newStamp (tdOf (st - tdstart))) := by
      have n := newStamp_ge _ hp
      have e2 := tdOf_newStamp _ hp
      unfold stampToPrint
      have c1 : ¬ st < -1 := by omega
      have c2 : ¬ newStamp (tdOf (st - tdstart)) < -1 := by
        have : tdstart = 123200000 := rfl
        omega
      rw [if_neg c1, if_pos c, if_neg c2, if_pos n, e2]
    have e3 : stampToTd st = some (tdOf (st - tdstart), 0) := by
      unfold stampToTd
      rw [if_pos c]
      simp only
      rw [if_neg (not_not_intro (validtd_pos _ hp))]
    rw [e1] at hs
    rw [e3]
    generalize tdOf (st - tdstart) = td at *
    obtain ⟨y, m, d, tod, he, hy, t0, t1, e⟩ := td_exists td (by simp only [td1900]; omega)
    have y1980 : 1980 ≤ y := by
      by_cases c : 1980 ≤ y
      · exact c
      · have := jd_lt1980 he (by omega) (by omega)
        simp only [jd1980] at e; omega
    by_cases y2236 : y < 2236
    · rw [e, stampToPrint_new he ⟨y1980, y2236⟩ ⟨t0, t1⟩] at hs
      obtain ⟨a1, a2, a3, a4⟩ := unpack he ht hs
      unfold Moment.time at a4
      have a5 : tod / 720 = t.h ∧ tod % 720 / 12 = t.mi ∧ tod % 720 % 12 * 5 = t.s := by omega
      refine ⟨by omega, by omega, by omega, by omega, 0, ?_, by omega, by omega⟩
      rw [Option.some.injEq, Prod.mk.injEq]
      refine ⟨?_, rfl⟩
      rw [e, a1, a2, a3]
      unfold Moment.td
      omega
    · exfalso
      unfold stampToPrint at hs
      rw [if_neg (by have := newStamp_ge _ hp; simp only [tdstart] at *; omega), if_pos (newStamp_ge _ hp),
        tdOf_newStamp _ hp] at hs
      obtain ⟨s1, s2⟩ := td_split (jd y m d) tod (jd_ge he hy) ⟨t0, t1⟩
      rw [e] at hs
      simp only [s1, datec_jd y m d he (by omega)] at hs
      rw [if_pos (by unfold validtm; omega)] at hs
      exact absurd hs (by simp)
  · unfold stampToPrint at hs
    rw [if_neg (by omega), if_neg c] at hs
    unfold stampToTd
    rw [if_neg c, if_neg (by omega)]
    simp only at hs ⊢
    have y99 : ∀ x : Int, -1 ≤ x → x ÷ 1000 mod 100 + 1900 < 2000 := by
      intro x hx
      rcases (by omega : x = -1 ∨ 0 ≤ x) with h | h
      · subst h; decide
      · rw [tdiv_pos _ _ h, tmod_pos _ _ (by omega)]; omega
    have y99 := y99 st h
    generalize st ÷ 10 mod 100 = zulu at *
    generalize st ÷ 1000 mod 100 + 1900 = y at *
    generalize st ÷ 100000 mod 100 = d at *
    generalize st ÷ 10000000 mod 100 = m at *
    by_cases v : validtm y m d zulu
    · rw [if_neg (not_not_intro v)] at hs
      by_cases b : badFeb y m d
      · rw [if_pos b] at hs; exact absurd hs (by simp)
      · rw [if_neg b] at hs
        unfold validtm at v
        have he := exists_of (by omega) (by omega) (by omega) v.2.2.2.1 b
        obtain ⟨a1, a2, a3, a4⟩ := unpack he ht hs
        unfold Moment.time at a4
        have a5 : zulu = t.h ∧ t.mi = 0 ∧ t.s = 0 := by omega
        refine ⟨by omega, by omega, by omega, by omega, st mod 10, ?_, by rw [tmod_pos _ _ (by omega)]; omega,
          by rw [tmod_pos _ _ (by omega)]; omega⟩
        have j := jd_ge he (by omega)
        have hv : validtd ((jd y m d - jd1980) * 17280 + zulu * 720) := by
          unfold validtd
          by_cases p : (jd y m d - jd1980) * 17280 + zulu * 720 ≥ 0
          · exact Or.inl p
          · refine Or.inr ⟨by omega, ?_, ?_⟩
            · simp only [td1900, jd1980]; omega
            · rw [tmod_pos _ _ (by simp only [td1900, jd1980]; omega)]; simp only [td1900, jd1980]; omega
        rw [if_neg (not_not_intro hv), Option.some.injEq, Prod.mk.injEq]
        refine ⟨?_, rfl⟩
        unfold Moment.td
        rw [a5.2.1, a5.2.2, ← a5.1, ← a1, ← a2, ← a3]; omega
    · rw [if_pos v] at hs; exact absurd hs (by simp)

theorem shows_ext {st : Int} {t : Moment} (h : st < -1) (hs : Shows st t) (ht : t.Valid) :
    0 ≤ t.y ∧ t.y < 10000 ∧ t.mi = 0 ∧ t.s = 0 ∧ stampToExtTd st = some (hours t.y t.m t.d t.h, 0) := by
  unfold Shows stampToPrint at hs
  rw [if_pos h] at hs
  unfold extStampToPrint at hs
  unfold stampToExtTd
  rw [if_pos h]
  have htr := ht.2
  simp only at hs ⊢
  by_cases c : unsigned32 st < troisg ∨ unsigned32 st ≥ troisg + max_offset
  · rw [if_pos c] at hs; exact absurd hs (by simp)
  · rw [if_neg c] at hs
    rw [if_neg (by omega)]
    have b0 : 0 ≤ unsigned32 st - troisg := by omega
    have b1 : unsigned32 st - troisg < max_offset := by omega
    generalize unsigned32 st - troisg = b at *
    have hp : 0 ≤ tdOf b ∧ tdOf b < 87658202 := by
      unfold tdOf; rw [tdiv_pos _ _ b0, tmod_pos _ _ b0]; simp only [max_offset] at b1; omega
    generalize tdOf b = e at *
    by_cases q : e < 87658200
    · obtain ⟨y, m, d, z, he, hy, hz, rfl⟩ := hours_exists e hp.1 q
      obtain ⟨s1, s2⟩ := hours_split he hy.1 hz
      rw [s1, s2, datec_jd y m d he (by omega)] at hs
      simp only at hs
      rw [if_neg (not_not_intro (validtme_of he hy hz)), if_neg (exists_mdays he hy.1).2] at hs
      obtain ⟨a1, a2, a3, a4⟩ := unpack he ht hs
      unfold Moment.time at a4
      have a5 : z = t.h ∧ t.mi = 0 ∧ t.s = 0 := by omega
      rw [← a1, ← a2, ← a3, ← a5.1]
      exact ⟨hy.1, hy.2, a5.2.1, a5.2.2, rfl⟩
    · exfalso
      have e1 : jd0 + e ÷ 24 = 5373485 := by rw [tdiv_pos _ _ hp.1]; simp only [jd0]; omega
      have e2 : datec 5373485 = (10000, 1, 1) := by decide +kernel
      rw [e1, e2] at hs
      simp only at hs
      rw [if_pos (by unfold validtme; omega)] at hs
      exact absurd hs (by simp)

/-- Mode -6 gives a stamp of the moment. -/
theorem shows_extTd {t : Moment} (ht : t.Valid) (h0 : 0 ≤ t.y) (h1 : t.y < 10000) (hm : t.mi = 0) (hs : t.s = 0) :
    Shows ((extTdToStamp (hours t.y t.m t.d t.h)).getD badStamp) t := by
  have he : (⟨t.y, t.m, t.d⟩ : Day).Exists := ht.1
  have hh : 0 ≤ t.h ∧ t.h ≤ 23 := ⟨ht.2.1, ht.2.2.1⟩
  rw [extTdToStamp_eq he ⟨h0, h1⟩ hh]
  unfold Shows
  have et : t.time = t.h * 1000000 := by unfold Moment.time; omega
  rw [et]
  by_cases c : (t.y = 1901 ∧ t.m = 1 ∧ t.d = 1 ∧ t.h = 1) ∨ t.y < 1900 ∨ t.y ≥ 2236
  · rw [if_pos c, Option.getD_some]
    have r := hours_range he ⟨h0, h1⟩ hh
    unfold stampToPrint
    rw [if_pos (extStamp_unsigned _ r.1 r.2).1]
    exact extStampToPrint_eq he ⟨h0, h1⟩ hh
  · rw [if_neg c]
    by_cases c2 : t.y ≥ 2000
    · rw [if_pos c2, Option.getD_some, stampToPrint_new he ⟨by omega, by omega⟩ (by omega)]
      rw [Option.some.injEq, Prod.mk.injEq]
      refine ⟨rfl, by omega⟩
    · rw [if_neg c2, Option.getD_some]
      have := stampToPrint_old (run := 0) he ⟨by omega, by omega⟩ hh (by omega)
      rw [Int.add_zero] at this
      exact this

/-- Mode -1 gives a stamp of the moment. -/
theorem shows_td {t : Moment} (ht : t.Valid) (h0 : 1900 ≤ t.y) (h1 : t.y < 2236)
    (h80 : t.y < 1980 → t.mi = 0 ∧ t.s = 0) (h5 : t.s % 5 = 0) {run : Int}
    (hrun : 0 ≤ run ∧ run ≤ 9) : Shows ((tdToStamp t.td run).getD badStamp) t := by
  have he : (⟨t.y, t.m, t.d⟩ : Day).Exists := ht.1
  have hr := ht.2
  have tr := t.tod_range ht
  have e : t.td = (jd t.y t.m t.d - jd1980) * 17280 + t.tod := t.td_enc
  rw [e, tdToStamp_eq he h0 tr (by intro c; unfold Moment.tod; have := h80 c; omega) (by omega)]
  unfold Shows
  by_cases c : t.y ≥ 2000 ∨ t.tod % 720 ≠ 0
  · have c80 : 1980 ≤ t.y := by
      by_cases q : 1980 ≤ t.y
      · exact q
      · have := h80 (by omega)
        unfold Moment.tod at c; omega
    rw [if_pos c, Option.getD_some, stampToPrint_new he ⟨c80, h1⟩ tr, Option.some.injEq, Prod.mk.injEq]
    refine ⟨rfl, ?_⟩
    unfold Moment.time Moment.tod; omega
  · rw [if_neg c, Option.getD_some]
    have q : t.tod / 720 = t.h ∧ t.mi = 0 ∧ t.s = 0 := by unfold Moment.tod at *; omega
    have := stampToPrint_old (run := run) he ⟨h0, by omega⟩ (h := t.h) (by omega) (by omega)
    rw [q.1, this, Option.some.injEq, Prod.mk.injEq]
    refine ⟨rfl, ?_⟩
    unfold Moment.time; omega

end Verif.Date
