import Verif.XdfGrow
/-! `c_xdfput` keeps the invariant and does what its specification says. -/

namespace Verif.Xdf

/-- The page-adding part of `putEnd`. -/
def added (m : Mem) (last : Page) (res3 : W) (junk : List Entry) : Option (Mem × List Write × Code) :=
  if last.nent ≥ perPage then
    addDirPage { m with pages := m.pages.set (m.pages.length - 1) { last with modified := true } }
      res3 junk
  else some (m, [], .ok)

theorem putEnd_eq (m : Mem) (data : List W) (old : Option (Nat × Nat)) (res3 : W)
    (junk : List Entry) (last : Page) (hl : m.pages.getLast? = some last) :
    putEnd m data old res3 junk =
      match added m last res3 junk with
      | none => none
      | some (m1, ws1, .ok) =>
        match m1.pages.getLast? with
        | none => none
        | some pg =>
          let p := m1.pages.length - 1
          let slot := pg.nent
          let m2 := { m1 with pages := m1.pages.set p { pg with nent := pg.nent + 1 } }
          let writeAddr := m2.nxtadr
          match old with
          | none =>
            match finishPut m2 p slot writeAddr data true false with
            | none => none
            | some (m4, ws, c) => some (m4, ws1 ++ ws, c)
          | some (op, or) =>
            match del m2 op or with
            | none => none
            | some (m3, _, .ok) =>
              match finishPut m3 p slot writeAddr data true true with
              | none => none
              | some (m4, ws, c) => some (m4, ws1 ++ ws, c)
            | some (m3, _, c) => some (m3, ws1, c)
      | some (m1, ws1, c) => some (m1, ws1, c) := by
  unfold putEnd
  rw [hl]
  rfl

/-- Largest number of directory slots. -/
abbrev maxSlots : Nat := 262144

theorem set_append_last (s : List Slot) (a b : Slot) : (s ++ [a]).set s.length b = s ++ [b] := by
  simp

/-- Taking a slot. -/
theorem Inv.take {own : Own} {m : Mem} {d : Disk} {s : List Slot} (h : Inv own m d s)
    (hrd : m.hdr.rwflg ≠ RDMODE) {res3 : W} {junk : List Entry} (hj : ValidJunk m.width junk)
    {last : Page} (hl : m.pages.getLast? = some last) :
    (s.length = maxSlots ∧ ∃ m1, added m last res3 junk = some (m1, [], .dirFull) ∧ Inv own m1 d s ∧
      Ext own m own m1) ∨
    (s.length < maxSlots ∧ added m last res3 junk = none ∧
      2 ^ 30 ≤ m.hdr.fsiz + pageLng m.hdr.lprm) ∨
    (s.length < maxSlots ∧ ∃ m1 ws1 pg own', added m last res3 junk = some (m1, ws1, .ok) ∧
      m1.pages.getLast? = some pg ∧ pg.nent < 256 ∧
      s.length = 256 * (m1.pages.length - 1) + pg.nent ∧
      Inv own' { m1 with pages := m1.pages.set (m1.pages.length - 1) { pg with nent := pg.nent + 1 } }
        (apply d ws1) (s ++ [.pending]) ∧ Ext own m own' m1 ∧
      m1.hdr.fsiz ≤ m.hdr.fsiz + pageLng m.hdr.lprm ∧ ∀ w ∈ ws1, 2 * m.hdr.fsiz ≤ w.1) := by
  obtain ⟨hln, hle⟩ := h.last_nent hl
  have hnp := h.np1
  have hM := h.npM
  have hna := h.nxtadr
  simp only [maxPages] at hM
  by_cases hfull : last.nent ≥ perPage
  · simp only [perPage] at hfull
    unfold added
    rw [if_pos (by simpa using hfull)]
    unfold addDirPage
    simp only [List.length_set]
    by_cases hmax : m.pages.length ≥ maxPages
    · rw [if_pos hmax]
      left
      simp only [maxPages] at hmax
      refine ⟨by simp only [maxSlots]; omega, _, rfl, h.mark hl, ⟨Nat.le_refl _, fun _ _ => rfl, rfl, rfl, rfl⟩⟩
    · rw [if_neg hmax]
      right
      have hlt : s.length < maxSlots := by simp only [maxPages] at hmax; simp only [maxSlots]; omega
      have hgl : (m.pages.set (m.pages.length - 1) { last with modified := true }).getLast? =
          some { last with modified := true } := by
        rw [getLast?_getElem?, List.length_set, List.getElem?_set_self (by omega)]
      rw [hgl]
      simp only [List.set_set]
      have hfe : (m.nxtadr + 2 * (perPage * m.hdr.lprm + 4) - 1) / 2 = m.hdr.fsiz + pageLng m.hdr.lprm := by
        simp only [pageLng]; omega
      have hae : (m.nxtadr - 1) / 2 + 1 = m.hdr.fsiz + 1 := by omega
      have hae' : m.nxtadr - 1 = 2 * m.hdr.fsiz := by omega
      rw [hfe]
      by_cases hbig : m.hdr.fsiz + pageLng m.hdr.lprm ≥ 2 ^ 30
      · rw [if_pos hbig]
        left
        exact ⟨hlt, rfl, hbig⟩
      · rw [if_neg hbig]
        right
        refine ⟨hlt, _, _, newPage m 0 res3 junk,
          fun u => if u < m.hdr.fsiz then own u else .page m.pages.length, rfl, ?_, ?_, ?_, ?_, ?_,
          Nat.le_refl _, ?_⟩
        · rw [List.getLast?_append]; simp [newPage]
        · simp [newPage]
        · simp [newPage]; omega
        · have := h.grow_page hl hfull (by omega) hrd (res3 := res3) hj
            (fsiz' := m.hdr.fsiz + pageLng m.hdr.lprm)
            (nxt' := m.nxtadr + 2 * (perPage * m.hdr.lprm + 4)) rfl
            (by simp only [pageLng]; omega) (by omega) (BitVec.ofNat 32 ((m.nxtadr - 1) / 2 + 1))
          simp only [apply, List.foldl_cons, List.foldl_nil, hae']
          rw [List.set_append_right _ _ (by simp)]
          simp only [List.length_append, List.length_set, List.length_singleton, Nat.add_sub_cancel,
            Nat.sub_self, List.set_cons_zero]
          have hae2 : 2 * m.hdr.fsiz / 2 = m.hdr.fsiz := by omega
          simp only [newPage, hae', hae2] at this ⊢
          exact this
        · exact ⟨Nat.le_add_right _ _, fun u hu => by simp [hu], rfl, rfl, rfl⟩
        · intro w hw
          simp only [List.mem_singleton] at hw
          subst hw
          simp only
          omega
  · simp only [perPage] at hfull
    right; right
    refine ⟨by simp only [maxSlots]; omega, m, [], last, own, ?_, hl, by omega, hln,
      h.grow_same hl (by omega), Ext.refl _ _, Nat.le_add_right _ _, by simp⟩
    unfold added
    rw [if_neg (by simpa using hfull)]

/-- What an operation may have done to the disk: only writes at or after the old end. -/
def AtEnd (f : Nat) (ws : List Write) : Prop := ∀ w ∈ ws, 2 * f ≤ w.1

theorem apply_append (d : Disk) (u v : List Write) : apply d (u ++ v) = apply (apply d u) v := by
  simp [apply]

/-- Appending a record. -/
theorem putEnd_append {own : Own} {m : Mem} {d : Disk} {s : List Slot} (h : Inv own m d s)
    {data : List W} (hv : ValidData m.width data) (hev : data.length % 2 = 0)
    (hrd : m.hdr.rwflg ≠ RDMODE) {res3 : W} {junk : List Entry} (hj : ValidJunk m.width junk) :
    (s.length = maxSlots ∧ ∃ m1, putEnd m data none res3 junk = some (m1, [], .dirFull) ∧
      Inv own m1 d s ∧ Ext own m own m1) ∨
    (s.length < maxSlots ∧ putEnd m data none res3 junk = none ∧
      2 ^ 30 ≤ m.hdr.fsiz + pageLng m.hdr.lprm + data.length / 2) ∨
    (s.length < maxSlots ∧ ∃ m1 ws own', putEnd m data none res3 junk = some (m1, ws, .ok) ∧
      Inv own' m1 (apply d ws) (s ++ [slotOf data]) ∧ Ext own m own' m1 ∧ AtEnd m.hdr.fsiz ws) := by
  obtain ⟨last, hl⟩ : ∃ last, m.pages.getLast? = some last := by
    cases hc : m.pages.getLast? with
    | none => have := h.np1; rw [List.getLast?_eq_none_iff] at hc; simp [hc] at this
    | some l => exact ⟨l, rfl⟩
  rw [putEnd_eq _ _ _ _ _ _ hl]
  rcases h.take hrd (res3 := res3) hj hl with ⟨hs, m1, ha, hi, hx⟩ | ⟨hs, ha, hb⟩ |
    ⟨hs, m1, ws1, pg, own', ha, hg, hn, hln, hi, hx, hfz, hw⟩
  · left; rw [ha]; exact ⟨hs, m1, rfl, hi, hx⟩
  · right; left; rw [ha]; exact ⟨hs, rfl, by omega⟩
  · right
    rw [ha]
    simp only [hg]
    have hpend : (s ++ [Slot.pending])[256 * (m1.pages.length - 1) + pg.nent]? = some .pending := by
      rw [← hln]; simp
    have hwid : (({ m1 with
        pages := (m1.pages.set (m1.pages.length - 1) ({ pg with nent := pg.nent + 1 })) } : Mem)).width =
          m.width := by
      simp [Mem.width, hx.lprm]
    cases hf : finishPut
        { m1 with pages := (m1.pages.set (m1.pages.length - 1) ({ pg with nent := pg.nent + 1 })) }
        (m1.pages.length - 1) pg.nent m1.nxtadr data true false with
    | none =>
      left
      refine ⟨hs, rfl, ?_⟩
      rw [finishPut_eq] at hf
      split at hf
      · rename_i hge
        rw [(putHdr_props _ _ _ _).1] at hge
        simp only [if_true] at hge
        omega
      · simp at hf
    | some x =>
      obtain ⟨m4, ws, c⟩ := x
      right
      obtain ⟨hc, hws, own2, hi2, hx2⟩ := finishPut_end hi (by rw [hwid]; exact hv) hev hn hpend
        (by simp only; rw [hx.rwflg]; exact hrd) hf
      subst hc
      refine ⟨hs, m4, ws1 ++ ws, own2, rfl, ?_, ?_, ?_⟩
      · rw [apply_append]
        rw [← hln, set_append_last] at hi2
        exact hi2
      · exact hx.trans ⟨hx2.fs, hx2.own, hx2.lprm, hx2.lng, hx2.rwflg⟩
      · intro w hw'
        rcases List.mem_append.1 hw' with hw' | hw'
        · exact hw w hw'
        · rw [hws, List.mem_singleton] at hw'
          subst hw'
          have := hx.fs
          simp only
          omega

/-- Replacing a record by one written at the end. -/
theorem putEnd_replace {own : Own} {m : Mem} {d : Disk} {s : List Slot} (h : Inv own m d s)
    {data : List W} (hv : ValidData m.width data) (hev : data.length % 2 = 0)
    (hrd : m.hdr.rwflg ≠ RDMODE) (hap : m.hdr.rwflg ≠ APPEND) {res3 : W} {junk : List Entry}
    (hj : ValidJunk m.width junk) {p r t : Nat} {pl : List W} (hr : r < 256)
    (hsl : s[256 * p + r]? = some (.live t pl)) :
    (s.length = maxSlots ∧ ∃ m1, putEnd m data (some (p, r)) res3 junk = some (m1, [], .dirFull) ∧
      Inv own m1 d s ∧ Ext own m own m1) ∨
    (s.length < maxSlots ∧ putEnd m data (some (p, r)) res3 junk = none ∧
      2 ^ 30 ≤ m.hdr.fsiz + pageLng m.hdr.lprm + data.length / 2) ∨
    (s.length < maxSlots ∧ ∃ m1 ws own', putEnd m data (some (p, r)) res3 junk = some (m1, ws, .ok) ∧
      Inv own' m1 (apply d ws) (s.set (256 * p + r) .dead ++ [slotOf data]) ∧ Ext own m own' m1 ∧
      AtEnd m.hdr.fsiz ws) := by
  obtain ⟨last, hl⟩ : ∃ last, m.pages.getLast? = some last := by
    cases hc : m.pages.getLast? with
    | none => have := h.np1; rw [List.getLast?_eq_none_iff] at hc; simp [hc] at this
    | some l => exact ⟨l, rfl⟩
  have hlt : 256 * p + r < s.length := (List.getElem?_eq_some_iff.1 hsl).1
  rw [putEnd_eq _ _ _ _ _ _ hl]
  rcases h.take hrd (res3 := res3) hj hl with ⟨hs, m1, ha, hi, hx⟩ | ⟨hs, ha, hb⟩ |
    ⟨hs, m1, ws1, pg, own', ha, hg, hn, hln, hi, hx, hfz, hw⟩
  · left; rw [ha]; exact ⟨hs, m1, rfl, hi, hx⟩
  · right; left; rw [ha]; exact ⟨hs, rfl, by omega⟩
  · right
    rw [ha]
    simp only [hg]
    have hsl2 : (s ++ [Slot.pending])[256 * p + r]? = some (.live t pl) := by
      rw [List.getElem?_append_left hlt]; exact hsl
    obtain ⟨m3, hdel, hi3, hx3, hlen3, hfs3, -, hna3⟩ := del_live hi hr hsl2
      (by simp only; rw [hx.rwflg]; exact hrd) (by simp only; rw [hx.rwflg]; exact hap)
    rw [hdel]
    simp only
    simp only [List.length_set] at hlen3
    have hset : (s ++ [Slot.pending]).set (256 * p + r) .dead =
        s.set (256 * p + r) .dead ++ [.pending] := by
      rw [List.set_append_left _ _ hlt]
    rw [hset] at hi3
    have hpend : (s.set (256 * p + r) .dead ++ [Slot.pending])[256 * (m1.pages.length - 1) + pg.nent]? =
        some .pending := by
      rw [← hln, List.getElem?_append_right (by simp)]; simp
    have hwid : m3.width = m.width := by
      have := hx3.lprm
      simp only at this
      simp [Mem.width, this, hx.lprm]
    have hna3' : m1.nxtadr = m3.nxtadr := hna3.symm
    rw [hna3']
    cases hf : finishPut m3 (m1.pages.length - 1) pg.nent m3.nxtadr data true true with
    | none =>
      left
      refine ⟨hs, rfl, ?_⟩
      rw [finishPut_eq] at hf
      split at hf
      · rename_i hge
        rw [(putHdr_props _ _ _ _).1] at hge
        simp only [if_true] at hge
        simp only at hfs3
        omega
      · simp at hf
    | some x =>
      obtain ⟨m4, ws, c⟩ := x
      right
      obtain ⟨hc, hws, own2, hi2, hx2⟩ := finishPut_end hi3 (by rw [hwid]; exact hv) hev hn hpend
        (by rw [hx3.rwflg]; simp only; rw [hx.rwflg]; exact hrd) hf
      subst hc
      refine ⟨hs, m4, ws1 ++ ws, own2, rfl, ?_, ?_, ?_⟩
      · rw [apply_append]
        have : s.length = (s.set (256 * p + r) Slot.dead).length := by simp
        rw [← hln, this, set_append_last] at hi2
        exact hi2
      · exact (hx.trans ⟨hx3.fs, hx3.own, hx3.lprm, hx3.lng, hx3.rwflg⟩).trans hx2
      · intro w hw'
        rcases List.mem_append.1 hw' with hw' | hw'
        · exact hw w hw'
        · rw [hws, List.mem_singleton] at hw'
          subst hw'
          have h1 := hx.fs
          have h2 := hx3.fs
          simp only at h2 ⊢
          omega

end Verif.Xdf
