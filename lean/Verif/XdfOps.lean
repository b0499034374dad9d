import Verif.XdfInv
/-! Preservation of the invariant by deletion and by the two ends of `c_xdfput`. -/

namespace Verif.Xdf

/-- The slot a record buffer stands for. -/
def idtypOf (data : List W) : Nat := ((data.getD 0 0#32).extractLsb' 24 8).toNat

def slotOf (data : List W) : Slot := .live (idtypOf data) (data.drop 2)

/-- A record buffer as prepared by the callers of `c_xdfput`: holds its keys, fits the 24-bit
length, carries an ordinary record type. -/
structure ValidData (width : Nat) (data : List W) : Prop where
  keys : width ≤ data.length
  big : data.length / 2 < 2 ^ 24
  t1 : 1 ≤ idtypOf data
  t2 : idtypOf data ≤ 125

/-- Facts kept by every operation. -/
structure Ext (own : Own) (m : Mem) (own' : Own) (m' : Mem) : Prop where
  fs : m.hdr.fsiz ≤ m'.hdr.fsiz
  own : ∀ u, u < m.hdr.fsiz → own' u = own u
  lprm : m'.hdr.lprm = m.hdr.lprm
  lng : m'.hdr.lng = m.hdr.lng
  rwflg : m'.hdr.rwflg = m.hdr.rwflg

theorem Ext.refl (own : Own) (m : Mem) : Ext own m own m := ⟨Nat.le_refl _, fun _ _ => rfl, rfl, rfl, rfl⟩

theorem Ext.trans {o1 o2 o3 : Own} {m1 m2 m3 : Mem} (h1 : Ext o1 m1 o2 m2) (h2 : Ext o2 m2 o3 m3) :
    Ext o1 m1 o3 m3 :=
  ⟨Nat.le_trans h1.fs h2.fs,
   fun u hu => (h2.own u (Nat.lt_of_lt_of_le hu h1.fs)).trans (h1.own u hu),
   h2.lprm.trans h1.lprm, h2.lng.trans h1.lng, h2.rwflg.trans h1.rwflg⟩

theorem writeAt_nil (d : Disk) : writeAt d 0 [] = d := by simp [writeAt]

theorem countP_set_live {s : List Slot} {i : Nat} {a : Slot} (hi : s[i]? = some a)
    (ha : a.isLive = false) {b : Slot} (hb : b.isLive = true) :
    (s.set i b).countP Slot.isLive = s.countP Slot.isLive + 1 := by
  obtain ⟨h1, h2⟩ := List.getElem?_eq_some_iff.1 hi
  rw [List.countP_set h1, h2, ha, hb]; simp

theorem countP_set_dead {s : List Slot} {i : Nat} {a : Slot} (hi : s[i]? = some a)
    (ha : a.isLive = true) {b : Slot} (hb : b.isLive = false) :
    (s.set i b).countP Slot.isLive + 1 = s.countP Slot.isLive := by
  obtain ⟨h1, h2⟩ := List.getElem?_eq_some_iff.1 hi
  have : 0 < s.countP Slot.isLive := List.countP_pos_iff.2 ⟨a, by rw [← h2]; exact List.getElem_mem h1, ha⟩
  rw [List.countP_set h1, h2, ha, hb]; simp; omega

theorem Inv.count_lt {own : Own} {m : Mem} {d : Disk} {s : List Slot} (h : Inv own m d s) :
    s.countP Slot.isLive ≤ 2 ^ 18 := by
  have h1 := List.countP_le_length (p := Slot.isLive) (l := s)
  have h2 := h.slen
  have h3 := h.npM
  simp only [maxPages] at h3
  omega

theorem locate_eq {own : Own} {m : Mem} {d : Disk} {s : List Slot} (_h : Inv own m d s) {p r : Nat}
    {pg : Page} {e : Entry} (hp : m.pages[p]? = some pg) (he : pg.entries[r]? = some e)
    (hr : r < pg.nent) : locate m p r = .ok (some (pg, e)) := by
  simp [locate, hp, he]; omega

theorem live_not_deleted : ∀ t : Nat, t ≤ 125 → ((t &&& 0x7E) == 0x7E) = false := by
  decide

/-- `c_xdfdel` on the handle of a slot. -/
theorem del_live {own : Own} {m : Mem} {d : Disk} {s : List Slot} (h : Inv own m d s) {p r t : Nat}
    {pl : List W} (hr : r < 256) (hs : s[256 * p + r]? = some (.live t pl))
    (hm : m.hdr.rwflg ≠ RDMODE) (hm2 : m.hdr.rwflg ≠ APPEND) :
    ∃ m', del m p r = some (m', [], .ok) ∧ Inv own m' d (s.set (256 * p + r) .dead) ∧
      Ext own m own m' ∧ m'.pages.length = m.pages.length ∧ m'.hdr.fsiz = m.hdr.fsiz ∧
      (∀ pg e, m.pages[p]? = some pg → pg.entries[r]? = some e →
        m'.pages[p]? = some { pg with entries := pg.entries.set r { e with idtyp := 254 },
                                      modified := true }) ∧
      m'.nxtadr = m.nxtadr := by
  obtain ⟨pg, e, hp, he, hn, hso, heok⟩ := h.slot hr hs
  obtain ⟨⟨h1, h2, h3, h4, h5, h6⟩, hreg⟩ := hso
  have hloc := locate_eq h hp he hn
  have hdel : isDeleted e = false := by simp only [isDeleted, h1]; exact live_not_deleted t h3
  have hi : 256 * p + r < s.length := (List.getElem?_eq_some_iff.1 hs).1
  have hpl : p < m.pages.length := (List.getElem?_eq_some_iff.1 hp).1
  have hcount := countP_set_dead hs (b := .dead) rfl rfl
  have hclt := h.count_lt
  have hnr := h.nrec
  have hset : Xdf.setEntry m.pages p r { e with idtyp := 254 } =
      m.pages.set p { pg with entries := pg.entries.set r { e with idtyp := 254 }, modified := true } := by
    simp [Xdf.setEntry, hp]
  refine ⟨{ m with hdr := { m.hdr with neff := m.hdr.neff + 1#32,
                                       nrec := (m.hdr.nrec + (2 ^ 32 - 1)) % 2 ^ 32 },
                   pages := Xdf.setEntry m.pages p r { e with idtyp := 254 }, modified := true },
    ?_, ?_, ?_, ?_, ?_, ?_, ?_⟩
  · unfold del
    rw [if_neg (by simp only [not_or]; exact ⟨hm, hm2⟩), hloc]
    simp only
    rw [if_neg (by omega), hdel]
    simp
  · have := h.setEntry (own' := own) hp hr hi (e' := { e with idtyp := 254 })
      (hdr' := { m.hdr with neff := m.hdr.neff + 1#32,
                            nrec := (m.hdr.nrec + (2 ^ 32 - 1)) % 2 ^ 32 })
      ⟨by simp, heok.2.1, heok.2.2.1, heok.2.2.2⟩
      ⟨h.hok.idtyp, h.hok.lng, h.hok.fsiz, h.hok.nbd, h.hok.nbig, h.hok.lprm,
        Nat.mod_lt _ (by simp), h.hok.rwflg, h.hok.keys⟩
      rfl rfl rfl rfl rfl hm h.nxtadr (Nat.le_refl _) h.fs (fun _ _ => rfl) (a := 0) (n := 0)
      (ws := []) rfl (fun u _ hu => absurd hu (by omega))
      (by rw [writeAt_nil]; exact h.dl) (sl' := .dead) ⟨Or.inl rfl, hreg⟩ (by simp)
      (by simp only; omega)
    rw [writeAt_nil] at this
    exact this
  · exact ⟨Nat.le_refl _, fun _ _ => rfl, rfl, rfl, rfl⟩
  · simp [hset]
  · rfl
  · intro pg' e' hp' he'
    rw [hp] at hp'; cases hp'
    rw [he] at he'; cases he'
    simp only [hset]
    rw [List.getElem?_set_self hpl]
  · rfl

theorem dead_deleted {e : Entry} (h : e.idtyp = 254 ∨ e.idtyp = 255) :
    e.idtyp ≠ 0 ∧ isDeleted e = true := by
  rcases h with h | h <;> simp [isDeleted, h]

theorem del_dead {own : Own} {m : Mem} {d : Disk} {s : List Slot} (h : Inv own m d s) {p r : Nat}
    (hr : r < 256) (hs : s[256 * p + r]? = some .dead)
    (hm : m.hdr.rwflg ≠ RDMODE) (hm2 : m.hdr.rwflg ≠ APPEND) :
    del m p r = some (m, [], .deleted) := by
  obtain ⟨pg, e, hp, he, hn, hso, heok⟩ := h.slot hr hs
  obtain ⟨h1, h2⟩ := dead_deleted hso.1
  unfold del
  rw [if_neg (by simp only [not_or]; exact ⟨hm, hm2⟩), locate_eq h hp he hn]
  simp [h1, h2]

/-! ## The end of `c_xdfput` -/

def entryOf (width writeAddr : Nat) (data : List W) : Entry :=
  { idtyp := idtypOf data, lng := (data.length / 2) % 2 ^ 24, addr := (writeAddr - 1) / 2 + 1,
    keys := (data.drop 2).take (width - 2) }

def recOf (width writeAddr : Nat) (data : List W) : List W :=
  recWords (idtypOf data) (entryOf width writeAddr data).lng (entryOf width writeAddr data).addr
    (data.drop 2)

theorem recOf_length {width wa : Nat} {data : List W} (h : 2 ≤ data.length) :
    (recOf width wa data).length = data.length := by
  simp [recOf, recWords]; omega

theorem entryOf_ok {width wa : Nat} {data : List W} (hv : ValidData width data) (h2 : 2 ≤ width)
    (hwa : wa < 2 ^ 32) : (entryOf width wa data).Ok width := by
  refine ⟨by have := hv.t2; simp only [entryOf]; omega, Nat.mod_lt _ (by simp), ?_, ?_⟩
  · simp only [entryOf]; omega
  · have := hv.keys; simp [entryOf]; omega

/-- Header after `c_xdfput`. -/
def putHdr (h : Header) (nwords : Nat) (toEnd rew : Bool) : Header :=
  let h := { h with nrec := (h.nrec + 1) % 2 ^ 32 }
  let h := if toEnd then
      { h with nxtn := h.nxtn + 1#32, fsiz := h.fsiz + nwords / 2,
               nbig := if nwords / 2 > h.nbig then nwords / 2 else h.nbig }
    else h
  if rew then { h with nrwr := h.nrwr + 1#32 } else h

theorem finishPut_eq (m : Mem) (p r wa : Nat) (data : List W) (toEnd rew : Bool) :
    finishPut m p r wa data toEnd rew =
      if (putHdr m.hdr data.length toEnd rew).fsiz ≥ 2 ^ 30 then none
      else some ({ hdr := putHdr m.hdr data.length toEnd rew,
                   pages := Xdf.setEntry m.pages p r (entryOf m.width wa data),
                   nxtadr := if toEnd then 2 * (putHdr m.hdr data.length toEnd rew).fsiz + 1
                             else m.nxtadr,
                   modified := true },
                 [(wa - 1, recOf m.width wa data)], .ok) := rfl

theorem putHdr_props (h : Header) (n : Nat) (toEnd rew : Bool) :
    (putHdr h n toEnd rew).fsiz = (if toEnd then h.fsiz + n / 2 else h.fsiz) ∧
    (putHdr h n toEnd rew).nrec = (h.nrec + 1) % 2 ^ 32 ∧
    (putHdr h n toEnd rew).lprm = h.lprm ∧ (putHdr h n toEnd rew).lng = h.lng ∧
    (putHdr h n toEnd rew).vrsn = h.vrsn ∧ (putHdr h n toEnd rew).nbd = h.nbd ∧
    (putHdr h n toEnd rew).rwflg = h.rwflg ∧ (putHdr h n toEnd rew).keys = h.keys ∧
    (putHdr h n toEnd rew).idtyp = h.idtyp ∧
    ((putHdr h n toEnd rew).nbig = h.nbig ∨ (putHdr h n toEnd rew).nbig = n / 2) := by
  cases toEnd <;> cases rew <;> simp [putHdr] <;> omega

theorem putHdr_ok {h : Header} (ok : h.Ok) {n : Nat} (hn : n / 2 < 2 ^ 24) (toEnd rew : Bool)
    (hf : (putHdr h n toEnd rew).fsiz < 2 ^ 30) : (putHdr h n toEnd rew).Ok := by
  obtain ⟨h1, h2, h3, h4, h5, h6, h7, h8, h9, h10⟩ := putHdr_props h n toEnd rew
  refine ⟨by rw [h9]; exact ok.idtyp, by rw [h4]; exact ok.lng, by omega, by rw [h6]; exact ok.nbd,
    ?_, by rw [h3]; exact ok.lprm, by rw [h2]; exact Nat.mod_lt _ (by simp),
    by rw [h7]; exact ok.rwflg, by rw [h8, h4]; exact ok.keys⟩
  have := ok.nbig
  rcases h10 with h | h <;> rw [h] <;> omega

/-- Filling a pending slot at the end of the file. -/
theorem finishPut_end {own : Own} {m m' : Mem} {d : Disk} {s : List Slot} (h : Inv own m d s)
    {p r : Nat} {data : List W} (hv : ValidData m.width data) (hev : data.length % 2 = 0)
    (hr : r < 256) (hs : s[256 * p + r]? = some .pending) (hm : m.hdr.rwflg ≠ RDMODE) {rew : Bool}
    {ws : List Write} {c : Code} (hf : finishPut m p r m.nxtadr data true rew = some (m', ws, c)) :
    c = .ok ∧ ws = [(2 * m.hdr.fsiz, recOf m.width m.nxtadr data)] ∧
    ∃ own', Inv own' m' (apply d ws) (s.set (256 * p + r) (slotOf data)) ∧ Ext own m own' m' := by
  obtain ⟨pg, e, hp, he, hn, -, -⟩ := h.slot hr hs
  have hi : 256 * p + r < s.length := (List.getElem?_eq_some_iff.1 hs).1
  obtain ⟨h1, h2, h3, h4, h5, h6, h7, h8, h9, h10⟩ := putHdr_props m.hdr data.length true rew
  rw [finishPut_eq] at hf
  split at hf
  case isTrue => simp at hf
  case isFalse hfs =>
  have hfs : (putHdr m.hdr data.length true rew).fsiz < 2 ^ 30 := by omega
  simp only [Option.some.injEq, Prod.mk.injEq] at hf
  obtain ⟨rfl, rfl, rfl⟩ := hf
  have hna := h.nxtadr
  have hw2 : 2 ≤ m.width := by have := h.lprm; simp only [Mem.width]; omega
  have hd2 : 2 ≤ data.length := Nat.le_trans hw2 hv.keys
  have hcount := countP_set_live hs (b := slotOf data) rfl rfl
  have hclt := h.count_lt
  have hnr := h.nrec
  have hbig := hv.big
  have hfs0 := h.fs
  have haddr : (entryOf m.width m.nxtadr data).addr = m.hdr.fsiz + 1 := by simp [entryOf]; omega
  have hlng : (entryOf m.width m.nxtadr data).lng = data.length / 2 := by
    simp only [entryOf]; exact Nat.mod_eq_of_lt hbig
  simp only [if_true] at h1
  refine ⟨rfl, by simp [hna], fun u => if u < m.hdr.fsiz then own u else .ent (256 * p + r), ?_, ?_⟩
  · have := h.setEntry (own' := fun u => if u < m.hdr.fsiz then own u else .ent (256 * p + r))
      hp hr hi (e' := entryOf m.width m.nxtadr data) (entryOf_ok hv hw2 (by omega))
      (hdr' := putHdr m.hdr data.length true rew) (putHdr_ok h.hok hv.big true rew hfs)
      h5 h3 h4 h6 h7 hm (nxtadr' := 2 * (putHdr m.hdr data.length true rew).fsiz + 1) rfl
      (by omega) hfs (fun u hu => by simp [hu])
      (a := m.hdr.fsiz) (n := data.length / 2) (ws := recOf m.width m.nxtadr data)
      (by rw [recOf_length hd2]; omega)
      (fun u hu _ => by simp; omega)
      (by rw [writeAt_length, recOf_length hd2, h1]; omega) (sl' := slotOf data) ?_
      (by simp [slotOf]) (by rw [h2]; omega)
    · have he : m.nxtadr - 1 = 2 * m.hdr.fsiz := by omega
      simp only [apply, List.foldl_cons, List.foldl_nil, he, if_true]
      exact this
    · refine ⟨⟨rfl, hv.t1, hv.t2, ?_, rfl, ?_⟩, ?_, ?_, ?_, ?_⟩
      · rw [hlng]; simp; omega
      · rw [haddr]
        have := has_write_self d (2 * m.hdr.fsiz) (recOf m.width m.nxtadr data)
        simp only [recOf, haddr] at this ⊢
        exact this
      · rw [haddr]; omega
      · rw [hlng]; omega
      · rw [haddr, hlng, h1]; omega
      · rw [haddr, hlng]; intro u hu hu2; simp; omega
  · exact ⟨by show _ ≤ (putHdr _ _ _ _).fsiz; omega, fun u hu => by simp [hu], h3, h4, h7⟩

/-- Rewriting a slot in place. -/
theorem finishPut_inplace {own : Own} {m m' : Mem} {d : Disk} {s : List Slot} (h : Inv own m d s)
    {p r : Nat} {data : List W} (hv : ValidData m.width data) (hev : data.length % 2 = 0)
    (hr : r < 256) (hs : s[256 * p + r]? = some .dead) (hm : m.hdr.rwflg ≠ RDMODE) {rew : Bool}
    {pg : Page} {e : Entry} (hp : m.pages[p]? = some pg) (he : pg.entries[r]? = some e)
    (hl : 2 * e.lng = data.length)
    {ws : List Write} {c : Code}
    (hf : finishPut m p r (2 * (e.addr - 1) + 1) data false rew = some (m', ws, c)) :
    c = .ok ∧ ws = [(2 * (e.addr - 1), recOf m.width (2 * (e.addr - 1) + 1) data)] ∧
    Inv own m' (apply d ws) (s.set (256 * p + r) (slotOf data)) ∧ Ext own m own m' ∧
    Region own m.hdr.fsiz (.ent (256 * p + r)) e.addr e.lng := by
  have hso := h.ents p r pg e _ hp he hs
  obtain ⟨-, hreg⟩ := hso
  have hi : 256 * p + r < s.length := (List.getElem?_eq_some_iff.1 hs).1
  obtain ⟨h1, h2, h3, h4, h5, h6, h7, h8, h9, h10⟩ := putHdr_props m.hdr data.length false rew
  rw [finishPut_eq] at hf
  split at hf
  case isTrue => simp at hf
  case isFalse hfs =>
  have hfs : (putHdr m.hdr data.length false rew).fsiz < 2 ^ 30 := by omega
  simp only [Option.some.injEq, Prod.mk.injEq] at hf
  obtain ⟨rfl, rfl, rfl⟩ := hf
  have hna := h.nxtadr
  have hw2 : 2 ≤ m.width := by have := h.lprm; simp only [Mem.width]; omega
  have hd2 : 2 ≤ data.length := Nat.le_trans hw2 hv.keys
  have hcount := countP_set_live hs (b := slotOf data) rfl rfl
  have hclt := h.count_lt
  have hnr := h.nrec
  have hbig := hv.big
  have ha1 := hreg.a1
  have hfit := hreg.fit
  have hfs0 := h.fs
  have haddr : (entryOf m.width (2 * (e.addr - 1) + 1) data).addr = e.addr := by
    simp [entryOf]; omega
  have hlng : (entryOf m.width (2 * (e.addr - 1) + 1) data).lng = e.lng := by
    simp only [entryOf]; rw [Nat.mod_eq_of_lt hbig]; omega
  simp only [Bool.false_eq_true, if_false] at h1
  refine ⟨rfl, by simp, ?_, ?_, hreg⟩
  · have := h.setEntry (own' := own)
      hp hr hi (e' := entryOf m.width (2 * (e.addr - 1) + 1) data) (entryOf_ok hv hw2 (by omega))
      (hdr' := putHdr m.hdr data.length false rew) (putHdr_ok h.hok hv.big false rew hfs)
      h5 h3 h4 h6 h7 hm (nxtadr' := m.nxtadr) (by rw [h1]; exact hna)
      (by omega) hfs (fun u hu => rfl)
      (a := e.addr - 1) (n := e.lng) (ws := recOf m.width (2 * (e.addr - 1) + 1) data)
      (by rw [recOf_length hd2]; omega)
      hreg.own
      (by rw [writeAt_length, h1]; have := h.dl; omega) (sl' := slotOf data) ?_
      (by simp [slotOf]) (by rw [h2]; omega)
    · simp only [apply, List.foldl_cons, List.foldl_nil, Nat.add_sub_cancel, Bool.false_eq_true,
        if_false]
      exact this
    · refine ⟨⟨rfl, hv.t1, hv.t2, ?_, rfl, ?_⟩, ?_⟩
      · rw [hlng]; simp; omega
      · rw [haddr]
        have := has_write_self d (2 * (e.addr - 1)) (recOf m.width (2 * (e.addr - 1) + 1) data)
        simp only [recOf, haddr] at this ⊢
        exact this
      · rw [haddr, hlng, h1]; exact hreg
  · exact ⟨by show _ ≤ (putHdr _ _ _ _).fsiz; omega, fun u hu => rfl, h3, h4, h7⟩

end Verif.Xdf
