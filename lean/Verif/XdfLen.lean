import Verif.XdfHist
/-! The length of a random file is the size held by its header, and the fields of the header that no
operation changes. -/

namespace Verif.Xdf

/-- Writes ending before unit `f`. -/
def Fits (f : Nat) (ws : List Write) : Prop := ∀ w ∈ ws, w.1 + w.2.length ≤ 2 * f

theorem Fits.nil (f : Nat) : Fits f [] := by simp [Fits]

theorem Fits.append {f : Nat} {a b : List Write} (ha : Fits f a) (hb : Fits f b) : Fits f (a ++ b) := by
  intro w hw
  rcases List.mem_append.1 hw with h | h
  · exact ha w h
  · exact hb w h

theorem Fits.mono {f g : Nat} {a : List Write} (ha : Fits f a) (h : f ≤ g) : Fits g a :=
  fun w hw => by have := ha w hw; omega

theorem apply_fits {f : Nat} (ws : List Write) {d : Disk} (hd : d.length ≤ 2 * f) (h : Fits f ws) :
    (apply d ws).length ≤ 2 * f := by
  induction ws generalizing d with
  | nil => exact hd
  | cons w ws ih =>
    show (apply (writeAt d w.1 w.2) ws).length ≤ _
    apply ih
    · rw [writeAt_length]; have := h w (by simp); omega
    · exact fun w' hw' => h w' (by simp [hw'])

/-- The fields of the header no operation changes. -/
def Header.core (h : Header) : Nat × Nat × W × W × W × List W :=
  (h.idtyp, h.lng, h.addr, h.vrsn, h.sign, h.keys)

theorem added_fits {m : Mem} {last : Page} {res3 : W} {junk : List Entry}
    (hn : m.nxtadr = 2 * m.hdr.fsiz + 1) (hf : m.hdr.fsiz < 2 ^ 30)
    (hj : ValidJunk m.width junk) {m1 : Mem} {ws : List Write} {c : Code}
    (h : added m last res3 junk = some (m1, ws, c)) :
    m1.nxtadr = 2 * m1.hdr.fsiz + 1 ∧ m.hdr.fsiz ≤ m1.hdr.fsiz ∧ Fits m1.hdr.fsiz ws ∧
      m1.hdr.core = m.hdr.core ∧ m1.hdr.nrwr = m.hdr.nrwr := by
  unfold added at h
  split at h
  · unfold addDirPage at h
    simp only at h
    split at h
    · simp only [Option.some.injEq, Prod.mk.injEq] at h
      obtain ⟨rfl, rfl, rfl⟩ := h
      exact ⟨hn, Nat.le_refl _, Fits.nil _, rfl, rfl⟩
    · split at h
      · simp at h
      · simp only [Option.some.injEq, Prod.mk.injEq] at h
        obtain ⟨rfl, rfl, rfl⟩ := h
        refine ⟨by simp only; omega, by simp only; omega, ?_, rfl, rfl⟩
        intro w hw
        simp only [List.mem_singleton] at hw
        subst hw
        simp only
        rw [page_words_len (width := m.width) (lprm := m.hdr.lprm) (pg := _) _ rfl]
        · simp only [pageLng]; omega
        · exact ⟨by simp only; omega, by simp, by simp, hj.len, hj.ok⟩
  · simp only [Option.some.injEq, Prod.mk.injEq] at h
    obtain ⟨rfl, rfl, rfl⟩ := h
    exact ⟨hn, Nat.le_refl _, Fits.nil _, rfl, rfl⟩

theorem del_fits {m : Mem} {p r : Nat} {m1 : Mem} {ws : List Write} {c : Code}
    (h : del m p r = some (m1, ws, c)) :
    m1.nxtadr = m.nxtadr ∧ m1.hdr.fsiz = m.hdr.fsiz ∧ ws = [] ∧ m1.hdr.core = m.hdr.core ∧
      m1.hdr.nrwr = m.hdr.nrwr := by
  unfold del at h
  repeat' split at h
  all_goals
    first
    | (simp only [Option.some.injEq, Prod.mk.injEq] at h
       obtain ⟨rfl, rfl, rfl⟩ := h
       exact ⟨rfl, rfl, rfl, rfl, rfl⟩)
    | simp at h

theorem finishPut_fits {m : Mem} {p r wa : Nat} {data : List W} {toEnd rew : Bool} {m1 : Mem}
    {ws : List Write} {c : Code} (h2 : 2 ≤ data.length) (hev : data.length % 2 = 0)
    (hw : (toEnd = true ∧ wa = 2 * m.hdr.fsiz + 1) ∨
      (toEnd = false ∧ wa - 1 + data.length ≤ 2 * m.hdr.fsiz))
    (h : finishPut m p r wa data toEnd rew = some (m1, ws, c)) :
    m.hdr.fsiz ≤ m1.hdr.fsiz ∧ Fits m1.hdr.fsiz ws ∧ m1.hdr.core = m.hdr.core ∧
      (m1.hdr.nrwr = m.hdr.nrwr ∨ m1.hdr.nrwr = m.hdr.nrwr + 1#32) := by
  rw [finishPut_eq] at h
  split at h
  · simp at h
  · simp only [Option.some.injEq, Prod.mk.injEq] at h
    obtain ⟨rfl, rfl, -⟩ := h
    have hfs := (putHdr_props m.hdr data.length toEnd rew).1
    refine ⟨?_, ?_, ?_, ?_⟩
    · simp only [hfs]; split <;> omega
    · intro w hw'
      simp only [List.mem_singleton] at hw'
      subst hw'
      simp only [recOf_length h2, hfs]
      rcases hw with ⟨rfl, rfl⟩ | ⟨rfl, hw⟩
      · simp only [if_true]; omega
      · simp only [Bool.false_eq_true, if_false]; omega
    · cases toEnd <;> cases rew <;> rfl
    · cases toEnd <;> cases rew <;> simp [putHdr]

theorem putEnd_fits {m : Mem} {data : List W} {old : Option (Nat × Nat)} {res3 : W}
    {junk : List Entry} (hn : m.nxtadr = 2 * m.hdr.fsiz + 1)
    (hf : m.hdr.fsiz < 2 ^ 30) (hj : ValidJunk m.width junk) (h2 : 2 ≤ data.length)
    (hev : data.length % 2 = 0) {m1 : Mem} {ws : List Write} {c : Code}
    (h : putEnd m data old res3 junk = some (m1, ws, c)) :
    m.hdr.fsiz ≤ m1.hdr.fsiz ∧ Fits m1.hdr.fsiz ws ∧ m1.hdr.core = m.hdr.core ∧
      (m1.hdr.nrwr = m.hdr.nrwr ∨ m1.hdr.nrwr = m.hdr.nrwr + 1#32) := by
  cases hlast : m.pages.getLast? with
  | none => simp [putEnd, hlast] at h
  | some last =>
    rw [putEnd_eq _ _ _ _ _ _ hlast] at h
    cases ha : added m last res3 junk with
    | none => simp [ha] at h
    | some x =>
      obtain ⟨ma, wsa, ca⟩ := x
      obtain ⟨a1, a2, a3, a4, a5⟩ := added_fits hn hf hj ha
      rw [ha] at h
      cases ca
      case ok =>
        simp only at h
        cases hg : ma.pages.getLast? with
        | none => simp [hg] at h
        | some pg =>
          rw [hg] at h
          simp only at h
          cases old with
          | none =>
            simp only at h
            split at h
            · simp at h
            · rename_i m4 ws4 c4 hfp
              simp only [Option.some.injEq, Prod.mk.injEq] at h
              obtain ⟨rfl, rfl, rfl⟩ := h
              obtain ⟨b1, b2, b3, b4⟩ := finishPut_fits h2 hev (Or.inl ⟨rfl, by exact a1⟩) hfp
              exact ⟨Nat.le_trans a2 b1, (a3.mono b1).append b2, b3.trans a4, by rw [← a5]; exact b4⟩
          | some y =>
            obtain ⟨op, or⟩ := y
            simp only at h
            split at h
            · simp at h
            · rename_i m3 ws3 hd
              obtain ⟨d1, d2, d3, d4, d5⟩ := del_fits hd
              simp only at d1 d2 d4 d5
              split at h
              · simp at h
              · rename_i m4 ws4 c4 hfp
                simp only [Option.some.injEq, Prod.mk.injEq] at h
                obtain ⟨rfl, rfl, rfl⟩ := h
                obtain ⟨b1, b2, b3, b4⟩ := finishPut_fits h2 hev (Or.inl ⟨rfl, by rw [d2]; exact a1⟩) hfp
                rw [d2] at b1
                exact ⟨Nat.le_trans a2 b1, (a3.mono b1).append b2, b3.trans (d4.trans a4),
                  by rw [← a5, ← d5]; exact b4⟩
            · rename_i m3 ws3 c3 hne hd
              obtain ⟨d1, d2, d3, d4, d5⟩ := del_fits hd
              simp only at d1 d2 d4 d5
              simp only [Option.some.injEq, Prod.mk.injEq] at h
              obtain ⟨rfl, rfl, rfl⟩ := h
              rw [d2, d4, d5]
              exact ⟨a2, a3, a4, Or.inl a5⟩
      all_goals
        simp only [Option.some.injEq, Prod.mk.injEq] at h
        obtain ⟨rfl, rfl, rfl⟩ := h
        exact ⟨a2, a3, a4, Or.inl a5⟩

theorem closePages_fits {own : Own} {f lprm : Nat} {s : List Slot} (pages : List Page) (p0 : Nat)
    (h : ∀ (i : Nat) (pg : Page), pages[i]? = some pg → PageHyp own f lprm s (p0 + i) pg) :
    Fits f (closePages pages).2 := by
  induction pages generalizing p0 with
  | nil => simp [closePages, Fits]
  | cons pg rest ih =>
    rw [closePages_snd_cons]
    have h0 := h 0 pg rfl
    refine Fits.append ?_ (ih (p0 + 1) (fun i pg hi => by
      have := h (i + 1) pg (by simpa using hi)
      rwa [show p0 + 1 + i = p0 + (i + 1) by omega]))
    by_cases hm : pg.modified = true
    · rw [if_pos hm]
      intro w hw
      simp only [closePage, List.mem_append, List.mem_singleton] at hw
      rcases hw with hw | hw
      · simp only [closeMarks, List.mem_map, List.mem_filter] at hw
        obtain ⟨e, ⟨he, hmark⟩, rfl⟩ := hw
        obtain ⟨r, hr, rfl⟩ := List.mem_iff_getElem.1 he
        simp only [List.length_take] at hr
        have hg : pg.entries[r]? = some (pg.entries.take pg.nent)[r] := by
          rw [List.getElem_take, List.getElem?_eq_getElem (by omega)]
        obtain ⟨j, hj, hreg⟩ := h0.marks r _ (by omega) hg (by simpa using hmark)
        have := hreg.l1
        have := hreg.fit
        simp only [List.length_cons, List.length_nil]
        omega
      · have hc : (closedPage pg).words = w.2 := by subst hw; simp [closedPage, hm, closePage]
        have hl : w.2.length = 2 * pageLng lprm := by
          rw [← hc]; exact page_words_len (closedPage_ok h0.ok) rfl
        have h1 : w.1 = 2 * (pg.addr - 1) := by rw [hw]
        have := h0.reg.fit
        rw [hl, h1]; omega
    · rw [if_neg hm]; exact Fits.nil _

theorem checkpoint_fits {own : Own} {m : Mem} {d : Disk} {s : List Slot} (h : Inv own m d s)
    (hnp : NoPending s) : Fits m.hdr.fsiz (checkpoint m).2 := by
  have hh : Fits m.hdr.fsiz (if m.hdr.rwflg ≠ RDMODE then [(0, m.hdr.words)] else []) := by
    split
    · intro w hw
      simp only [List.mem_singleton] at hw
      subst hw
      simp only [Header.words_length h.hok]
      have := h.hreg.fit
      omega
    · exact Fits.nil _
  unfold checkpoint
  simp only
  generalize (if m.hdr.rwflg ≠ RDMODE then [(0, m.hdr.words)] else []) = w1 at hh
  by_cases hm : m.modified = true
  · rw [if_pos hm]
    exact hh.append (closePages_fits m.pages 0 fun i pg hi => by
      rw [Nat.zero_add]; exact h.pageHyp hnp hi)
  · rw [if_neg hm]; exact hh

theorem close_fits {own : Own} {m : Mem} {d : Disk} {s : List Slot} (h : Inv own m d s)
    (hnp : NoPending s) : Fits m.hdr.fsiz (close m) := by
  rw [close_eq]
  refine (checkpoint_fits h hnp).append ?_
  split
  · intro w hw
    simp only [List.mem_singleton] at hw
    subst hw
    have : ({ m.hdr with rwflg := 0 } : Header).words.length = 2 * m.hdr.lng :=
      Header.words_length (h := { m.hdr with rwflg := 0 }) ⟨h.hok.idtyp, h.hok.lng, h.hok.fsiz,
        h.hok.nbd, h.hok.nbig, h.hok.lprm, h.hok.nrec, by simp, h.hok.keys⟩
    simp only [this]
    have := h.hreg.fit
    omega
  · exact Fits.nil _

/-- Every operation writes inside the file as the header then describes it. -/
theorem step_fits {own : Own} {m : Mem} {d : Disk} {f : File} (h : Inv own m d f.slots)
    (hnp : NoPending f.slots) {op : Op} (hv : ValidOp m.width f op) {m1 : Mem} {ws : List Write}
    {c : Code} (hs : step m d op = some (m1, ws, c)) :
    m.hdr.fsiz ≤ m1.hdr.fsiz ∧ Fits m1.hdr.fsiz ws ∧ m1.hdr.core = m.hdr.core ∧
      (m1.hdr.nrwr = m.hdr.nrwr ∨ m1.hdr.nrwr = m.hdr.nrwr + 1#32) := by
  have hsame : ∀ {c' : Code}, some (m, ([] : List Write), c') = some (m1, ws, c) →
      m.hdr.fsiz ≤ m1.hdr.fsiz ∧ Fits m1.hdr.fsiz ws ∧ m1.hdr.core = m.hdr.core ∧
      (m1.hdr.nrwr = m.hdr.nrwr ∨ m1.hdr.nrwr = m.hdr.nrwr + 1#32) := by
    intro c' he
    simp only [Option.some.injEq, Prod.mk.injEq] at he
    obtain ⟨rfl, rfl, rfl⟩ := he
    exact ⟨Nat.le_refl _, Fits.nil _, rfl, Or.inl rfl⟩
  have hw2 : 2 ≤ m.width := by simp only [Mem.width]; have := h.lprm; omega
  have hend : ∀ {data : List W} {old : Option (Nat × Nat)} {res3 : W} {junk : List Entry},
      ValidData m.width data → ValidJunk m.width junk → data.length % 2 = 0 →
      putEnd m data old res3 junk = some (m1, ws, c) →
      m.hdr.fsiz ≤ m1.hdr.fsiz ∧ Fits m1.hdr.fsiz ws ∧ m1.hdr.core = m.hdr.core ∧
      (m1.hdr.nrwr = m.hdr.nrwr ∨ m1.hdr.nrwr = m.hdr.nrwr + 1#32) :=
    fun hvd hj hev he => putEnd_fits h.nxtadr h.fs hj
      (by have := hvd.keys; omega) hev he
  cases op with
  | append data res3 junk =>
    simp only [step, put] at hs
    split at hs
    · exact hsame hs
    · rename_i hev
      split at hs
      · exact hsame hs
      · exact hend hv.1 hv.2 (by omega) hs
  | rewrite p r data res3 junk =>
    obtain ⟨hvd, hj, hr, hi⟩ := hv
    simp only [step, put] at hs
    split at hs
    · exact hsame hs
    rename_i hev
    split at hs
    · exact hsame hs
    split at hs
    · exact hsame hs
    obtain ⟨pg, e, hp, he, hn, hso, heok⟩ := h.slot hr (List.getElem?_eq_getElem hi)
    rw [locate_eq h hp he hn] at hs
    simp only at hs
    split at hs
    · exact hsame hs
    split at hs
    · exact hsame hs
    split at hs
    · exact hend hvd hj (by omega) hs
    · rename_i hlen
      split at hs
      · simp at hs
      · rename_i m2 ws2 hd
        obtain ⟨d1, d2, d3, d4, d5⟩ := del_fits hd
        have hreg : Region own m.hdr.fsiz (.ent (256 * p + r)) e.addr e.lng := by
          rcases slot_cases hnp hi with ⟨t, pl, hsl⟩ | hsl
          · rw [List.getElem?_eq_getElem hi, Option.some.injEq] at hsl
            rw [hsl] at hso; exact hso.2
          · rw [List.getElem?_eq_getElem hi, Option.some.injEq] at hsl
            rw [hsl] at hso; exact hso.2
        have hfit := hreg.fit
        have := finishPut_fits (by have := hvd.keys; omega) (by omega)
          (Or.inr ⟨rfl, by rw [d2]; omega⟩) hs
        rw [d2, d4, d5] at this
        exact this
      · rename_i m2 ws2 c2 hne hd
        obtain ⟨d1, d2, d3, d4, d5⟩ := del_fits hd
        simp only [Option.some.injEq, Prod.mk.injEq] at hs
        obtain ⟨rfl, rfl, rfl⟩ := hs
        rw [d2, d4, d5]
        exact ⟨Nat.le_refl _, Fits.nil _, rfl, Or.inl rfl⟩
  | rewriteEnd p r data res3 junk =>
    obtain ⟨hvd, hj, hr, hi⟩ := hv
    simp only [step, put] at hs
    split at hs
    · exact hsame hs
    rename_i hev
    split at hs
    · exact hsame hs
    split at hs
    · exact hsame hs
    split at hs
    · exact hsame hs
    · simp at hs
    split at hs
    · exact hsame hs
    split at hs
    · exact hsame hs
    exact hend hvd hj (by omega) hs
  | del p r =>
    obtain ⟨d1, d2, d3, d4, d5⟩ := del_fits (show del m p r = some (m1, ws, c) from hs)
    rw [d2, d3, d4, d5]
    exact ⟨Nat.le_refl _, Fits.nil _, rfl, Or.inl rfl⟩
  | checkpoint =>
    simp only [step, Option.some.injEq, Prod.mk.injEq] at hs
    obtain ⟨rfl, rfl, rfl⟩ := hs
    obtain ⟨-, -, hh⟩ := h.checkpoint hnp
    rw [hh]
    exact ⟨Nat.le_refl _, checkpoint_fits h hnp, rfl, Or.inl rfl⟩
  | reopen mode =>
    obtain ⟨m', ho, -, hh, -, -⟩ := h.reopen hnp (mode := mode) hv
    simp only [step, ho, Option.some.injEq, Prod.mk.injEq] at hs
    obtain ⟨rfl, rfl, rfl⟩ := hs
    rw [hh]
    exact ⟨Nat.le_refl _, close_fits h hnp, rfl, Or.inl rfl⟩

/-- The length of the file after any operations. -/
theorem run_len {own : Own} {m m' : Mem} {d d' : Disk} {f : File} (h : Inv own m d f.slots)
    (hnp : NoPending f.slots) (hmode : m.hdr.rwflg = f.mode) (hlen : d.length = 2 * m.hdr.fsiz)
    {ops : List Op} {cs : List Code}
    (hv : ValidRun m.width f ops) (hr : run m d ops = some (m', d', cs)) :
    d'.length = 2 * m'.hdr.fsiz ∧ m.hdr.fsiz ≤ m'.hdr.fsiz ∧ m'.hdr.core = m.hdr.core ∧
      (m.hdr.nrwr.toNat + ops.length < 2 ^ 32 →
        m'.hdr.nrwr.toNat ≤ m.hdr.nrwr.toNat + ops.length) := by
  induction ops generalizing own m d f cs with
  | nil =>
    simp only [run, Option.some.injEq, Prod.mk.injEq] at hr
    obtain ⟨rfl, rfl, rfl⟩ := hr
    exact ⟨hlen, Nat.le_refl _, rfl, fun _ => Nat.le_add_right _ _⟩
  | cons op ops ih =>
    obtain ⟨hv1, hv2⟩ := hv
    rw [run] at hr
    rcases step_good h hnp hmode hv1 with ⟨hn, -⟩ | ⟨m1, ws, own1, hs, hi, hm, hlp, -, -, -, -⟩
    · rw [hn] at hr; simp at hr
    · have hw : m1.width = m.width := by simp [Mem.width, hlp]
      obtain ⟨s1, s2, s3, s4⟩ := step_fits h hnp hv1 hs
      have hl1 : (apply d ws).length = 2 * m1.hdr.fsiz := by
        have a := apply_fits ws (f := m1.hdr.fsiz) (d := d) (by omega) s2
        have b := hi.dl
        omega
      rw [hs] at hr
      simp only at hr
      cases hr2 : run m1 (apply d ws) ops with
      | none => rw [hr2] at hr; simp at hr
      | some x =>
        obtain ⟨m2, d2, cs2⟩ := x
        rw [hr2] at hr
        simp only [Option.some.injEq, Prod.mk.injEq] at hr
        obtain ⟨rfl, rfl, rfl⟩ := hr
        obtain ⟨g1, g2, g3, g4⟩ := ih hi (step_noPending f op hnp) hm hl1 (by rw [hw]; exact hv2) hr2
        refine ⟨g1, by omega, g3.trans s3, ?_⟩
        intro hb
        rw [List.length_cons] at hb ⊢
        rcases s4 with s4 | s4
        · rw [s4] at g4; omega
        · have : m1.hdr.nrwr.toNat = m.hdr.nrwr.toNat + 1 := by
            rw [s4, BitVec.toNat_add]
            have : (1#32).toNat = 1 := rfl
            omega
          omega

theorem create_len {sign auxw res3 : W} {nprm : BitVec 16} {lprm : Nat} {keys : List W}
    {junk : List Entry} (hv : ValidCreate lprm keys junk) {m : Mem} {ws : List Write} {c : Code}
    (h : create sign nprm lprm auxw keys res3 junk = some (m, ws, c)) :
    (apply [] ws).length = 2 * m.hdr.fsiz ∧
      m.hdr.core = (0, keys.length / 2 + 8, 0#32, 0x58444630#32, sign, keys) ∧ m.hdr.nrwr = 0#32 := by
  obtain ⟨-, -, -, own, hi⟩ := create_inv hv h
  have hdl := hi.dl
  unfold create at h
  simp only [addDirPage, List.length_nil, List.getLast?_nil] at h
  rw [if_neg (by simp)] at h
  split at h
  · simp at h
  · rename_i heq
    simp only [Option.some.injEq, Prod.mk.injEq] at h
    obtain ⟨rfl, rfl, rfl⟩ := h
    split at heq
    · simp at heq
    simp only [Option.some.injEq, Prod.mk.injEq] at heq
    obtain ⟨rfl, rfl, rfl⟩ := heq
    refine ⟨?_, rfl, rfl⟩
    refine Nat.le_antisymm (apply_fits _ (by simp) ?_) hdl
    intro w hw
    have hl2 := hv.l2
    have hev := hv.even
    have hsm := hv.small
    simp only [List.mem_cons, List.not_mem_nil, or_false] at hw
    rcases hw with rfl | rfl
    · simp [Header.words]; omega
    · simp only
      rw [page_words_len (width := 2 * lprm) (lprm := lprm) (pg := _) _ rfl]
      · simp only [pageLng, perPage]; omega
      · exact ⟨by simp only; omega, by simp, by simp, hv.junk.len, hv.junk.ok⟩

end Verif.Xdf
