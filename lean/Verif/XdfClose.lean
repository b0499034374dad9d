import Verif.XdfPut
/-! Checkpoint, close and open. -/

namespace Verif.Xdf

/-- A write confined to units owned by `k`. -/
def Within (own : Own) (k : Key) (w : Write) : Prop :=
  ∃ a n, w.1 = 2 * a ∧ w.2.length = 2 * n ∧ ∀ u, a ≤ u → u < a + n → own u = k

theorem has_apply_own {own : Own} {f : Nat} {k2 : Key} {d : Disk} {addr lng : Nat} {vs : List W}
    (hr : Region own f k2 addr lng) (hv : vs.length = 2 * lng) (h : Has d (2 * (addr - 1)) vs)
    {ws : List Write} (hw : ∀ w ∈ ws, ∃ k, k ≠ k2 ∧ Within own k w) :
    Has (apply d ws) (2 * (addr - 1)) vs := by
  induction ws generalizing d with
  | nil => exact h
  | cons w ws ih =>
    obtain ⟨k, hk, a, n, h1, h2, h3⟩ := hw w (by simp)
    show Has (apply (writeAt d w.1 w.2) ws) _ _
    apply ih
    · rw [h1]; exact has_write_own hk hr hv h h2 h3
    · exact fun w' hw' => hw w' (by simp [hw'])

theorem apply_length (d : Disk) (ws : List Write) : d.length ≤ (apply d ws).length := by
  induction ws generalizing d with
  | nil => exact Nat.le_refl _
  | cons w ws ih =>
    refine Nat.le_trans ?_ (ih (writeAt d w.1 w.2))
    rw [writeAt_length]; omega

/-! ## Closing pages -/

def closedPage (pg : Page) : Page := if pg.modified then (closePage pg).1 else pg

theorem closePages_fst (pages : List Page) : (closePages pages).1 = pages.map closedPage := by
  induction pages with
  | nil => rfl
  | cons pg rest ih =>
    simp only [closePages, List.map_cons, closedPage]
    split <;> simp [ih]

theorem closePages_snd_cons (pg : Page) (rest : List Page) :
    (closePages (pg :: rest)).2 =
      (if pg.modified then (closePage pg).2 else []) ++ (closePages rest).2 := by
  simp only [closePages]
  split <;> simp

theorem closedPage_fields (pg : Page) :
    (closedPage pg).addr = pg.addr ∧ (closedPage pg).nxtAddr = pg.nxtAddr ∧
    (closedPage pg).nent = pg.nent ∧ (closedPage pg).modified = false := by
  unfold closedPage
  split
  · exact ⟨rfl, rfl, rfl, rfl⟩
  · rename_i h; exact ⟨rfl, rfl, rfl, by simpa using h⟩

theorem closeEntry_ok {width : Nat} {e : Entry} (h : e.Ok width) : (closeEntry e).Ok width := by
  obtain ⟨h1, h2, h3, h4⟩ := h
  have hand : e.idtyp &&& 0x7f < 2 ^ 8 := Nat.lt_of_le_of_lt Nat.and_le_right (by decide)
  unfold closeEntry
  split
  · refine ⟨?_, h2, h3, h4⟩
    simp
  · refine ⟨?_, h2, h3, h4⟩
    simp only
    split
    · simp
    · exact hand

theorem closedPage_entries (pg : Page) (r : Nat) :
    (closedPage pg).entries[r]? =
      if pg.modified ∧ r < pg.nent then pg.entries[r]?.map closeEntry else pg.entries[r]? := by
  unfold closedPage
  by_cases hm : pg.modified
  · rw [if_pos hm]
    simp only [closePage]
    by_cases hr : r < pg.nent
    · rw [if_pos ⟨hm, hr⟩]
      by_cases hl : r < pg.entries.length
      · rw [List.getElem?_append_left (by simp; omega), List.getElem?_map, List.getElem?_take_of_lt hr]
      · rw [List.getElem?_append_right (by simp; omega), List.getElem?_eq_none (by simp; omega),
          List.getElem?_eq_none (l := pg.entries) (by omega)]
        rfl
    · rw [if_neg (by simp [hr])]
      by_cases hl : pg.nent ≤ pg.entries.length
      · rw [List.getElem?_append_right (by simp; omega), List.getElem?_drop]
        simp; congr 1; omega
      · rw [List.getElem?_append_right (by simp; omega), List.getElem?_eq_none (by simp; omega),
          List.getElem?_eq_none (l := pg.entries) (by omega)]
  · rw [if_neg hm, if_neg (by simp [hm])]

theorem closedPage_ok {width : Nat} {pg : Page} (h : pg.Ok width) : (closedPage pg).Ok width := by
  obtain ⟨h1, h2, h3, h4⟩ := closedPage_fields pg
  have hlen : (closedPage pg).entries.length = perPage := by
    unfold closedPage
    split
    · simp [closePage, h.len]; omega
    · exact h.len
  refine ⟨by rw [h1]; exact h.addr, by rw [h2]; exact h.nxt, by rw [h3]; exact h.nent, hlen, ?_⟩
  intro e he
  obtain ⟨r, hr, rfl⟩ := List.mem_iff_getElem.1 he
  have hg := closedPage_entries pg r
  rw [List.getElem?_eq_getElem hr] at hg
  have hr' : r < pg.entries.length := by rw [h.len]; omega
  rw [List.getElem?_eq_getElem hr'] at hg
  split at hg
  · simp only [Option.map_some, Option.some.injEq] at hg
    rw [hg]; exact closeEntry_ok (h.ents _ (List.getElem_mem hr'))
  · simp only [Option.some.injEq] at hg
    rw [hg]; exact h.ents _ (List.getElem_mem hr')

/-- What closing needs to know of page number `p`. -/
structure PageHyp (own : Own) (f lprm : Nat) (s : List Slot) (p : Nat) (pg : Page) : Prop where
  ok : pg.Ok (2 * lprm)
  reg : Region own f (.page p) pg.addr (pageLng lprm)
  marks : ∀ (r : Nat) (e : Entry), r < pg.nent → pg.entries[r]? = some e →
    (e.idtyp ||| 0x80) = 254 →
    ∃ j, s[j]? = some .dead ∧ Region own f (.ent j) e.addr e.lng

/-- Keys written at close. -/
def CloseKey (s : List Slot) (lo hi : Nat) (k : Key) : Prop :=
  (∃ p, lo ≤ p ∧ p < hi ∧ k = .page p) ∨ ∃ j, s[j]? = some Slot.dead ∧ k = .ent j

theorem closePage_within {own : Own} {f lprm : Nat} {s : List Slot} {p : Nat} {pg : Page}
    (h : PageHyp own f lprm s p pg) (hm : pg.modified = true) :
    ∀ w ∈ (closePage pg).2, ∃ k, CloseKey s p (p + 1) k ∧ Within own k w := by
  intro w hw
  simp only [closePage, List.mem_append, List.mem_singleton] at hw
  rcases hw with hw | hw
  · simp only [closeMarks, List.mem_map, List.mem_filter] at hw
    obtain ⟨e, ⟨he, hmark⟩, rfl⟩ := hw
    obtain ⟨r, hr, rfl⟩ := List.mem_iff_getElem.1 he
    simp only [List.length_take] at hr
    have hg : pg.entries[r]? = some (pg.entries.take pg.nent)[r] := by
      rw [List.getElem_take, List.getElem?_eq_getElem (by omega)]
    obtain ⟨j, hj, hreg⟩ := h.marks r _ (by omega) hg (by simpa using hmark)
    refine ⟨.ent j, Or.inr ⟨j, hj, rfl⟩, _, 1, rfl, rfl, fun u h1 h2 => hreg.own u h1 ?_⟩
    have := hreg.l1; omega
  · have hc : (closedPage pg).words = w.2 := by subst hw; simp [closedPage, hm, closePage]
    refine ⟨.page p, Or.inl ⟨p, by omega, by omega, rfl⟩, pg.addr - 1, pageLng lprm, by rw [hw], ?_,
      h.reg.own⟩
    rw [← hc]
    exact page_words_len (closedPage_ok h.ok) rfl

theorem closePages_within {own : Own} {f lprm : Nat} {s : List Slot} (pages : List Page) (p0 : Nat)
    (h : ∀ (i : Nat) (pg : Page), pages[i]? = some pg → PageHyp own f lprm s (p0 + i) pg) :
    ∀ w ∈ (closePages pages).2, ∃ k, CloseKey s p0 (p0 + pages.length) k ∧ Within own k w := by
  induction pages generalizing p0 with
  | nil => simp [closePages]
  | cons pg rest ih =>
    intro w hw
    rw [closePages_snd_cons, List.mem_append] at hw
    have h0 := h 0 pg rfl
    rcases hw with hw | hw
    · by_cases hm : pg.modified = true
      · rw [if_pos hm] at hw
        obtain ⟨k, hk, hw⟩ := closePage_within h0 hm w hw
        refine ⟨k, ?_, hw⟩
        rcases hk with ⟨p, h1, h2, h3⟩ | hk
        · exact Or.inl ⟨p, by omega, by simp; omega, h3⟩
        · exact Or.inr hk
      · rw [if_neg hm] at hw; simp at hw
    · obtain ⟨k, hk, hw⟩ := ih (p0 + 1) (fun i pg hi => by
        have := h (i + 1) pg (by simpa using hi)
        rwa [show p0 + 1 + i = p0 + (i + 1) by omega]) w hw
      refine ⟨k, ?_, hw⟩
      rcases hk with ⟨p, h1, h2, h3⟩ | hk
      · exact Or.inl ⟨p, by omega, by simp; omega, h3⟩
      · exact Or.inr hk

/-- After all writes of close, every page is on disk. -/
theorem closePages_has {own : Own} {f lprm : Nat} {s : List Slot} (pages : List Page) (p0 : Nat)
    (d : Disk)
    (h : ∀ (i : Nat) (pg : Page), pages[i]? = some pg → PageHyp own f lprm s (p0 + i) pg)
    (hd : ∀ (i : Nat) (pg : Page), pages[i]? = some pg → pg.modified = false →
      Has d (2 * (pg.addr - 1)) pg.words) :
    ∀ (i : Nat) (pg : Page), pages[i]? = some pg →
      Has (apply d (closePages pages).2) (2 * (pg.addr - 1)) (closedPage pg).words := by
  induction pages generalizing p0 d with
  | nil => intro i pg hi; simp at hi
  | cons pg rest ih =>
    have h0 : PageHyp own f lprm s p0 pg := h 0 pg rfl
    have hrest : ∀ (i : Nat) (pg : Page), rest[i]? = some pg →
        PageHyp own f lprm s (p0 + 1 + i) pg := fun i pg hi => by
      have := h (i + 1) pg (by simpa using hi)
      rwa [show p0 + 1 + i = p0 + (i + 1) by omega]
    intro i pg' hi
    rw [closePages_snd_cons, apply_append]
    cases i with
    | zero =>
      simp only [List.getElem?_cons_zero, Option.some.injEq] at hi
      subst hi
      have hreg : Region own f (.page p0) pg.addr (pageLng lprm) := h0.reg
      refine has_apply_own hreg (page_words_len (closedPage_ok h0.ok) rfl) ?_ ?_
      · by_cases hm : pg.modified = true
        · rw [if_pos hm]
          have hc : closedPage pg = (closePage pg).1 := by simp [closedPage, hm]
          rw [hc]
          simp only [closePage]
          rw [apply_append]
          exact has_write_self _ _ _
        · rw [if_neg hm]
          have hc : closedPage pg = pg := by simp [closedPage, hm]
          rw [hc]
          exact hd 0 pg rfl (by simpa using hm)
      · intro w hw
        obtain ⟨k, hk, hw⟩ := closePages_within rest (p0 + 1) hrest w hw
        refine ⟨k, ?_, hw⟩
        rcases hk with ⟨p, h1, _, rfl⟩ | ⟨j, _, rfl⟩
        · simp; omega
        · simp
    | succ i =>
      simp only [List.getElem?_cons_succ] at hi
      refine ih (p0 + 1) _ hrest ?_ i pg' hi
      intro j pgj hj hmj
      have h1 := hrest j pgj hj
      have h2 := hd (j + 1) pgj (by simpa using hj) hmj
      refine has_apply_own h1.reg (page_words_len h1.ok rfl) h2 ?_
      intro w hw
      by_cases hm : pg.modified = true
      · rw [if_pos hm] at hw
        obtain ⟨k, hk, hw⟩ := closePage_within h0 hm w hw
        refine ⟨k, ?_, hw⟩
        rcases hk with ⟨p, h1, h2, rfl⟩ | ⟨j, _, rfl⟩
        · simp; omega
        · simp
      · rw [if_neg hm] at hw; simp at hw

def NoPending (s : List Slot) : Prop := ∀ i : Nat, s[i]? ≠ some .pending

theorem live_no_mark : ∀ t : Nat, t ≤ 125 → (t ||| 0x80) ≠ 254 ∧ (t ||| 0x80) ≠ 255 ∧ (t &&& 0x7f) = t := by
  decide

theorem Inv.pageHyp {own : Own} {m : Mem} {d : Disk} {s : List Slot} (h : Inv own m d s)
    (hnp : NoPending s) {p : Nat} {pg : Page} (hp : m.pages[p]? = some pg) :
    PageHyp own m.hdr.fsiz m.hdr.lprm s p pg := by
  refine ⟨h.pok p pg hp, h.preg p pg hp, fun r e hr he hmark => ?_⟩
  have hn := h.pnent p pg hp
  have hlt : 256 * p + r < s.length := by omega
  have hs := List.getElem?_eq_getElem hlt
  have hso := h.ents p r pg e _ hp he hs
  cases hsl : s[256 * p + r] with
  | pending => rw [hsl] at hs; exact absurd hs (hnp _)
  | dead => rw [hsl] at hs hso; exact ⟨_, hs, hso.2⟩
  | live t pl =>
    rw [hsl] at hso
    obtain ⟨⟨h1, h2, h3, _⟩, _⟩ := hso
    rw [h1] at hmark
    exact absurd hmark (live_no_mark t h3).1

/-- Writing words over the header keeps the invariant. -/
theorem Inv.hdrWrite {own : Own} {m : Mem} {d : Disk} {s : List Slot} (h : Inv own m d s)
    (hrd : m.hdr.rwflg ≠ RDMODE) {hw : List W} (hl : hw.length = 2 * m.hdr.lng) :
    Inv own m (writeAt d 0 hw) s := by
  have hown : ∀ u, 0 ≤ u → u < 0 + m.hdr.lng → own u = .hdr := fun u h1 h2 =>
    h.hreg.own u (by omega) (by omega)
  refine { h with dl := ?_, ents := ?_, img := ?_, rd := ?_ }
  · rw [writeAt_length]; have := h.dl; omega
  · intro p r pg e sl hp he hs
    exact (h.ents p r pg e sl hp he hs).mono (a := 0) (Nat.le_refl _) (fun _ _ => rfl) (k := .hdr)
      (by simp) hl hown
  · intro p pg hp hm
    exact has_write_own (a := 0) (k := .hdr) (by simp) (h.preg p pg hp)
      (page_words_len (h.pok p pg hp) rfl) (h.img p pg hp hm) hl hown
  · intro h0; exact absurd h0 hrd

theorem SlotOk.close {own : Own} {f : Nat} {d : Disk} {width idx : Nat} {e : Entry} {sl : Slot}
    (h : SlotOk own f d width idx e sl) : SlotOk own f d width idx (closeEntry e) sl := by
  cases sl with
  | pending => trivial
  | dead =>
    obtain ⟨h1, h2⟩ := h
    rcases h1 with h1 | h1 <;> simp [closeEntry, SlotOk, h1, h2]
  | live t pl =>
    obtain ⟨⟨h1, h2, h3, h4, h5, h6⟩, hr⟩ := h
    obtain ⟨g1, g2, g3⟩ := live_no_mark t h3
    have : closeEntry e = e := by
      cases e; simp only at h1; subst h1; simp [closeEntry, g1, g2, g3]
    rw [this]
    exact ⟨⟨h1, h2, h3, h4, h5, h6⟩, hr⟩

/-- Writing back the directory pages. -/
theorem Inv.closed {own : Own} {m : Mem} {d : Disk} {s : List Slot} (h : Inv own m d s)
    (hnp : NoPending s) (hrd : m.hdr.rwflg ≠ RDMODE) :
    Inv own { m with pages := (closePages m.pages).1, modified := false }
      (apply d (closePages m.pages).2) s := by
  have hyp : ∀ (i : Nat) (pg : Page), m.pages[i]? = some pg →
      PageHyp own m.hdr.fsiz m.hdr.lprm s (0 + i) pg := fun i pg hi => by
    rw [Nat.zero_add]; exact h.pageHyp hnp hi
  have hwith := closePages_within m.pages 0 hyp
  have hhas := closePages_has m.pages 0 d hyp (fun i pg hi hm =>
    h.img i pg hi (Or.inl ⟨hm, fun r _ => hnp _⟩))
  rw [closePages_fst]
  have hcase : ∀ (q : Nat) (pq : Page), (m.pages.map closedPage)[q]? = some pq →
      ∃ pg, m.pages[q]? = some pg ∧ pq = closedPage pg := by
    intro q pq hq
    rw [List.getElem?_map] at hq
    cases hpg : m.pages[q]? with
    | none => simp [hpg] at hq
    | some pg => exact ⟨pg, rfl, by simpa [hpg] using hq.symm⟩
  have hent : ∀ (p r : Nat) (pg : Page) (e : Entry) (sl : Slot), m.pages[p]? = some pg →
      pg.entries[r]? = some e → s[256 * p + r]? = some sl →
      SlotOk own m.hdr.fsiz (apply d (closePages m.pages).2) m.width (256 * p + r) e sl := by
    intro p r pg e sl hp he hs
    have h1 := h.ents p r pg e sl hp he hs
    cases sl with
    | pending => trivial
    | dead => exact h1
    | live t pl =>
      obtain ⟨⟨g1, g2, g3, g4, g5, g6⟩, hr⟩ := h1
      refine ⟨⟨g1, g2, g3, g4, g5, ?_⟩, hr⟩
      refine has_apply_own hr (by simp [recWords]; omega) g6 ?_
      intro w hw
      obtain ⟨k, hk, hw⟩ := hwith w hw
      refine ⟨k, ?_, hw⟩
      rcases hk with ⟨q, _, _, rfl⟩ | ⟨j, hj, rfl⟩
      · simp
      · intro hh
        simp only [Key.ent.injEq] at hh
        subst hh
        rw [hs] at hj
        simp at hj
  refine ⟨h.hok, h.vrsn, h.lprm, h.mode, ?_, ?_, ?_, h.nxtadr, h.fs, ?_, ?_, ?_, ?_, ?_, ?_, ?_, ?_,
    ?_, h.hreg, ?_, ?_, h.nrec, ?_⟩
  · simpa using h.nbd
  · simpa using h.np1
  · simpa using h.npM
  · exact Nat.le_trans h.dl (apply_length _ _)
  · simpa using h.slen
  · simpa using h.slen'
  · intro q pq hq
    obtain ⟨pg, hp, rfl⟩ := hcase q pq hq
    exact closedPage_ok (h.pok q pg hp)
  · intro q pq hq
    obtain ⟨pg, hp, rfl⟩ := hcase q pq hq
    rw [(closedPage_fields pg).2.2.1]
    exact h.pnent q pg hp
  · intro q pq hq
    obtain ⟨pg, hp, rfl⟩ := hcase q pq hq
    rw [(closedPage_fields pg).1]
    exact h.preg q pg hp
  · intro pq hq
    obtain ⟨pg, hp, rfl⟩ := hcase 0 pq hq
    rw [(closedPage_fields pg).1]
    exact h.first pg hp
  · intro q p1 p2 h1 h2
    obtain ⟨pg, hp, rfl⟩ := hcase q p1 h1
    obtain ⟨pg2, hp2, rfl⟩ := hcase (q + 1) p2 h2
    rw [(closedPage_fields pg).2.1, (closedPage_fields pg2).1]
    exact h.chain q pg pg2 hp hp2
  · intro pq hq
    simp only [List.length_map] at hq
    obtain ⟨pg, hp, rfl⟩ := hcase _ pq hq
    rw [(closedPage_fields pg).2.1]
    exact h.last pg hp
  · intro p r pq e sl hq he hs
    obtain ⟨pg, hp, rfl⟩ := hcase p pq hq
    rw [closedPage_entries] at he
    split at he
    · cases hg : pg.entries[r]? with
      | none => simp [hg] at he
      | some e0 =>
        simp only [hg, Option.map_some, Option.some.injEq] at he
        subst he
        exact (hent p r pg e0 sl hp hg hs).close
    · exact hent p r pg e sl hp he hs
  · intro q pq hq _
    obtain ⟨pg, hp, rfl⟩ := hcase q pq hq
    rw [(closedPage_fields pg).1]
    exact hhas q pg hp
  · intro h0; exact absurd h0 hrd

/-- Checkpoint. -/
theorem Inv.checkpoint {own : Own} {m : Mem} {d : Disk} {s : List Slot} (h : Inv own m d s)
    (hnp : NoPending s) :
    Inv own (checkpoint m).1 (apply d (checkpoint m).2) s ∧ (checkpoint m).1.modified = false ∧
      (checkpoint m).1.hdr = m.hdr := by
  unfold Xdf.checkpoint
  by_cases hrd : m.hdr.rwflg = RDMODE
  · have hmod := (h.rd hrd).1
    simp only [hrd, hmod, ne_eq, not_true_eq_false, if_false, Bool.false_eq_true]
    exact ⟨h, trivial, trivial⟩
  · simp only [if_pos hrd]
    have hw := h.hdrWrite hrd (Header.words_length h.hok)
    by_cases hmod : m.modified = true
    · rw [if_pos hmod]
      refine ⟨?_, rfl, rfl⟩
      simp only
      rw [apply_append]
      exact hw.closed hnp hrd
    · rw [if_neg hmod]
      exact ⟨hw, by simpa using hmod, rfl⟩

theorem close_eq (m : Mem) : close m = (checkpoint m).2 ++
    (if m.hdr.rwflg ≠ RDMODE then [(0, { m.hdr with rwflg := 0 }.words)] else []) := by
  unfold close checkpoint
  by_cases hmod : m.modified = true
  · simp [hmod]
  · simp [hmod]

/-! ## Opening -/

theorem readPages_ok {d : Disk} {lprm : Nat} (l : List Page) (a : Nat) (hne : l ≠ [])
    (ha : ∀ pg, l[0]? = some pg → a = 2 * (pg.addr - 1))
    (hok : ∀ (i : Nat) (pg : Page), l[i]? = some pg → pg.Ok (2 * lprm) ∧ 1 ≤ pg.addr ∧
      pg.addr ≤ 2 ^ 30 ∧ Has d (2 * (pg.addr - 1)) pg.words)
    (hch : ∀ (i : Nat) (pg pg' : Page), l[i]? = some pg → l[i + 1]? = some pg' →
      pg.nxtAddr = pg'.addr)
    (hlast : ∀ pg, l[l.length - 1]? = some pg → pg.nxtAddr = 0) :
    readPages d lprm l.length a = some (.ok (l.map fun pg => { pg with modified := false })) := by
  induction l generalizing a with
  | nil => exact absurd rfl hne
  | cons pg rest ih =>
    have hpg := hok 0 pg rfl
    have ha' := ha pg rfl
    subst ha'
    have hwl : pg.words.length = 2 * (perPage * lprm + 4) := page_words_len hpg.1 rfl
    rw [List.length_cons, readPages, has_read hpg.2.2.2 hwl (by omega)]
    simp only
    rw [Page.ofWords_words hpg.1]
    simp only
    cases rest with
    | nil =>
      have h0 : pg.nxtAddr = 0 := hlast pg rfl
      have hc : ¬ (((-1 : Int) = 0 ∧ 0 ≠ 0) ∨ (-1 : Int) > (d.length : Int)) := by omega
      have h1 : (2 * (0 + (2 ^ 32 - 1)) + 1) % 2 ^ 32 = 2 ^ 32 - 1 := by decide
      rw [h0, h1, if_pos (show 2 ^ 32 - 1 ≥ 2 ^ 31 by decide)]
      have h2 : (((2 ^ 32 - 1 : Nat) : Int) - 2 ^ 32) = -1 := by decide
      rw [h2, List.length_nil, if_neg hc, if_pos rfl]
      simp only [List.map_cons, List.map_nil, h0]
    | cons pg2 rest =>
      have h1 : pg.nxtAddr = pg2.addr := hch 0 pg pg2 rfl rfl
      have h2 := hok 1 pg2 rfl
      obtain ⟨g1, g2, g3, g4⟩ := h2
      have hdl := has_lt g4 (by simp [Page.words])
      rw [Page.words_length g1] at hdl
      have hwdu : (2 * (pg.nxtAddr + (2 ^ 32 - 1)) + 1) % 2 ^ 32 = 2 * pg2.addr - 1 := by
        rw [h1]; omega
      rw [hwdu]
      have hlt : ¬ (2 * pg2.addr - 1 ≥ 2 ^ 31) := by omega
      rw [if_neg hlt, if_neg (by simp only [List.length_cons, perPage] at *; omega),
        if_neg (by simp), if_neg (by omega)]
      have hih := ih (2 * (pg2.addr - 1)) (by simp) (fun x hx => by
          simp only [List.getElem?_cons_zero, Option.some.injEq] at hx; rw [hx])
        (fun i x hx => hok (i + 1) x (by simpa using hx))
        (fun i x y hx hy => hch (i + 1) x y (by simpa using hx) (by simpa using hy))
        (fun x hx => hlast x (by simpa using hx))
      have hto : ((2 * pg2.addr - 1 : Nat) : Int).toNat - 1 = 2 * (pg2.addr - 1) := by omega
      rw [hto, hih]
      rfl

/-- The in-memory state just after opening the file that `m` wrote. -/
def reopened (m : Mem) (mode : Nat) : Mem :=
  { hdr := { m.hdr with rwflg := mode }
    pages := m.pages.map fun pg => { pg with modified := false }
    nxtadr := m.nxtadr
    modified := false }

/-- Opening a file whose header (not flagged as open) and directory pages are on disk. -/
theorem Inv.open {own : Own} {m : Mem} {d : Disk} {s : List Slot} (h : Inv own m d s)
    {d' : Disk}
    (hh : Has d' 0 { m.hdr with rwflg := 0 }.words)
    (hd : ∀ (p : Nat) (pg : Page), m.pages[p]? = some pg → Has d' (2 * (pg.addr - 1)) pg.words)
    {mode : Nat} :
    openFile d' mode = some (.ok (reopened m mode)) := by
  have hok0 : ({ m.hdr with rwflg := 0 } : Header).Ok :=
    ⟨h.hok.idtyp, h.hok.lng, h.hok.fsiz, h.hok.nbd, h.hok.nbig, h.hok.lprm, h.hok.nrec, by simp,
      h.hok.keys⟩
  have hlen := Header.words_length hok0
  simp only at hlen
  have hl8 : 8 ≤ m.hdr.lng := by have := h.hok.keys; omega
  have hr4 : readAt d' 0 4 = some (({ m.hdr with rwflg := 0 } : Header).words.take 4) := by
    apply has_read
    · intro i hi
      have hi4 : i < 4 := by simp at hi; omega
      rw [List.getElem?_take_of_lt hi4]
      exact hh i (Nat.lt_of_lt_of_eq (by omega : i < 2 * m.hdr.lng) hlen.symm)
    · rw [List.length_take]; exact Nat.min_eq_left (Nat.le_trans (by omega : 4 ≤ 2 * m.hdr.lng) (Nat.le_of_eq hlen.symm))
    · omega
  unfold openFile
  rw [hr4]
  simp only
  have e2 : (List.take 4 ({ m.hdr with rwflg := 0 } : Header).words).getD 2 0#32 = m.hdr.vrsn := rfl
  have e0 : (List.take 4 ({ m.hdr with rwflg := 0 } : Header).words).getD 0 0#32 =
    BitVec.ofNat 8 m.hdr.idtyp ++ BitVec.ofNat 24 m.hdr.lng := rfl
  rw [e2, e0, h.vrsn, if_pos (Or.inl rfl), ext_low24, ofNat_toNat_lt h.hok.lng,
    has_read hh hlen (by omega)]
  simp only
  rw [Header.ofWords_words hok0]
  simp only
  rw [if_neg (by simp), if_neg (by rw [h.nbd]; have := h.np1; omega),
    if_neg (by rw [h.nbd]; have := h.npM; omega), h.nbd]
  have hrp := readPages_ok (d := d') (lprm := m.hdr.lprm) m.pages (2 * m.hdr.lng)
    (by intro hn; have := h.np1; simp [hn] at this)
    (fun pg hpg => by rw [h.first pg hpg]; simp)
    (fun i pg hi => ⟨h.pok i pg hi, (h.preg i pg hi).a1,
      by have := (h.preg i pg hi).fit; have := (h.preg i pg hi).l1; have := h.fs; omega, hd i pg hi⟩)
    h.chain h.last
  rw [hrp]
  simp only [reopened, h.nxtadr, h.nbd]

/-- The invariant after opening. -/
theorem Inv.opened {own : Own} {m : Mem} {d : Disk} {s : List Slot} (h : Inv own m d s)
    (hnp : NoPending s) (hmod : m.modified = false)
    (hh : Has d 0 { m.hdr with rwflg := 0 }.words) {mode : Nat} (hm : mode ≤ 4) :
    Inv own (reopened m mode) d s := by
  have hcase : ∀ (q : Nat) (pq : Page),
      (m.pages.map fun pg => { pg with modified := false })[q]? = some pq →
      ∃ pg, m.pages[q]? = some pg ∧ pq = { pg with modified := false } := by
    intro q pq hq
    rw [List.getElem?_map] at hq
    cases hpg : m.pages[q]? with
    | none => simp [hpg] at hq
    | some pg => exact ⟨pg, rfl, by simpa [hpg] using hq.symm⟩
  refine ⟨?_, h.vrsn, h.lprm, hm, ?_, ?_, ?_, h.nxtadr, h.fs, h.dl, ?_, ?_, ?_, ?_, ?_, ?_, ?_,
    ?_, h.hreg, ?_, ?_, h.nrec, ?_⟩
  · exact ⟨h.hok.idtyp, h.hok.lng, h.hok.fsiz, h.hok.nbd, h.hok.nbig, h.hok.lprm, h.hok.nrec,
      by show mode < 2 ^ 32; omega, h.hok.keys⟩
  · simpa [reopened] using h.nbd
  · simpa [reopened] using h.np1
  · simpa [reopened] using h.npM
  · simpa [reopened] using h.slen
  · simpa [reopened] using h.slen'
  · intro q pq hq
    obtain ⟨pg, hp, rfl⟩ := hcase q pq hq
    have := h.pok q pg hp
    exact ⟨this.addr, this.nxt, this.nent, this.len, this.ents⟩
  · intro q pq hq
    obtain ⟨pg, hp, rfl⟩ := hcase q pq hq
    exact h.pnent q pg hp
  · intro q pq hq
    obtain ⟨pg, hp, rfl⟩ := hcase q pq hq
    exact h.preg q pg hp
  · intro pq hq
    obtain ⟨pg, hp, rfl⟩ := hcase 0 pq hq
    exact h.first pg hp
  · intro q p1 p2 h1 h2
    obtain ⟨pg, hp, rfl⟩ := hcase q p1 h1
    obtain ⟨pg2, hp2, rfl⟩ := hcase (q + 1) p2 h2
    exact h.chain q pg pg2 hp hp2
  · intro pq hq
    simp only [reopened, List.length_map] at hq
    obtain ⟨pg, hp, rfl⟩ := hcase _ pq hq
    exact h.last pg hp
  · intro p r pq e sl hq he hs
    obtain ⟨pg, hp, rfl⟩ := hcase p pq hq
    exact h.ents p r pg e sl hp he hs
  · intro q pq hq _
    obtain ⟨pg, hp, rfl⟩ := hcase q pq hq
    exact h.img q pg hp (Or.inr ⟨hmod, hnp⟩)
  · intro _; exact ⟨rfl, hh⟩

/-- Close followed by open. -/
theorem Inv.reopen {own : Own} {m : Mem} {d : Disk} {s : List Slot} (h : Inv own m d s)
    (hnp : NoPending s) {mode : Nat} (hm : mode ≤ 4) :
    ∃ m', openFile (apply d (close m)) mode = some (.ok m') ∧ Inv own m' (apply d (close m)) s ∧
      m'.hdr = { m.hdr with rwflg := mode } ∧ m'.modified = false ∧
      Has (apply d (close m)) 0 { m'.hdr with rwflg := 0 }.words := by
  obtain ⟨hc, hmod, hhdr⟩ := h.checkpoint hnp
  rw [close_eq, apply_append]
  generalize hdk : apply d (Xdf.checkpoint m).2 = d1 at hc
  generalize (Xdf.checkpoint m).1 = mc at hc hmod hhdr
  rw [← hhdr]
  by_cases hrd : mc.hdr.rwflg = RDMODE
  · rw [if_neg (by simp [hrd])]
    have hh := (hc.rd hrd).2
    exact ⟨_, hc.open hh (fun p pg hp => hc.img p pg hp (Or.inr ⟨hmod, hnp⟩)),
      hc.opened hnp hmod hh hm, rfl, rfl, hh⟩
  · rw [if_pos hrd]
    have hw := hc.hdrWrite hrd (hw := ({ mc.hdr with rwflg := 0 } : Header).words)
      (Header.words_length ⟨hc.hok.idtyp, hc.hok.lng, hc.hok.fsiz, hc.hok.nbd, hc.hok.nbig,
        hc.hok.lprm, hc.hok.nrec, by simp, hc.hok.keys⟩)
    have hh : Has (writeAt d1 0 ({ mc.hdr with rwflg := 0 } : Header).words) 0
      ({ mc.hdr with rwflg := 0 } : Header).words := has_write_self _ _ _
    exact ⟨_, hw.open hh (fun p pg hp => hw.img p pg hp (Or.inr ⟨hmod, hnp⟩)),
      hw.opened hnp hmod hh hm, rfl, rfl, hh⟩

end Verif.Xdf
