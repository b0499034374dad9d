import Verif.XdfDisk
/-! The invariant of an open random file and its preservation by the directory operations. -/

namespace Verif.Xdf

/-- What slot number `i` of the directory stands for: a deleted record, or a record with its type
and the words after its 64-bit header.  `pending` is a slot counted but not filled yet, inside
`c_xdfput`. -/
inductive Slot
  | pending
  | dead
  | live (idtyp : Nat) (payload : List W)
deriving DecidableEq, Repr

def Slot.isLive : Slot → Bool
  | .live _ _ => true
  | _ => false

/-- Owner of a 64-bit unit of the file. -/
inductive Key
  | free | hdr | page (p : Nat) | ent (i : Nat)
deriving DecidableEq

abbrev Own := Nat → Key

/-- Words of a record. -/
def recWords (t lng addr : Nat) (pl : List W) : List W :=
  (BitVec.ofNat 8 t ++ BitVec.ofNat 24 lng) :: BitVec.ofNat 32 addr :: pl

structure Region (own : Own) (fsiz : Nat) (k : Key) (addr lng : Nat) : Prop where
  a1 : 1 ≤ addr
  l1 : 1 ≤ lng
  fit : addr - 1 + lng ≤ fsiz
  own : ∀ u, addr - 1 ≤ u → u < addr - 1 + lng → own u = k

/-- A directory entry agrees with its slot. -/
def SlotOk (own : Own) (fsiz : Nat) (d : Disk) (width idx : Nat) (e : Entry) : Slot → Prop
  | .pending => True
  | .dead => (e.idtyp = 254 ∨ e.idtyp = 255) ∧ Region own fsiz (.ent idx) e.addr e.lng
  | .live t pl =>
    (e.idtyp = t ∧ 1 ≤ t ∧ t ≤ 125 ∧ pl.length + 2 = 2 * e.lng ∧ e.keys = pl.take (width - 2) ∧
      Has d (2 * (e.addr - 1)) (recWords t e.lng e.addr pl)) ∧
    Region own fsiz (.ent idx) e.addr e.lng

/-- Length of a page in 64-bit units. -/
def pageLng (lprm : Nat) : Nat := perPage * lprm + 4

structure Inv (own : Own) (m : Mem) (d : Disk) (s : List Slot) : Prop where
  hok : m.hdr.Ok
  vrsn : m.hdr.vrsn = 0x58444630#32
  lprm : 1 ≤ m.hdr.lprm
  mode : m.hdr.rwflg ≤ 4
  nbd : m.hdr.nbd = m.pages.length
  np1 : 1 ≤ m.pages.length
  npM : m.pages.length ≤ maxPages
  nxtadr : m.nxtadr = 2 * m.hdr.fsiz + 1
  fs : m.hdr.fsiz < 2 ^ 30
  dl : 2 * m.hdr.fsiz ≤ d.length
  slen : s.length ≤ 256 * m.pages.length
  slen' : 256 * (m.pages.length - 1) ≤ s.length
  pok : ∀ (p : Nat) (pg : Page), m.pages[p]? = some pg → pg.Ok m.width
  pnent : ∀ (p : Nat) (pg : Page), m.pages[p]? = some pg → pg.nent = min 256 (s.length - 256 * p)
  preg : ∀ (p : Nat) (pg : Page), m.pages[p]? = some pg →
    Region own m.hdr.fsiz (.page p) pg.addr (pageLng m.hdr.lprm)
  first : ∀ pg : Page, m.pages[0]? = some pg → pg.addr = m.hdr.lng + 1
  chain : ∀ (p : Nat) (pg pg' : Page), m.pages[p]? = some pg → m.pages[p + 1]? = some pg' → pg.nxtAddr = pg'.addr
  last : ∀ pg : Page, m.pages[m.pages.length - 1]? = some pg → pg.nxtAddr = 0
  hreg : Region own m.hdr.fsiz .hdr 1 m.hdr.lng
  ents : ∀ (p r : Nat) (pg : Page) (e : Entry) (sl : Slot), m.pages[p]? = some pg → pg.entries[r]? = some e →
    s[256 * p + r]? = some sl → SlotOk own m.hdr.fsiz d m.width (256 * p + r) e sl
  img : ∀ (p : Nat) (pg : Page), m.pages[p]? = some pg →
    (pg.modified = false ∧ (∀ r, r < 256 → s[256 * p + r]? ≠ some .pending)) ∨
      (m.modified = false ∧ ∀ i : Nat, s[i]? ≠ some .pending) →
    Has d (2 * (pg.addr - 1)) pg.words
  nrec : m.hdr.nrec = s.countP Slot.isLive
  rd : m.hdr.rwflg = RDMODE → m.modified = false ∧ Has d 0 { m.hdr with rwflg := 0 }.words

theorem disj_of_own {own : Own} {k1 k2 : Key} (hk : k1 ≠ k2) {a n b c : Nat}
    (h1 : ∀ u, a ≤ u → u < a + n → own u = k1) (h2 : ∀ u, b ≤ u → u < b + c → own u = k2)
    (hn : 1 ≤ c) : a + n ≤ b ∨ b + c ≤ a ∨ n = 0 := by
  by_cases h : a + n ≤ b ∨ b + c ≤ a ∨ n = 0
  · exact h
  · exfalso
    apply hk
    rw [← h1 (max a b) (by omega) (by omega), ← h2 (max a b) (by omega) (by omega)]

theorem Region.mono {own own' : Own} {f f' a n : Nat} {k : Key} (h : Region own f k a n)
    (hf : f ≤ f') (ho : ∀ u, u < f → own' u = own u) : Region own' f' k a n :=
  ⟨h.a1, h.l1, Nat.le_trans h.fit hf, fun u h1 h2 => by
    rw [ho u (by have := h.fit; omega)]; exact h.own u h1 h2⟩

/-- A write into units owned by `k` keeps the words of a region owned by someone else. -/
theorem has_write_own {own : Own} {f : Nat} {k k2 : Key} (hk : k ≠ k2) {d : Disk} {addr lng : Nat}
    {vs : List W} (hr : Region own f k2 addr lng) (hv : vs.length = 2 * lng)
    (h : Has d (2 * (addr - 1)) vs) {a n : Nat} {ws : List W} (hw : ws.length = 2 * n)
    (ho : ∀ u, a ≤ u → u < a + n → own u = k) :
    Has (writeAt d (2 * a) ws) (2 * (addr - 1)) vs := by
  have := disj_of_own hk ho hr.own hr.l1
  rcases this with h1 | h1 | h1
  · exact has_write_disj h _ _ (by omega)
  · exact has_write_disj h _ _ (by omega)
  · subst h1
    have : ws = [] := List.length_eq_zero_iff.1 (by omega)
    subst this
    have hl : 2 * (addr - 1) + vs.length ≤ d.length :=
      has_lt h (by intro h; simp [h] at hv; have := hr.l1; omega)
    by_cases h2 : 2 * (addr - 1) + vs.length ≤ 2 * a
    · exact has_write_disj h _ _ (Or.inl h2)
    · intro i hi
      rw [writeAt_get]
      by_cases h3 : 2 * (addr - 1) + i < 2 * a
      · rw [if_pos h3, if_pos (by omega)]; exact h i hi
      · rw [if_neg h3, if_neg (by simp; omega)]; exact h i hi

theorem SlotOk.mono {own own' : Own} {f f' : Nat} {d : Disk} {width idx a n : Nat} {e : Entry}
    {sl : Slot} {ws : List W} (h : SlotOk own f d width idx e sl) (hf : f ≤ f')
    (ho : ∀ u, u < f → own' u = own u) {k : Key} (hk : k ≠ .ent idx) (hw : ws.length = 2 * n)
    (hn : ∀ u, a ≤ u → u < a + n → own' u = k) :
    SlotOk own' f' (writeAt d (2 * a) ws) width idx e sl := by
  cases sl with
  | pending => trivial
  | dead => exact ⟨h.1, h.2.mono hf ho⟩
  | live t pl =>
    obtain ⟨⟨h1, h2, h3, h4, h5, h6⟩, hr⟩ := h
    refine ⟨⟨h1, h2, h3, h4, h5, ?_⟩, hr.mono hf ho⟩
    exact has_write_own hk (hr.mono hf ho) (by simp [recWords]; omega) h6 hw hn

theorem page_words_len {width : Nat} {pg : Page} (h : pg.Ok width) {lprm : Nat}
    (hw : width = 2 * lprm) : pg.words.length = 2 * pageLng lprm := by
  rw [Page.words_length h, hw]; simp only [pageLng, perPage]; omega

theorem getElem?_set_cases {α : Type} {l : List α} {p q : Nat} {a b : α}
    (h : (l.set p a)[q]? = some b) : (q = p ∧ b = a ∧ p < l.length) ∨ (q ≠ p ∧ l[q]? = some b) := by
  rw [List.getElem?_set] at h
  by_cases hq : p = q
  · rw [if_pos hq] at h
    split at h
    · left; exact ⟨hq.symm, by simpa using h.symm, by omega⟩
    · simp at h
  · rw [if_neg hq] at h
    right; exact ⟨fun h => hq h.symm, h⟩

theorem Inv.slot {own : Own} {m : Mem} {d : Disk} {s : List Slot} (h : Inv own m d s) {p r : Nat}
    {sl : Slot} (hr : r < 256) (hs : s[256 * p + r]? = some sl) :
    ∃ pg e, m.pages[p]? = some pg ∧ pg.entries[r]? = some e ∧ r < pg.nent ∧
      SlotOk own m.hdr.fsiz d m.width (256 * p + r) e sl ∧ e.Ok m.width := by
  have hi : 256 * p + r < s.length := (List.getElem?_eq_some_iff.1 hs).1
  have := h.slen
  have hp : p < m.pages.length := by omega
  have hpg := List.getElem?_eq_getElem hp
  have hl := (h.pok p _ hpg).len
  have hre : r < (m.pages[p]).entries.length := by rw [hl]; exact hr
  refine ⟨m.pages[p], (m.pages[p]).entries[r], hpg, List.getElem?_eq_getElem hre, ?_,
    h.ents p r _ _ sl hpg (List.getElem?_eq_getElem hre) hs,
    (h.pok p _ hpg).ents _ (List.getElem_mem hre)⟩
  rw [h.pnent p _ hpg]; omega

/-- Changing the entry of slot `256 * p + r`, the header counters, and the disk words of that
slot. -/
theorem Inv.setEntry {own own' : Own} {m : Mem} {d : Disk} {s : List Slot} (h : Inv own m d s)
    {p r : Nat} {pg : Page} (hpg : m.pages[p]? = some pg) (hr : r < 256)
    (hi : 256 * p + r < s.length) {e' : Entry} (he' : e'.Ok m.width) {hdr' : Header} (hok : hdr'.Ok)
    (hv : hdr'.vrsn = m.hdr.vrsn) (hlp : hdr'.lprm = m.hdr.lprm) (hlng : hdr'.lng = m.hdr.lng)
    (hnbd : hdr'.nbd = m.hdr.nbd) (hrw : hdr'.rwflg = m.hdr.rwflg) (hrd : m.hdr.rwflg ≠ RDMODE)
    {nxtadr' : Nat} (hna : nxtadr' = 2 * hdr'.fsiz + 1) (hf : m.hdr.fsiz ≤ hdr'.fsiz)
    (hfs : hdr'.fsiz < 2 ^ 30) (ho : ∀ u, u < m.hdr.fsiz → own' u = own u) {a n : Nat} {ws : List W}
    (hw : ws.length = 2 * n) (hn : ∀ u, a ≤ u → u < a + n → own' u = .ent (256 * p + r))
    (hdl : 2 * hdr'.fsiz ≤ (writeAt d (2 * a) ws).length) {sl' : Slot}
    (hsl : SlotOk own' hdr'.fsiz (writeAt d (2 * a) ws) m.width (256 * p + r) e' sl')
    (hp' : sl' ≠ .pending) (hnrec : hdr'.nrec = (s.set (256 * p + r) sl').countP Slot.isLive) :
    Inv own' { hdr := hdr', pages := Xdf.setEntry m.pages p r e', nxtadr := nxtadr', modified := true }
      (writeAt d (2 * a) ws) (s.set (256 * p + r) sl') := by
  have hse : Xdf.setEntry m.pages p r e' =
      m.pages.set p { pg with entries := pg.entries.set r e', modified := true } := by
    simp [Xdf.setEntry, hpg]
  have hpl : p < m.pages.length := (List.getElem?_eq_some_iff.1 hpg).1
  rw [hse]
  have hwid : (2 * hdr'.lprm) = m.width := by simp [Mem.width, hlp]
  constructor
  · exact hok
  · exact hv.trans h.vrsn
  · show 1 ≤ hdr'.lprm; rw [hlp]; exact h.lprm
  · show hdr'.rwflg ≤ 4; rw [hrw]; exact h.mode
  · simp only [List.length_set]; exact hnbd.trans h.nbd
  · simp only [List.length_set]; exact h.np1
  · simp only [List.length_set]; exact h.npM
  · exact hna
  · exact hfs
  · exact hdl
  · simp only [List.length_set]; exact h.slen
  · simp only [List.length_set]; exact h.slen'
  · intro q pq hq
    show pq.Ok (2 * hdr'.lprm)
    rw [hwid]
    rcases getElem?_set_cases hq with ⟨_, rfl, _⟩ | ⟨_, hq⟩
    · have := h.pok p pg hpg
      refine ⟨this.addr, this.nxt, this.nent, by simp [this.len], fun x hx => ?_⟩
      rcases List.mem_or_eq_of_mem_set hx with hx | rfl
      · exact this.ents x hx
      · exact he'
    · exact h.pok q pq hq
  · intro q pq hq
    simp only [List.length_set]
    rcases getElem?_set_cases hq with ⟨rfl, rfl, _⟩ | ⟨_, hq⟩
    · exact h.pnent q pg hpg
    · exact h.pnent q pq hq
  · intro q pq hq
    show Region own' hdr'.fsiz (.page q) pq.addr (pageLng hdr'.lprm)
    rw [hlp]
    rcases getElem?_set_cases hq with ⟨rfl, rfl, _⟩ | ⟨_, hq⟩
    · exact (h.preg q pg hpg).mono hf ho
    · exact (h.preg q pq hq).mono hf ho
  · intro pq hq
    show pq.addr = hdr'.lng + 1
    rw [hlng]
    rcases getElem?_set_cases hq with ⟨hp0, rfl, _⟩ | ⟨_, hq⟩
    · subst hp0; exact h.first pg hpg
    · exact h.first pq hq
  · intro q p1 p2 h1 h2
    rcases getElem?_set_cases h1 with ⟨hq1, rfl, _⟩ | ⟨_, g1⟩ <;>
      rcases getElem?_set_cases h2 with ⟨hq2, rfl, _⟩ | ⟨_, g2⟩
    · omega
    · subst hq1; exact h.chain q pg p2 hpg g2
    · subst hq2; exact h.chain q p1 pg g1 hpg
    · exact h.chain q p1 p2 g1 g2
  · intro pq hq
    simp only [List.length_set] at hq
    rcases getElem?_set_cases hq with ⟨hp0, rfl, _⟩ | ⟨_, hq⟩
    · subst hp0; exact h.last pg hpg
    · exact h.last pq hq
  · show Region own' hdr'.fsiz .hdr 1 hdr'.lng
    rw [hlng]; exact h.hreg.mono hf ho
  · intro q r' pq e sl hq he hsl'
    show SlotOk own' hdr'.fsiz _ (2 * hdr'.lprm) _ e sl
    rw [hwid]
    rcases getElem?_set_cases hsl' with ⟨hix, rfl, _⟩ | ⟨hix, gsl⟩
    · have hq1 : q = p ∧ r' = r := by
        have hr' : r' < 256 := by
          have h1 := (List.getElem?_eq_some_iff.1 he).1
          rcases getElem?_set_cases hq with ⟨_, rfl, _⟩ | ⟨_, hq⟩
          · simpa [(h.pok p pg hpg).len] using h1
          · rw [(h.pok q pq hq).len] at h1; exact h1
        omega
      obtain ⟨rfl, rfl⟩ := hq1
      rcases getElem?_set_cases hq with ⟨_, rfl, _⟩ | ⟨hne, _⟩
      · rcases getElem?_set_cases he with ⟨_, rfl, _⟩ | ⟨hne, _⟩
        · exact hsl
        · exact absurd rfl hne
      · exact absurd rfl hne
    · have hold : SlotOk own m.hdr.fsiz d m.width (256 * q + r') e sl := by
        rcases getElem?_set_cases hq with ⟨rfl, rfl, _⟩ | ⟨_, hq⟩
        · rcases getElem?_set_cases he with ⟨hr', rfl, _⟩ | ⟨_, he⟩
          · subst hr'; exact absurd rfl hix
          · exact h.ents q r' pg e sl hpg he gsl
        · exact h.ents q r' pq e sl hq he gsl
      exact hold.mono hf ho (k := .ent (256 * p + r)) (by simp; omega) hw hn
  · intro q pq hq hm
    rcases getElem?_set_cases hq with ⟨_, rfl, _⟩ | ⟨hne, hq⟩
    · simp at hm
    · have hmod : pq.modified = false ∧ ∀ r, r < 256 → s[256 * q + r]? ≠ some .pending := by
        rcases hm with hm | hm
        · refine ⟨hm.1, fun r' hr' => ?_⟩
          have := hm.2 r' hr'
          rwa [List.getElem?_set_ne (by omega)] at this
        · exact absurd hm.1 (by simp)
      have h1 := h.img q pq hq (Or.inl hmod)
      exact has_write_own (by simp) ((h.preg q pq hq).mono hf ho)
        (page_words_len (h.pok q pq hq) rfl) h1 hw hn
  · exact hnrec
  · intro h0
    exact absurd (hrw.symm.trans h0) hrd

end Verif.Xdf
