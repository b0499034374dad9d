import Verif.XdfOps
/-! Taking a new directory slot, with a new page when the last one is full. -/

namespace Verif.Xdf

theorem getLast?_getElem? {α : Type} (l : List α) : l.getLast? = l[l.length - 1]? :=
  List.getLast?_eq_getElem?

theorem append_one_cases {s : List Slot} {i : Nat} {a sl : Slot} (h : (s ++ [a])[i]? = some sl) :
    (i < s.length ∧ s[i]? = some sl) ∨ (i = s.length ∧ sl = a) := by
  by_cases hi : i < s.length
  · rw [List.getElem?_append_left hi] at h; exact Or.inl ⟨hi, h⟩
  · rw [List.getElem?_append_right (by omega)] at h
    have h1 := (List.getElem?_eq_some_iff.1 h).1
    have : i - s.length = 0 := by simp at h1; omega
    rw [this] at h
    exact Or.inr ⟨by omega, by simpa using h.symm⟩

theorem append_one_last (s : List Slot) (a : Slot) : (s ++ [a])[s.length]? = some a := by simp

theorem Inv.last_nent {own : Own} {m : Mem} {d : Disk} {s : List Slot} (h : Inv own m d s)
    {last : Page} (hl : m.pages.getLast? = some last) :
    s.length = 256 * (m.pages.length - 1) + last.nent ∧ last.nent ≤ 256 := by
  rw [getLast?_getElem?] at hl
  have h1 := h.pnent _ last hl
  have h2 := h.slen
  have h3 := h.slen'
  have h4 := h.np1
  omega

/-- Marking the last page modified. -/
theorem Inv.mark {own : Own} {m : Mem} {d : Disk} {s : List Slot} (h : Inv own m d s)
    {last : Page} (hl : m.pages.getLast? = some last) :
    Inv own { m with pages := m.pages.set (m.pages.length - 1) { last with modified := true } } d s := by
  rw [getLast?_getElem?] at hl
  constructor
  · exact h.hok
  · exact h.vrsn
  · exact h.lprm
  · exact h.mode
  · simp only [List.length_set]; exact h.nbd
  · simp only [List.length_set]; exact h.np1
  · simp only [List.length_set]; exact h.npM
  · exact h.nxtadr
  · exact h.fs
  · exact h.dl
  · simp only [List.length_set]; exact h.slen
  · simp only [List.length_set]; exact h.slen'
  · intro q pq hq
    rcases getElem?_set_cases hq with ⟨_, rfl, _⟩ | ⟨_, hq⟩
    · have := h.pok _ last hl
      exact ⟨this.addr, this.nxt, this.nent, this.len, this.ents⟩
    · exact h.pok q pq hq
  · intro q pq hq
    rcases getElem?_set_cases hq with ⟨rfl, rfl, _⟩ | ⟨_, hq⟩
    · exact h.pnent _ last hl
    · exact h.pnent q pq hq
  · intro q pq hq
    rcases getElem?_set_cases hq with ⟨rfl, rfl, _⟩ | ⟨_, hq⟩
    · exact h.preg _ last hl
    · exact h.preg q pq hq
  · intro pq hq
    rcases getElem?_set_cases hq with ⟨hp0, rfl, _⟩ | ⟨_, hq⟩
    · rw [← hp0] at hl; exact h.first last hl
    · exact h.first pq hq
  · intro q p1 p2 h1 h2
    have hlen := (List.getElem?_eq_some_iff.1 h2).1
    simp only [List.length_set] at hlen
    rcases getElem?_set_cases h1 with ⟨hq1, rfl, _⟩ | ⟨_, g1⟩
    · omega
    · rcases getElem?_set_cases h2 with ⟨hq2, rfl, _⟩ | ⟨_, g2⟩
      · rw [← hq2] at hl; exact h.chain q p1 last g1 hl
      · exact h.chain q p1 p2 g1 g2
  · intro pq hq
    simp only [List.length_set] at hq
    rcases getElem?_set_cases hq with ⟨hp0, rfl, _⟩ | ⟨hne, hq⟩
    · exact h.last last hl
    · exact absurd rfl hne
  · exact h.hreg
  · intro q r' pq e sl hq he hsl
    rcases getElem?_set_cases hq with ⟨rfl, rfl, _⟩ | ⟨_, hq⟩
    · exact h.ents _ r' last e sl hl he hsl
    · exact h.ents q r' pq e sl hq he hsl
  · intro q pq hq hm
    rcases getElem?_set_cases hq with ⟨rfl, rfl, _⟩ | ⟨_, hq⟩
    · rcases hm with hm | hm
      · simp at hm
      · exact h.img _ last hl (Or.inr hm)
    · exact h.img q pq hq hm
  · exact h.nrec
  · exact h.rd

/-- One more entry in a last page that is not full. -/
theorem Inv.grow_same {own : Own} {m : Mem} {d : Disk} {s : List Slot} (h : Inv own m d s)
    {last : Page} (hl : m.pages.getLast? = some last) (hn : last.nent < 256) :
    Inv own { m with pages := m.pages.set (m.pages.length - 1) { last with nent := last.nent + 1 } } d
      (s ++ [.pending]) := by
  have hln := (h.last_nent hl).1
  have hnp := h.np1
  rw [getLast?_getElem?] at hl
  constructor
  · exact h.hok
  · exact h.vrsn
  · exact h.lprm
  · exact h.mode
  · simp only [List.length_set]; exact h.nbd
  · simp only [List.length_set]; exact h.np1
  · simp only [List.length_set]; exact h.npM
  · exact h.nxtadr
  · exact h.fs
  · exact h.dl
  · simp only [List.length_set, List.length_append, List.length_singleton]; omega
  · simp only [List.length_set, List.length_append, List.length_singleton]; omega
  · intro q pq hq
    rcases getElem?_set_cases hq with ⟨_, rfl, _⟩ | ⟨_, hq⟩
    · have := h.pok _ last hl
      exact ⟨this.addr, this.nxt, by simp only; omega, this.len, this.ents⟩
    · exact h.pok q pq hq
  · intro q pq hq
    simp only [List.length_append, List.length_singleton]
    rcases getElem?_set_cases hq with ⟨rfl, rfl, _⟩ | ⟨hne, hq⟩
    · simp only; omega
    · have := h.pnent q pq hq
      have := (List.getElem?_eq_some_iff.1 hq).1
      omega
  · intro q pq hq
    rcases getElem?_set_cases hq with ⟨rfl, rfl, _⟩ | ⟨_, hq⟩
    · exact h.preg _ last hl
    · exact h.preg q pq hq
  · intro pq hq
    rcases getElem?_set_cases hq with ⟨hp0, rfl, _⟩ | ⟨_, hq⟩
    · rw [← hp0] at hl; exact h.first last hl
    · exact h.first pq hq
  · intro q p1 p2 h1 h2
    have hlen := (List.getElem?_eq_some_iff.1 h2).1
    simp only [List.length_set] at hlen
    rcases getElem?_set_cases h1 with ⟨hq1, rfl, _⟩ | ⟨_, g1⟩
    · omega
    · rcases getElem?_set_cases h2 with ⟨hq2, rfl, _⟩ | ⟨_, g2⟩
      · rw [← hq2] at hl; exact h.chain q p1 last g1 hl
      · exact h.chain q p1 p2 g1 g2
  · intro pq hq
    simp only [List.length_set] at hq
    rcases getElem?_set_cases hq with ⟨hp0, rfl, _⟩ | ⟨hne, hq⟩
    · exact h.last last hl
    · exact absurd rfl hne
  · exact h.hreg
  · intro q r' pq e sl hq he hsl
    rcases append_one_cases hsl with ⟨_, hsl⟩ | ⟨_, rfl⟩
    · rcases getElem?_set_cases hq with ⟨rfl, rfl, _⟩ | ⟨_, hq⟩
      · exact h.ents _ r' last e sl hl he hsl
      · exact h.ents q r' pq e sl hq he hsl
    · trivial
  · intro q pq hq hm
    rcases hm with hm | hm
    · rcases getElem?_set_cases hq with ⟨rfl, rfl, _⟩ | ⟨_, hq⟩
      · exact absurd (by rw [← hln]; exact append_one_last s _) (hm.2 last.nent hn)
      · refine h.img q pq hq (Or.inl ⟨hm.1, fun r hr hp => hm.2 r hr ?_⟩)
        rw [List.getElem?_append_left (List.getElem?_eq_some_iff.1 hp).1]; exact hp
    · exact absurd (append_one_last s _) (hm.2 s.length)
  · rw [List.countP_append]; simpa [Slot.isLive] using h.nrec
  · exact h.rd

/-- The uninitialised entries of a new page are words of the right number. -/
structure ValidJunk (width : Nat) (junk : List Entry) : Prop where
  len : junk.length = perPage
  ok : ∀ e ∈ junk, e.Ok width

def newPage (m : Mem) (nent : Nat) (res3 : W) (junk : List Entry) : Page :=
  { w0 := BitVec.ofNat 8 0 ++ BitVec.ofNat 24 (perPage * m.hdr.lprm + 4),
    addr := (m.nxtadr - 1) / 2 + 1, res1 := 0#32, res2 := 0#32,
    nxtAddr := 0, nent := nent, chksum := 0#32, res3 := res3, entries := junk, modified := true }

theorem grow_cases {α : Type} {l : List α} {q : Nat} {a b x : α} (hl : 1 ≤ l.length)
    (h : (l.set (l.length - 1) a ++ [b])[q]? = some x) :
    (q = l.length ∧ x = b) ∨ (q = l.length - 1 ∧ x = a) ∨ (q < l.length - 1 ∧ l[q]? = some x) := by
  by_cases hq : q < l.length
  · rw [List.getElem?_append_left (by simpa using hq)] at h
    rcases getElem?_set_cases h with ⟨h1, h2, _⟩ | ⟨h1, h2⟩
    · exact Or.inr (Or.inl ⟨h1, h2⟩)
    · exact Or.inr (Or.inr ⟨by omega, h2⟩)
  · rw [List.getElem?_append_right (by simp; omega)] at h
    have h1 := (List.getElem?_eq_some_iff.1 h).1
    simp only [List.length_set, List.length_singleton] at h1
    have : q - (l.set (l.length - 1) a).length = 0 := by simp; omega
    rw [this] at h
    exact Or.inl ⟨by omega, by simpa using h.symm⟩

theorem newPage_ok {m : Mem} {n : Nat} {res3 : W} {junk : List Entry} (hj : ValidJunk m.width junk)
    (hn : n < 2 ^ 32) (ha : m.nxtadr < 2 ^ 32) : (newPage m n res3 junk).Ok m.width :=
  ⟨by simp only [newPage]; omega, by simp [newPage], hn, hj.len, hj.ok⟩

/-- A new page with its first entry. -/
theorem Inv.grow_page {own : Own} {m : Mem} {d : Disk} {s : List Slot} (h : Inv own m d s)
    {last : Page} (hl : m.pages.getLast? = some last) (hn : 256 ≤ last.nent)
    (hM : m.pages.length < maxPages) (hrd : m.hdr.rwflg ≠ RDMODE) {res3 : W} {junk : List Entry}
    (hj : ValidJunk m.width junk) {fsiz' nxt' : Nat}
    (hf : fsiz' = m.hdr.fsiz + pageLng m.hdr.lprm) (hnx : nxt' = 2 * fsiz' + 1)
    (hfs : fsiz' < 2 ^ 30) (plst : W) :
    Inv (fun u => if u < m.hdr.fsiz then own u else .page m.pages.length)
      { hdr := { m.hdr with fsiz := fsiz', nbd := m.hdr.nbd + 1, plst := plst }
        pages := m.pages.set (m.pages.length - 1)
            { last with modified := true, nxtAddr := m.hdr.fsiz + 1 } ++ [newPage m 1 res3 junk]
        nxtadr := nxt', modified := m.modified }
      (writeAt d (2 * m.hdr.fsiz) (newPage m 0 res3 junk).words) (s ++ [.pending]) := by
  obtain ⟨hln, hle⟩ := h.last_nent hl
  have hnp := h.np1
  have hna := h.nxtadr
  have hfs0 := h.fs
  have hsl : s.length = 256 * m.pages.length := by omega
  have hpw : (newPage m 0 res3 junk).words.length = 2 * pageLng m.hdr.lprm :=
    page_words_len (newPage_ok hj (by simp) (by omega)) rfl
  have hpl : 1 ≤ pageLng m.hdr.lprm := by simp [pageLng]
  rw [getLast?_getElem?] at hl
  have hmono : m.hdr.fsiz ≤ fsiz' := by omega
  have ho : ∀ u, u < m.hdr.fsiz →
      (fun u => if u < m.hdr.fsiz then own u else Key.page m.pages.length) u = own u :=
    fun u hu => by simp [hu]
  have hown : ∀ u, m.hdr.fsiz ≤ u → u < m.hdr.fsiz + pageLng m.hdr.lprm →
      (fun u => if u < m.hdr.fsiz then own u else Key.page m.pages.length) u =
        .page m.pages.length := fun u hu _ => by simp; omega
  have haddr : ∀ n, (newPage m n res3 junk).addr = m.hdr.fsiz + 1 := fun n => by
    simp only [newPage]; omega
  constructor
  · exact ⟨h.hok.idtyp, h.hok.lng, by simp only; omega,
      by have := h.nbd; have := h.npM; simp only [maxPages] at *; omega, h.hok.nbig, h.hok.lprm,
      h.hok.nrec, h.hok.rwflg, h.hok.keys⟩
  · exact h.vrsn
  · exact h.lprm
  · exact h.mode
  · simp [h.nbd]
  · simp
  · simp only [List.length_append, List.length_set, List.length_singleton]; exact hM
  · exact hnx
  · exact hfs
  · rw [writeAt_length, hpw]; simp only; omega
  · simp; omega
  · simp; omega
  · intro q pq hq
    rcases grow_cases hnp hq with ⟨_, rfl⟩ | ⟨_, rfl⟩ | ⟨_, hq⟩
    · exact newPage_ok hj (by simp) (by omega)
    · have := h.pok _ last hl
      exact ⟨this.addr, by simp only; omega, this.nent, this.len, this.ents⟩
    · exact h.pok q pq hq
  · intro q pq hq
    simp only [List.length_append, List.length_singleton]
    rcases grow_cases hnp hq with ⟨rfl, rfl⟩ | ⟨rfl, rfl⟩ | ⟨hlt, hq⟩
    · simp only [newPage]; omega
    · simp only; omega
    · have := h.pnent q pq hq
      omega
  · intro q pq hq
    rcases grow_cases hnp hq with ⟨rfl, rfl⟩ | ⟨rfl, rfl⟩ | ⟨hlt, hq⟩
    · rw [haddr]
      exact ⟨by omega, hpl, by simp only; omega, fun u h1 h2 => by simp; omega⟩
    · exact (h.preg _ last hl).mono hmono ho
    · exact (h.preg q pq hq).mono hmono ho
  · intro pq hq
    rcases grow_cases hnp hq with ⟨hp0, rfl⟩ | ⟨hp0, rfl⟩ | ⟨hlt, hq⟩
    · omega
    · rw [← hp0] at hl; exact h.first last hl
    · exact h.first pq hq
  · intro q p1 p2 h1 h2
    rcases grow_cases hnp h1 with ⟨hq1, rfl⟩ | ⟨hq1, rfl⟩ | ⟨hq1, g1⟩ <;>
      rcases grow_cases hnp h2 with ⟨hq2, rfl⟩ | ⟨hq2, rfl⟩ | ⟨hq2, g2⟩
    · omega
    · omega
    · omega
    · rw [haddr]
    · omega
    · omega
    · omega
    · rw [← hq2] at hl; exact h.chain q p1 last g1 hl
    · exact h.chain q p1 p2 g1 g2
  · intro pq hq
    simp only [List.length_append, List.length_set, List.length_singleton] at hq
    rcases grow_cases hnp hq with ⟨_, rfl⟩ | ⟨hp0, rfl⟩ | ⟨hlt, hq⟩
    · rfl
    · omega
    · omega
  · exact h.hreg.mono hmono ho
  · intro q r' pq e sl hq he hs
    rcases append_one_cases hs with ⟨hlt, hs⟩ | ⟨_, rfl⟩
    · have : SlotOk own m.hdr.fsiz d m.width (256 * q + r') e sl := by
        rcases grow_cases hnp hq with ⟨rfl, rfl⟩ | ⟨rfl, rfl⟩ | ⟨_, hq⟩
        · omega
        · exact h.ents _ r' last e sl hl he hs
        · exact h.ents q r' pq e sl hq he hs
      exact this.mono hmono ho (k := .page m.pages.length) (by simp) hpw hown
    · trivial
  · intro q pq hq hm
    rcases hm with hm | hm
    · rcases grow_cases hnp hq with ⟨rfl, rfl⟩ | ⟨rfl, rfl⟩ | ⟨hlt, hq⟩
      · exact absurd (by rw [Nat.add_zero, ← hsl]; exact append_one_last s _) (hm.2 0 (by simp))
      · simp at hm
      · have h1 : Has d (2 * (pq.addr - 1)) pq.words := by
          refine h.img q pq hq (Or.inl ⟨hm.1, fun r hr hp => hm.2 r hr ?_⟩)
          rw [List.getElem?_append_left (List.getElem?_eq_some_iff.1 hp).1]; exact hp
        exact has_write_own (k := .page m.pages.length) (by simp; omega)
          ((h.preg q pq hq).mono hmono ho)
          (page_words_len (h.pok q pq hq) rfl) h1 hpw hown
    · exact absurd (append_one_last s _) (hm.2 s.length)
  · rw [List.countP_append]; simpa [Slot.isLive] using h.nrec
  · intro h0; exact absurd h0 hrd

end Verif.Xdf
