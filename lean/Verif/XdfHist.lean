import Verif.XdfRun
/-! Histories from creation, crashes, and the directory as one list. -/

namespace Verif.Xdf

/-- Arguments of `create` as computed by `create_new_xdf` from the key descriptors. -/
structure ValidCreate (lprm : Nat) (keys : List W) (junk : List Entry) : Prop where
  l1 : 1 ≤ lprm
  l2 : lprm < 2 ^ 16
  even : keys.length % 2 = 0
  small : keys.length < 2 ^ 24
  junk : ValidJunk (2 * lprm) junk

theorem create_inv {sign auxw res3 : W} {nprm : BitVec 16} {lprm : Nat} {keys : List W}
    {junk : List Entry} (hv : ValidCreate lprm keys junk) {m : Mem} {ws : List Write} {c : Code}
    (h : create sign nprm lprm auxw keys res3 junk = some (m, ws, c)) :
    c = .ok ∧ m.hdr.rwflg = CREATE ∧ m.width = 2 * lprm ∧ ∃ own, Inv own m (apply [] ws) [] := by
  unfold create at h
  simp only [addDirPage, List.length_nil, List.getLast?_nil] at h
  rw [if_neg (by simp)] at h
  have hsz : (1 + 2 * (keys.length / 2 + 8) + 2 * (perPage * lprm + 4) - 1) / 2 =
      keys.length / 2 + 8 + pageLng lprm := by simp only [pageLng]; omega
  rw [hsz] at h
  have he := hv.even
  have hs := hv.small
  have hl2 := hv.l2
  have hbig : ¬ (keys.length / 2 + 8 + pageLng lprm ≥ 2 ^ 30) := by
    simp only [pageLng, perPage]; omega
  rw [if_neg hbig] at h
  simp only [List.nil_append, Option.some.injEq, Prod.mk.injEq] at h
  obtain ⟨rfl, rfl, rfl⟩ := h
  refine ⟨rfl, rfl, rfl, fun u => if u < keys.length / 2 + 8 then .hdr else .page 0, ?_⟩
  have hwpage : ∀ pg : Page, pg.Ok (2 * lprm) → pg.words.length = 2 * pageLng lprm :=
    fun pg h => page_words_len h rfl
  have hone : ∀ (q : Nat) (a b : Page), ([a] : List Page)[q]? = some b → q = 0 ∧ b = a := by
    intro q a b hq
    have h1 := (List.getElem?_eq_some_iff.1 hq).1
    have : q = 0 := by simp at h1; omega
    subst this
    exact ⟨rfl, by simpa using hq.symm⟩
  have haddr : (1 + 2 * (keys.length / 2 + 8) - 1) / 2 + 1 = keys.length / 2 + 8 + 1 := by omega
  have hpos : 1 + 2 * (keys.length / 2 + 8) - 1 = 2 * (keys.length / 2 + 8) := by omega
  have hdiv : 2 * (keys.length / 2 + 8) / 2 = keys.length / 2 + 8 := by omega
  have hfit : keys.length / 2 + 8 + pageLng lprm < 2 ^ 30 := by omega
  have hpl1 : 1 ≤ pageLng lprm := by simp [pageLng]
  simp only [hpos, hdiv]
  constructor
  · refine ⟨by simp, by simp only; omega, by simp only; omega, by simp, by simp, hv.l2,
      by simp, by simp [CREATE], by simp only; omega⟩
  · rfl
  · exact hv.l1
  · simp [CREATE]
  · rfl
  · simp
  · simp [maxPages]
  · simp only [pageLng]; omega
  · exact hfit
  · show 2 * (keys.length / 2 + 8 + pageLng lprm) ≤ _
    simp only [apply, List.foldl_cons, List.foldl_nil]
    rw [writeAt_length]
    have := hwpage { w0 := BitVec.ofNat 8 0 ++ BitVec.ofNat 24 (perPage * lprm + 4),
                     addr := keys.length / 2 + 8 + 1, res1 := 0#32, res2 := 0#32, nxtAddr := 0,
                     nent := 0, chksum := 0#32, res3 := res3, entries := junk, modified := true }
      ⟨by simp only; omega, by simp, by simp, hv.junk.len, hv.junk.ok⟩
    rw [this]; omega
  · simp
  · simp
  · intro q pq hq
    obtain ⟨rfl, rfl⟩ := hone q _ pq hq
    exact ⟨by simp only; omega, by simp, by simp, hv.junk.len, hv.junk.ok⟩
  · intro q pq hq
    obtain ⟨rfl, rfl⟩ := hone q _ pq hq
    simp
  · intro q pq hq
    obtain ⟨rfl, rfl⟩ := hone q _ pq hq
    exact ⟨by simp, hpl1, by simp, fun u h1 h2 => by simp only at *; rw [if_neg (by omega)]⟩
  · intro pq hq
    obtain ⟨-, rfl⟩ := hone 0 _ pq hq
    rfl
  · intro q p1 p2 _ h2
    obtain ⟨h0, -⟩ := hone _ _ _ h2
    omega
  · intro pq hq
    obtain ⟨-, rfl⟩ := hone _ _ pq hq
    rfl
  · exact ⟨by omega, by simp only; omega, by simp only; omega,
      fun u h1 h2 => by simp only at *; rw [if_pos (by omega)]⟩
  · intro p r pg e sl _ _ hs; simp at hs
  · intro q pq hq hm
    obtain ⟨rfl, rfl⟩ := hone q _ pq hq
    simp at hm
  · simp
  · intro h0; simp [CREATE, RDMODE] at h0

/-- The whole history keeps the invariant and follows the specification. -/
theorem run_inv {own : Own} {m m' : Mem} {d d' : Disk} {f : File} (h : Inv own m d f.slots)
    (hnp : NoPending f.slots) (hmode : m.hdr.rwflg = f.mode) {ops : List Op} {cs : List Code}
    (hv : ValidRun m.width f ops) (hr : run m d ops = some (m', d', cs)) :
    cs = (f.run ops).2 ∧ m'.hdr.rwflg = (f.run ops).1.mode ∧ m'.width = m.width ∧
      NoPending (f.run ops).1.slots ∧ ∃ own', Inv own' m' d' (f.run ops).1.slots := by
  induction ops generalizing own m d f cs with
  | nil =>
    simp only [run, Option.some.injEq, Prod.mk.injEq] at hr
    obtain ⟨rfl, rfl, rfl⟩ := hr
    exact ⟨rfl, hmode, rfl, hnp, own, h⟩
  | cons op ops ih =>
    obtain ⟨hv1, hv2⟩ := hv
    rw [run] at hr
    rcases step_good h hnp hmode hv1 with ⟨hn, -⟩ | ⟨m1, ws, own1, hs, hi, hm, hlp, -, -, -, -⟩
    · rw [hn] at hr; simp at hr
    · rw [hs] at hr
      simp only at hr
      have hw : m1.width = m.width := by simp [Mem.width, hlp]
      cases hr2 : run m1 (apply d ws) ops with
      | none => rw [hr2] at hr; simp at hr
      | some x =>
        obtain ⟨m2, d2, cs2⟩ := x
        rw [hr2] at hr
        simp only [Option.some.injEq, Prod.mk.injEq] at hr
        obtain ⟨rfl, rfl, rfl⟩ := hr
        obtain ⟨g1, g2, g3, g4, g5⟩ := ih hi (step_noPending f op hnp) hm (by rw [hw]; exact hv2) hr2
        refine ⟨?_, g2, g3.trans hw, g4, g5⟩
        rw [g1]
        rfl

/-! ## The directory as one list -/

/-- All directory entries of a file in order. -/
def allEntries (pages : List Page) : List Entry := pages.flatMap fun pg => pg.entries.take pg.nent

theorem allEntries_get (pages : List Page) (n : Nat)
    (hlen : ∀ (p : Nat) (pg : Page), pages[p]? = some pg → pg.entries.length = 256)
    (hnent : ∀ (p : Nat) (pg : Page), pages[p]? = some pg → pg.nent = min 256 (n - 256 * p))
    (h1 : n ≤ 256 * pages.length) :
    (allEntries pages).length = n ∧
    ∀ i, i < n → (allEntries pages)[i]? = (pages[i / 256]?).bind fun pg => pg.entries[i % 256]? := by
  induction pages generalizing n with
  | nil =>
    have : n = 0 := by simpa using h1
    subst this
    exact ⟨rfl, fun i hi => by omega⟩
  | cons pg rest ih =>
    have hl := hlen 0 pg rfl
    have hn := hnent 0 pg rfl
    have hr := ih (n - 256) (fun p q hq => hlen (p + 1) q (by simpa using hq))
      (fun p q hq => by rw [hnent (p + 1) q (by simpa using hq)]; omega)
      (by simp only [List.length_cons] at h1; omega)
    have hc : allEntries (pg :: rest) = pg.entries.take pg.nent ++ allEntries rest := by
      simp [allEntries]
    have hpl : (pg.entries.take pg.nent).length = min 256 n := by
      rw [List.length_take, hl, hn]; omega
    refine ⟨by rw [hc, List.length_append, hpl, hr.1]; omega, fun i hi => ?_⟩
    rw [hc]
    by_cases hi2 : i < 256
    · rw [List.getElem?_append_left (by rw [hpl]; omega), List.getElem?_take_of_lt (by omega),
        Nat.div_eq_of_lt hi2, Nat.mod_eq_of_lt hi2]
      rfl
    · have h256 : (pg.entries.take pg.nent).length = 256 := by omega
      rw [List.getElem?_append_right (by omega), h256, hr.2 (i - 256) (by omega)]
      have e1 : i / 256 = (i - 256) / 256 + 1 := by omega
      have e2 : (i - 256) % 256 = i % 256 := by omega
      rw [e1, e2, List.getElem?_cons_succ]

theorem Inv.all {own : Own} {m : Mem} {d : Disk} {s : List Slot} (h : Inv own m d s) :
    (allEntries m.pages).length = s.length ∧
    ∀ (i : Nat) (e : Entry) (sl : Slot), (allEntries m.pages)[i]? = some e → s[i]? = some sl →
      SlotOk own m.hdr.fsiz d m.width i e sl := by
  obtain ⟨h1, h2⟩ := allEntries_get m.pages s.length (fun p pg hp => (h.pok p pg hp).len) h.pnent h.slen
  refine ⟨h1, fun i e sl he hs => ?_⟩
  have hi : i < s.length := (List.getElem?_eq_some_iff.1 hs).1
  rw [h2 i hi] at he
  cases hp : m.pages[i / 256]? with
  | none => rw [hp] at he; simp at he
  | some pg =>
    rw [hp] at he
    have hix : 256 * (i / 256) + i % 256 = i := by omega
    have := h.ents (i / 256) (i % 256) pg e sl hp he (by rw [hix]; exact hs)
    rwa [hix] at this

/-- The number of entries not marked deleted is the number of live slots. -/
theorem Inv.live_entries {own : Own} {m : Mem} {d : Disk} {s : List Slot} (h : Inv own m d s)
    (hnp : NoPending s) :
    (allEntries m.pages).countP (fun e => !isDeleted e) = s.countP Slot.isLive := by
  obtain ⟨h1, h2⟩ := h.all
  have hmap : (allEntries m.pages).map (fun e => !isDeleted e) = s.map Slot.isLive := by
    apply List.ext_getElem?
    intro i
    rw [List.getElem?_map, List.getElem?_map]
    by_cases hi : i < s.length
    · have he := List.getElem?_eq_getElem (l := allEntries m.pages) (by omega : i < _)
      have hs := List.getElem?_eq_getElem hi
      have hok := h2 i _ _ he hs
      rw [he, hs]
      simp only [Option.map_some, Option.some.injEq]
      cases hsl : s[i] with
      | pending => rw [hsl] at hs; exact absurd hs (hnp i)
      | dead =>
        rw [hsl] at hok
        rw [(dead_deleted hok.1).2]; rfl
      | live t pl =>
        rw [hsl] at hok
        obtain ⟨⟨g1, _, g3, _⟩, _⟩ := hok
        simp only [isDeleted, g1, live_not_deleted t g3]
        rfl
    · rw [List.getElem?_eq_none (by omega), List.getElem?_eq_none (by omega)]; rfl
  have e1 := List.countP_map (p := id) (f := fun e => !isDeleted e) (l := allEntries m.pages)
  have e2 := List.countP_map (p := id) (f := Slot.isLive) (l := s)
  rw [hmap, e2] at e1
  exact e1.symm

/-! ## Reading -/

theorem Inv.get_live {own : Own} {m : Mem} {d : Disk} {s : List Slot} (h : Inv own m d s) {p r t : Nat}
    {pl : List W} (hr : r < 256) (hs : s[256 * p + r]? = some (.live t pl)) :
    ∃ pg e, m.pages[p]? = some pg ∧ pg.entries[r]? = some e ∧ r < pg.nent ∧ e.idtyp = t ∧
      e.keys = pl.take (m.width - 2) ∧ t < 2 ^ 8 ∧
      get m d p r = .ok (some (recWords t e.lng e.addr pl)) := by
  obtain ⟨pg, e, hp, he, hn, hso, heok⟩ := h.slot hr hs
  obtain ⟨⟨h1, h2, h3, h4, h5, h6⟩, hreg⟩ := hso
  have hdel : isDeleted e = false := by simp only [isDeleted, h1]; exact live_not_deleted t h3
  refine ⟨pg, e, hp, he, hn, h1, h5, by omega, ?_⟩
  unfold get
  rw [locate_eq h hp he hn]
  simp only
  rw [if_neg (by omega), hdel, if_neg (by simp), has_read h6 (by simp [recWords]; omega) (by omega)]

theorem Inv.get_dead {own : Own} {m : Mem} {d : Disk} {s : List Slot} (h : Inv own m d s) {p r : Nat}
    (hr : r < 256) (hs : s[256 * p + r]? = some .dead) : get m d p r = .error .deleted := by
  obtain ⟨pg, e, hp, he, hn, hso, heok⟩ := h.slot hr hs
  obtain ⟨h1, h2⟩ := dead_deleted hso.1
  unfold get
  rw [locate_eq h hp he hn]
  simp [h1, h2]

/-! ## Crashes -/

/-- A disk left by a crash: every word not covered by one of the writes is as before (writes may
have been done in part, in any order). -/
def CrashDisk (d : Disk) (ws : List Write) (d' : Disk) : Prop :=
  d.length ≤ d'.length ∧
  ∀ i, i < d.length → (∀ w ∈ ws, ¬ (w.1 ≤ i ∧ i < w.1 + w.2.length)) → d'[i]? = d[i]?

theorem crash_apply (d : Disk) (ws : List Write) : CrashDisk d ws (apply d ws) := by
  induction ws generalizing d with
  | nil => exact ⟨Nat.le_refl _, fun _ _ _ => rfl⟩
  | cons w ws ih =>
    obtain ⟨h1, h2⟩ := ih (writeAt d w.1 w.2)
    have hl : d.length ≤ (writeAt d w.1 w.2).length := by rw [writeAt_length]; omega
    refine ⟨Nat.le_trans hl h1, fun i hi hw => ?_⟩
    have hw0 := hw w (by simp)
    show (apply (writeAt d w.1 w.2) ws)[i]? = _
    rw [h2 i (by omega) (fun v hv => hw v (by simp [hv])), writeAt_get]
    by_cases hlt : i < w.1
    · rw [if_pos hlt, if_pos hi]
    · rw [if_neg hlt, if_neg (by omega)]

theorem crash_mono {d d' : Disk} {ws ws' : List Write} (h : CrashDisk d ws d')
    (hs : ∀ w ∈ ws, w ∈ ws') : CrashDisk d ws' d' :=
  ⟨h.1, fun i hi hw => h.2 i hi (fun w hm => hw w (hs w hm))⟩

/-- A crash after some of the writes, the next one being cut. -/
theorem crash_torn (d : Disk) (pre : List Write) (w : Write) (post : List Write) (j : Nat) :
    CrashDisk d (pre ++ w :: post) (apply d (pre ++ [(w.1, w.2.take j)])) := by
  obtain ⟨h1, h2⟩ := crash_apply d (pre ++ [(w.1, w.2.take j)])
  refine ⟨h1, fun i hi hw => h2 i hi (fun v hv => ?_)⟩
  rcases List.mem_append.1 hv with hv | hv
  · exact hw v (by simp [hv])
  · rw [List.mem_singleton] at hv
    subst hv
    have := hw w (by simp)
    simp only [List.length_take]
    omega

/-- Words of units not covered survive. -/
theorem crash_has {d d' : Disk} {ws : List Write} (h : CrashDisk d ws d') {a : Nat} {vs : List W}
    (hh : Has d a vs)
    (hc : ∀ w ∈ ws, ∀ i, a ≤ i → i < a + vs.length → ¬ (w.1 ≤ i ∧ i < w.1 + w.2.length)) :
    Has d' a vs := by
  intro i hi
  have hl := has_lt hh (by intro h; simp [h] at hi)
  rw [h.2 (a + i) (by omega) (fun w hw => hc w hw _ (by omega) (by omega))]
  exact hh i hi

/-- All writes of a history. -/
def writes (m : Mem) (d : Disk) : List Op → Option (List Write)
  | [] => some []
  | op :: ops =>
    match step m d op with
    | none => none
    | some (m', ws, _) => (writes m' (apply d ws) ops).map (ws ++ ·)

/-- Session writes touch old words only in slots rewritten in place. -/
theorem session_writes {own0 own : Own} {F : Nat} {m : Mem} {d : Disk} {f : File}
    (h : Inv own m d f.slots) (hnp : NoPending f.slots) (hmode : m.hdr.rwflg = f.mode)
    (hF : F ≤ m.hdr.fsiz) (ho : ∀ u, u < F → own u = own0 u) {ops : List Op}
    (hses : ∀ op ∈ ops, op.isSession = true) (hv : ValidRun m.width f ops) {ws : List Write}
    (hw : writes m d ops = some ws) :
    ∀ w ∈ ws, ∀ i, w.1 ≤ i → i < w.1 + w.2.length → i < 2 * F →
      ∃ p r data res3 junk, Op.rewrite p r data res3 junk ∈ ops ∧ own0 (i / 2) = .ent (256 * p + r) := by
  induction ops generalizing own m d f ws with
  | nil =>
    simp only [writes, Option.some.injEq] at hw
    subst hw
    intro w hw; simp at hw
  | cons op ops ih =>
    obtain ⟨hv1, hv2⟩ := hv
    rw [writes] at hw
    rcases step_good h hnp hmode hv1 with ⟨hn, -⟩ | ⟨m1, ws1, own1, hs, hi, hm, hlp, -, hfs, hox, hsw⟩
    · rw [hn] at hw; simp at hw
    · rw [hs] at hw
      simp only at hw
      have hwid : m1.width = m.width := by simp [Mem.width, hlp]
      cases hw2 : writes m1 (apply d ws1) ops with
      | none => rw [hw2] at hw; simp at hw
      | some ws2 =>
        rw [hw2] at hw
        simp only [Option.map_some, Option.some.injEq] at hw
        subst hw
        intro w hwm i h1 h2 h3
        rcases List.mem_append.1 hwm with hwm | hwm
        · rcases hsw (hses op (by simp)) with hae | ⟨p, r, data, res3, junk, hop, hin⟩
          · have := hae w hwm
            omega
          · obtain ⟨a, n, g1, g2, g3, g4⟩ := hin w hwm
            refine ⟨p, r, data, res3, junk, by rw [hop]; simp, ?_⟩
            rw [← ho (i / 2) (by omega)]
            exact g4 (i / 2) (by omega) (by omega)
        · obtain ⟨p, r, data, res3, junk, g1, g2⟩ := ih hi (step_noPending f op hnp) hm
            (Nat.le_trans hF hfs) (fun u hu => by rw [hox u (by omega)]; exact ho u hu)
            (fun o ho' => hses o (by simp [ho'])) (by rw [hwid]; exact hv2) hw2 w hwm i h1 h2 h3
          exact ⟨p, r, data, res3, junk, by simp [g1], g2⟩

end Verif.Xdf
