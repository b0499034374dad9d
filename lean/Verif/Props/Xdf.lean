import Verif.XdfHist

/-! # Properties C20 to C26: random files at the XDF level

A history starts with the creation of a file and goes on with any number of appends, rewrites (in
place or at the end), deletions, checkpoints, and closings followed by an opening in any mode.  A
record is named by its page and its number in the page, which is what its handle contains (C15). -/

namespace Verif.Xdf

/-- `m` and `d` (memory and disk) are reached from the creation of a file by the operations `ops`,
which returned the codes `cs`.  `lprm` is half the number of words of a directory entry. -/
structure History (lprm : Nat) (ops : List Op) (m : Mem) (d : Disk) (cs : List Code) : Prop where
  ex : ∃ sign nprm auxw keys res3 junk m0 ws0 c, ValidCreate lprm keys junk ∧
    create sign nprm lprm auxw keys res3 junk = some (m0, ws0, c) ∧
    ValidRun (2 * lprm) ⟨CREATE, []⟩ ops ∧ run m0 (apply [] ws0) ops = some (m, d, cs)

/-- What a user should see after `ops`. -/
def expected (ops : List Op) : File := ((⟨CREATE, []⟩ : File).run ops).1

/-- What the user sees of a record: its type, the keys of its directory entry, and its data words on
disk (without the two header words).  `none` when it cannot be read. -/
def look (m : Mem) (d : Disk) (p r : Nat) : Option (Nat × List W × List W) :=
  match locate m p r, get m d p r with
  | .ok (some (_, e)), .ok (some ws) => some (e.idtyp, e.keys, ws.drop 2)
  | _, _ => none

/-- Page `p` has a record number `r`. -/
def HasSlot (m : Mem) (p r : Nat) : Prop := r < 256 ∧ 256 * p + r < (allEntries m.pages).length

def Slot.seen (width : Nat) : Slot → Option (Nat × List W × List W)
  | .live t pl => some (t, pl.take (width - 2), pl)
  | _ => none

theorem History.inv {lprm : Nat} {ops : List Op} {m : Mem} {d : Disk} {cs : List Code}
    (h : History lprm ops m d cs) :
    cs = ((⟨CREATE, []⟩ : File).run ops).2 ∧ m.hdr.rwflg = (expected ops).mode ∧
      m.width = 2 * lprm ∧ NoPending (expected ops).slots ∧ ∃ own, Inv own m d (expected ops).slots := by
  obtain ⟨sign, nprm, auxw, keys, res3, junk, m0, ws0, c, hv, hc, hvr, hr⟩ := h.ex
  obtain ⟨-, hrw, hw, own, hi⟩ := create_inv hv hc
  have := run_inv (f := ⟨CREATE, []⟩) hi (by intro i; simp) hrw (by rw [hw]; exact hvr) hr
  rw [hw] at this
  exact this

theorem Inv.look {own : Own} {m : Mem} {d : Disk} {s : List Slot} (h : Inv own m d s)
    (hnp : NoPending s) {p r : Nat} (hr : r < 256) (hs : 256 * p + r < s.length) :
    look m d p r = (s[256 * p + r]).seen m.width := by
  have hg := List.getElem?_eq_getElem hs
  rcases slot_cases hnp hs with ⟨t, pl, hl⟩ | hl
  · obtain ⟨pg, e, hp, he, hn, ht, hk, -, hget⟩ := h.get_live hr hl
    rw [hg] at hl
    rw [Option.some.inj hl]
    unfold Xdf.look
    rw [locate_eq h hp he hn, hget]
    simp [Slot.seen, ht, hk, recWords]
  · have hget := h.get_dead hr hl
    rw [hg] at hl
    rw [Option.some.inj hl]
    unfold Xdf.look
    rw [hget]
    cases locate m p r with
    | error c => rfl
    | ok o => cases o <;> rfl

/-! ## C21 -/

/-- **C21 (histories).** After any history the codes returned and everything readable in the file are
what the list of slots says: slot `256 p + r` is seen as record `r` of page `p`. -/
theorem C21_history {lprm : Nat} {ops : List Op} {m : Mem} {d : Disk} {cs : List Code}
    (h : History lprm ops m d cs) :
    cs = ((⟨CREATE, []⟩ : File).run ops).2 ∧
    (allEntries m.pages).length = (expected ops).slots.length ∧
    ∀ p r sl, r < 256 → (expected ops).slots[256 * p + r]? = some sl →
      look m d p r = sl.seen (2 * lprm) := by
  obtain ⟨h1, -, h3, h4, own, hi⟩ := h.inv
  refine ⟨h1, hi.all.1, fun p r sl hr hs => ?_⟩
  obtain ⟨hlt, hs⟩ := List.getElem?_eq_some_iff.1 hs
  rw [hi.look h4 hr hlt, hs, h3]

/-- The operation names slot `i`. -/
def Op.touches (i : Nat) : Op → Prop
  | .rewrite p r _ _ _ => 256 * p + r = i
  | .rewriteEnd p r _ _ _ => 256 * p + r = i
  | .del p r => 256 * p + r = i
  | _ => False

theorem add_keeps (f : File) (data : List W) (old : Option Nat) {i : Nat} (hi : i < f.slots.length)
    (ho : old ≠ some i) : (f.add data old).1.slots[i]? = f.slots[i]? ∧
      f.slots.length ≤ (f.add data old).1.slots.length := by
  unfold File.add
  split
  · exact ⟨rfl, Nat.le_refl _⟩
  · cases old with
    | none =>
      exact ⟨by simp only; rw [List.getElem?_append_left hi], by simp⟩
    | some j =>
      have : j ≠ i := fun hc => ho (by rw [hc])
      refine ⟨?_, by simp⟩
      simp only
      rw [List.getElem?_append_left (by simpa using hi), List.getElem?_set_ne this]

theorem step_keeps (f : File) (op : Op) {i : Nat} (hi : i < f.slots.length) (ht : ¬ op.touches i) :
    (f.step op).1.slots[i]? = f.slots[i]? ∧ f.slots.length ≤ (f.step op).1.slots.length := by
  cases op with
  | append data res3 junk =>
    simp only [File.step]
    split
    · exact ⟨rfl, Nat.le_refl _⟩
    · split
      · exact ⟨rfl, Nat.le_refl _⟩
      · exact add_keeps f data none hi (by simp)
  | rewrite p r data res3 junk =>
    simp only [Op.touches] at ht
    simp only [File.step]
    split
    · exact ⟨rfl, Nat.le_refl _⟩
    · split
      · exact ⟨rfl, Nat.le_refl _⟩
      · split
        · split
          · exact ⟨by simp only; rw [List.getElem?_set_ne ht], by simp⟩
          · exact add_keeps f data _ hi (by simpa using ht)
        · exact ⟨rfl, Nat.le_refl _⟩
  | rewriteEnd p r data res3 junk =>
    simp only [Op.touches] at ht
    simp only [File.step]
    split
    · exact ⟨rfl, Nat.le_refl _⟩
    · split
      · exact ⟨rfl, Nat.le_refl _⟩
      · split
        · exact add_keeps f data _ hi (by simpa using ht)
        · exact ⟨rfl, Nat.le_refl _⟩
  | del p r =>
    simp only [Op.touches] at ht
    simp only [File.step]
    split
    · exact ⟨rfl, Nat.le_refl _⟩
    · split
      · exact ⟨by simp only; rw [List.getElem?_set_ne ht], by simp⟩
      · exact ⟨rfl, Nat.le_refl _⟩
  | checkpoint => exact ⟨rfl, Nat.le_refl _⟩
  | reopen mode => exact ⟨rfl, Nat.le_refl _⟩

theorem run_keeps (f : File) (ops : List Op) {i : Nat} (hi : i < f.slots.length)
    (ht : ∀ op ∈ ops, ¬ op.touches i) : (f.run ops).1.slots[i]? = f.slots[i]? := by
  induction ops generalizing f with
  | nil => rfl
  | cons op ops ih =>
    obtain ⟨h1, h2⟩ := step_keeps f op hi (ht op (by simp))
    exact (ih (f.step op).1 (by omega) (fun o ho => ht o (by simp [ho]))).trans h1

theorem run_append (f : File) (a b : List Op) :
    (f.run (a ++ b)).1 = ((f.run a).1.run b).1 ∧ (f.run (a ++ b)).2 = (f.run a).2 ++ ((f.run a).1.run b).2 := by
  induction a generalizing f with
  | nil => exact ⟨rfl, rfl⟩
  | cons op a ih =>
    obtain ⟨h1, h2⟩ := ih (f.step op).1
    exact ⟨h1, by simp [File.run, h2]⟩

theorem run_codes (f : File) (a : List Op) : (f.run a).2.length = a.length := by
  induction a generalizing f with
  | nil => rfl
  | cons op a ih => simp [File.run, ih]

theorem code_at (f : File) (a : List Op) (op : Op) (b : List Op) :
    (f.run (a ++ op :: b)).2[a.length]? = some ((f.run a).1.step op).2 := by
  rw [(run_append f a _).2, List.getElem?_append_right (by rw [run_codes]; exact Nat.le_refl _),
    run_codes, Nat.sub_self]
  rfl

/-- **C21.** A record appended with success at any moment of a history is found at the slot that was
next in the directory, with the words of the buffer, as long as no later operation names it. -/
theorem C21_read_back {lprm : Nat} {before later : List Op} {data : List W} {res3 : W}
    {junk : List Entry} {m : Mem} {d : Disk} {cs : List Code}
    (h : History lprm (before ++ .append data res3 junk :: later) m d cs)
    (hok : cs[before.length]? = some .ok)
    (hl : ∀ op ∈ later, ¬ op.touches (expected before).slots.length) :
    look m d ((expected before).slots.length / 256) ((expected before).slots.length % 256) =
      some (idtypOf data, (data.drop 2).take (2 * lprm - 2), data.drop 2) := by
  obtain ⟨hcs, -, hlook⟩ := C21_history h
  rw [hcs, code_at] at hok
  have hstep : (File.step (expected before) (.append data res3 junk)).2 = .ok := Option.some.inj hok
  have hslots : (File.step (expected before) (.append data res3 junk)).1.slots =
      (expected before).slots ++ [slotOf data] := by
    simp only [File.step] at hstep ⊢
    split at hstep
    · simp at hstep
    · rename_i h1
      rw [if_neg h1]
      split at hstep
      · simp at hstep
      · rename_i h2
        rw [if_neg h2]
        unfold File.add at hstep ⊢
        split at hstep
        · simp at hstep
        · rename_i h3
          rw [if_neg h3]
  have hex : (expected (before ++ .append data res3 junk :: later)).slots[(expected before).slots.length]? =
      some (slotOf data) := by
    have e : expected (before ++ .append data res3 junk :: later) =
        ((File.step (expected before) (.append data res3 junk)).1.run later).1 :=
      (run_append _ before _).1
    rw [e, run_keeps _ later (by rw [hslots]; simp) hl, hslots]
    simp
  have hix : 256 * ((expected before).slots.length / 256) + (expected before).slots.length % 256 =
      (expected before).slots.length := by omega
  have := hlook _ _ _ (Nat.mod_lt _ (by omega)) (by rw [hix]; exact hex)
  rw [this]
  rfl

/-- **C21 (rewriting).** A record rewritten with success is found at its old slot when the length is
the same, else at the next slot of the directory, the old one being deleted. -/
theorem C21_rewrite {lprm : Nat} {before : List Op} {p r : Nat} {data : List W} {res3 : W}
    {junk : List Entry} {m : Mem} {d : Disk} {cs : List Code} (hr : r < 256)
    (h : History lprm (before ++ [.rewrite p r data res3 junk]) m d cs)
    (hok : cs[before.length]? = some .ok) :
    (∃ t pl, (expected before).slots[256 * p + r]? = some (.live t pl) ∧
      (pl.length + 2 = data.length →
        look m d p r = some (idtypOf data, (data.drop 2).take (2 * lprm - 2), data.drop 2)) ∧
      (pl.length + 2 ≠ data.length → look m d p r = none ∧
        look m d ((expected before).slots.length / 256) ((expected before).slots.length % 256) =
          some (idtypOf data, (data.drop 2).take (2 * lprm - 2), data.drop 2))) ∧
    ∀ p' r' sl, r' < 256 → 256 * p' + r' ≠ 256 * p + r →
      (expected before).slots[256 * p' + r']? = some sl → look m d p' r' = sl.seen (2 * lprm) := by
  obtain ⟨hcs, -, hlook⟩ := C21_history h
  rw [hcs, code_at] at hok
  have hstep : (File.step (expected before) (.rewrite p r data res3 junk)).2 = .ok := Option.some.inj hok
  have e : expected (before ++ [.rewrite p r data res3 junk]) =
      (File.step (expected before) (.rewrite p r data res3 junk)).1 := (run_append _ before _).1
  rw [e] at hlook
  refine ⟨?_, fun p' r' sl hr' hne hs => ?_⟩
  · simp only [File.step] at hstep hlook
    split at hstep
    · simp at hstep
    · rename_i h1
      rw [if_neg h1] at hlook
      split at hstep
      · simp at hstep
      · rename_i h2
        rw [if_neg h2] at hlook
        split at hstep
        · rename_i t pl hsl
          rw [hsl] at hlook
          simp only at hlook
          have hi : 256 * p + r < (expected before).slots.length := (List.getElem?_eq_some_iff.1 hsl).1
          refine ⟨t, pl, hsl, fun hl => ?_, fun hl => ?_⟩
          · rw [if_pos hl] at hlook
            have := hlook p r (slotOf data) hr (by simp [hi])
            rw [this]; rfl
          · rw [if_neg hl] at hlook hstep
            unfold File.add at hlook hstep
            split at hstep
            · simp at hstep
            · rename_i h3
              rw [if_neg h3] at hlook
              simp only at hlook
              have g1 := hlook p r .dead hr (by
                rw [List.getElem?_append_left (by simpa using hi)]; simp [hi])
              have hix : 256 * ((expected before).slots.length / 256) +
                  (expected before).slots.length % 256 = (expected before).slots.length := by omega
              have g2 := hlook _ _ (slotOf data) (Nat.mod_lt _ (by omega) :
                  (expected before).slots.length % 256 < 256) (by
                rw [hix, List.getElem?_append_right (by simp)]; simp)
              exact ⟨g1, g2⟩
        · simp at hstep
  · have hi := (List.getElem?_eq_some_iff.1 hs).1
    apply hlook p' r' sl hr'
    rw [(step_keeps _ _ hi (by simp only [Op.touches]; omega)).1, hs]

/-! ## C20 -/

/-- **C20.** Deleting a record that can be read, in a file open for writing, after any history:
it succeeds; the record can no longer be read nor deleted; every other record of the file is seen
as before, at the same place. -/
theorem C20_delete {lprm : Nat} {ops : List Op} {m : Mem} {d : Disk} {cs : List Code}
    (h : History lprm ops m d cs) {p r : Nat} (hs : HasSlot m p r) (hl : look m d p r ≠ none)
    (hm : m.hdr.rwflg ≠ RDMODE) (hm2 : m.hdr.rwflg ≠ APPEND) :
    ∃ m', del m p r = some (m', [], .ok) ∧ look m' d p r = none ∧ get m' d p r = .error .deleted ∧
      del m' p r = some (m', [], .deleted) ∧ m'.hdr.nrec + 1 = m.hdr.nrec ∧
      (allEntries m'.pages).length = (allEntries m.pages).length ∧
      ∀ p' r', HasSlot m p' r' → 256 * p' + r' ≠ 256 * p + r → look m' d p' r' = look m d p' r' := by
  obtain ⟨-, -, -, hnp, own, hi⟩ := h.inv
  obtain ⟨hr, hlt⟩ := hs
  rw [hi.all.1] at hlt
  rcases slot_cases hnp hlt with ⟨t, pl, hsl⟩ | hsl
  · obtain ⟨m', hd, hi', hx, -, -, -, -⟩ := del_live hi hr hsl hm hm2
    have hnp' := noPending_set hnp (i := 256 * p + r) (a := .dead) (by simp)
    have hdead : ((expected ops).slots.set (256 * p + r) .dead)[256 * p + r]? = some .dead := by
      simp [hlt]
    have hw : m'.width = m.width := by simp [Mem.width, hx.lprm]
    have hcount : ((expected ops).slots.set (256 * p + r) .dead).countP Slot.isLive + 1 =
        (expected ops).slots.countP Slot.isLive := by
      have := List.countP_set (p := Slot.isLive) (a := Slot.dead) hlt
      have hge : (expected ops).slots[256 * p + r] = .live t pl := (List.getElem?_eq_some_iff.1 hsl).2
      have hpos : 0 < (expected ops).slots.countP Slot.isLive :=
        List.countP_pos_iff.2 ⟨_, List.getElem_mem hlt, by rw [hge]; rfl⟩
      rw [this, hge]
      simp only [Slot.isLive, if_true, Bool.false_eq_true, if_false]
      omega
    refine ⟨m', hd, ?_, hi'.get_dead hr hdead, del_dead hi' hr hdead (by rw [hx.rwflg]; exact hm)
      (by rw [hx.rwflg]; exact hm2), ?_, ?_, ?_⟩
    · rw [hi'.look hnp' hr (by simpa using hlt)]
      simp [Slot.seen]
    · rw [hi'.nrec, hi.nrec, hcount]
    · rw [hi'.all.1, hi.all.1]; simp
    · intro p' r' hs' hne
      obtain ⟨hr', hlt'⟩ := hs'
      rw [hi.all.1] at hlt'
      rw [hi'.look hnp' hr' (by simpa using hlt'), hi.look hnp hr' hlt', hw,
        List.getElem_set_ne (by omega)]
  · exact absurd (by rw [hi.look hnp hr hlt]
                     have := (List.getElem?_eq_some_iff.1 hsl).2
                     rw [this]; rfl) hl

/-! ## C22 -/

/-- **C22.** After any history, closing the file and opening it in any mode shows the same number of
slots and, at each of them, the same record. -/
theorem C22_close_open {lprm : Nat} {ops : List Op} {m : Mem} {d : Disk} {cs : List Code}
    (h : History lprm ops m d cs) {mode : Nat} (hmode : mode ≤ 4) :
    ∃ m', openFile (apply d (close m)) mode = some (.ok m') ∧
      (allEntries m'.pages).length = (allEntries m.pages).length ∧ m'.hdr.nrec = m.hdr.nrec ∧
      m'.hdr.rwflg = mode ∧
      ∀ p r, HasSlot m p r → look m' (apply d (close m)) p r = look m d p r := by
  obtain ⟨-, -, -, hnp, own, hi⟩ := h.inv
  obtain ⟨m', ho, hi', hh, -, -⟩ := hi.reopen hnp hmode
  refine ⟨m', ho, by rw [hi'.all.1, hi.all.1], by rw [hh], by rw [hh], fun p r ⟨hr, hlt⟩ => ?_⟩
  rw [hi.all.1] at hlt
  have hw : m'.width = m.width := by simp [Mem.width, hh]
  rw [hi'.look hnp hr hlt, hi.look hnp hr hlt, hw]

/-! ## C26 -/

/-- **C26.** After any history the record count of the header is the number of directory entries not
marked deleted, and the number of slots where a record can be read. -/
theorem C26_counts {lprm : Nat} {ops : List Op} {m : Mem} {d : Disk} {cs : List Code}
    (h : History lprm ops m d cs) :
    m.hdr.nrec = (allEntries m.pages).countP (fun e => !isDeleted e) ∧
    m.hdr.nrec = (List.range (allEntries m.pages).length).countP
      (fun i => (look m d (i / 256) (i % 256)).isSome) := by
  obtain ⟨-, -, -, hnp, own, hi⟩ := h.inv
  refine ⟨by rw [hi.live_entries hnp, hi.nrec], ?_⟩
  rw [hi.nrec, hi.all.1]
  have hmap : (List.range (expected ops).slots.length).map
      (fun i => (Xdf.look m d (i / 256) (i % 256)).isSome) = (expected ops).slots.map Slot.isLive := by
    apply List.ext_getElem
    · simp
    · intro i h1 h2
      simp only [List.length_map, List.length_range] at h1
      have hix : 256 * (i / 256) + i % 256 = i := by omega
      have hlt : 256 * (i / 256) + i % 256 < (expected ops).slots.length := by omega
      simp only [List.getElem_map, List.getElem_range]
      rw [hi.look hnp (Nat.mod_lt _ (by omega)) hlt]
      simp only [hix]
      cases (expected ops).slots[i] <;> rfl
  have e1 := List.countP_map (p := id) (f := fun i => (Xdf.look m d (i / 256) (i % 256)).isSome)
    (l := List.range (expected ops).slots.length)
  have e2 := List.countP_map (p := id) (f := Slot.isLive) (l := (expected ops).slots)
  rw [hmap, e2] at e1
  exact e1

/-! ## C23 -/

theorem runs_append (m : Mem) (d : Disk) (a b : List Op) :
    run m d (a ++ b) = (run m d a).bind fun x => (run x.1 x.2.1 b).map fun y => (y.1, y.2.1, x.2.2 ++ y.2.2) := by
  induction a generalizing m d with
  | nil => simp [run]
  | cons op a ih =>
    simp only [List.cons_append, run]
    cases hs : step m d op with
    | none => rfl
    | some x =>
      obtain ⟨m1, ws, c⟩ := x
      simp only
      rw [ih]
      cases hr : run m1 (apply d ws) a with
      | none => rfl
      | some y =>
        obtain ⟨m2, d2, cs⟩ := y
        simp only [Option.bind_some]
        cases hr2 : run m2 d2 b with
        | none => rfl
        | some z => rfl

theorem validRun_append (w : Nat) (f : File) (a b : List Op) :
    ValidRun w f (a ++ b) ↔ ValidRun w f a ∧ ValidRun w (f.run a).1 b := by
  induction a generalizing f with
  | nil => simp [ValidRun, File.run]
  | cons op a ih =>
    simp only [List.cons_append, ValidRun]
    rw [ih]
    exact and_assoc.symm

theorem validRun_rewrite {w : Nat} {f : File} {ops : List Op} (h : ValidRun w f ops) {p r : Nat}
    {data : List W} {res3 : W} {junk : List Entry} (hm : Op.rewrite p r data res3 junk ∈ ops) :
    r < 256 := by
  induction ops generalizing f with
  | nil => simp at hm
  | cons op ops ih =>
    rcases List.mem_cons.1 hm with rfl | hm
    · exact h.1.2.2.1
    · exact ih h.2 hm

/-- The state just after an opening. -/
theorem History.reopened {lprm : Nat} {ops : List Op} {m : Mem} {d : Disk} {cs : List Code} {mode : Nat}
    (h : History lprm (ops ++ [.reopen mode]) m d cs) :
    ∃ own, Inv own m d (expected (ops ++ [.reopen mode])).slots ∧ m.modified = false ∧
      Has d 0 { m.hdr with rwflg := 0 }.words := by
  obtain ⟨sign, nprm, auxw, keys, res3, junk, m0, ws0, c, hv, hc, hvr, hr⟩ := h.ex
  rw [runs_append] at hr
  cases hr1 : run m0 (apply [] ws0) ops with
  | none => rw [hr1] at hr; simp at hr
  | some x =>
    obtain ⟨m1, d1, cs1⟩ := x
    rw [hr1] at hr
    have hh : History lprm ops m1 d1 cs1 :=
      ⟨sign, nprm, auxw, keys, res3, junk, m0, ws0, c, hv, hc, ((validRun_append _ _ _ _).1 hvr).1, hr1⟩
    obtain ⟨-, -, -, hnp, own, hi⟩ := hh.inv
    have hmode : mode ≤ 4 := ((validRun_append _ _ _ _).1 hvr).2.1
    obtain ⟨m', ho, hi', -, hmod, hhas⟩ := hi.reopen hnp hmode
    simp only [Option.bind_some, run, step, ho, Option.map_some, Option.some.injEq, Prod.mk.injEq] at hr
    obtain ⟨rfl, rfl, -⟩ := hr
    have e : (expected (ops ++ [.reopen mode])).slots = (expected ops).slots := by
      rw [expected, (run_append _ ops _).1]; rfl
    rw [e]
    exact ⟨own, hi', hmod, hhas⟩

/-- **C23.** A file is closed and opened again after any history; then any session of appends,
rewrites and deletions; then a crash: the disk `d'` keeps every word not covered by a write of the
session (the writes may be done, cut, lost or reordered).  The file opens in any mode, with the
directory of the last close, and every record not rewritten in place is seen as at the last close. -/
theorem C23_crash {lprm : Nat} {ops : List Op} {m : Mem} {d : Disk} {cs : List Code} {mode : Nat}
    (h : History lprm (ops ++ [.reopen mode]) m d cs) {session : List Op}
    (hses : ∀ op ∈ session, op.isSession = true)
    (hv : ValidRun (2 * lprm) (expected (ops ++ [.reopen mode])) session) {ws : List Write}
    (hw : writes m d session = some ws) {d' : Disk} (hd : CrashDisk d ws d') (mode' : Nat) :
    ∃ m', openFile d' mode' = some (.ok m') ∧
      (allEntries m'.pages).length = (allEntries m.pages).length ∧
      ∀ p r, HasSlot m p r → (∀ data res3 junk, Op.rewrite p r data res3 junk ∉ session) →
        look m' d' p r = look m d p r := by
  obtain ⟨own, hi, hmod, hhas⟩ := h.reopened
  obtain ⟨-, hmd, hwd, hnp, -⟩ := h.inv
  have hsw := session_writes hi hnp hmd (Nat.le_refl _) (fun _ _ => rfl) hses (by rw [hwd]; exact hv) hw
  -- words of a region not rewritten survive
  have keep : ∀ (k : Key) (addr lng : Nat) (vs : List W), Region own m.hdr.fsiz k addr lng →
      vs.length = 2 * lng →
      (∀ p r data res3 junk, Op.rewrite p r data res3 junk ∈ session → k ≠ .ent (256 * p + r)) →
      Has d (2 * (addr - 1)) vs → Has d' (2 * (addr - 1)) vs := by
    intro k addr lng vs hreg hvl hk hhs
    refine crash_has hd hhs fun w hwm i h1 h2 hc => ?_
    have hfit := hreg.fit
    obtain ⟨p, r, data, res3, junk, hmem, ho⟩ := hsw w hwm i hc.1 hc.2 (by omega)
    exact hk p r data res3 junk hmem (by rw [← ho, hreg.own (i / 2) (by omega) (by omega)])
  have hhdr : Has d' 0 { m.hdr with rwflg := 0 }.words := by
    have hok0 : ({ m.hdr with rwflg := 0 } : Header).Ok :=
      ⟨hi.hok.idtyp, hi.hok.lng, hi.hok.fsiz, hi.hok.nbd, hi.hok.nbig, hi.hok.lprm, hi.hok.nrec,
        by simp, hi.hok.keys⟩
    have := keep .hdr 1 m.hdr.lng ({ m.hdr with rwflg := 0 } : Header).words hi.hreg
      (Header.words_length hok0) (by simp) (by simpa using hhas)
    simpa using this
  have hpages : ∀ (p : Nat) (pg : Page), m.pages[p]? = some pg → Has d' (2 * (pg.addr - 1)) pg.words :=
    fun p pg hp => keep (.page p) _ _ _ (hi.preg p pg hp) (page_words_len (hi.pok p pg hp) rfl) (by simp)
      (hi.img p pg hp (Or.inr ⟨hmod, hnp⟩))
  refine ⟨_, hi.open hhdr hpages, ?_, ?_⟩
  · simp [allEntries, Xdf.reopened, List.flatMap_map]
  · intro p r ⟨hr, hlt⟩ hnr
    rw [hi.all.1] at hlt
    rw [hi.look hnp hr hlt]
    obtain ⟨pg, e, hp, he, hn, hso, heok⟩ := hi.slot hr (List.getElem?_eq_getElem hlt)
    have hp' : (Xdf.reopened m mode').pages[p]? = some { pg with modified := false } := by
      simp [Xdf.reopened, hp]
    have hloc : locate (Xdf.reopened m mode') p r = .ok (some ({ pg with modified := false }, e)) := by
      simp [locate, hp', he]; omega
    cases hsl : (expected (ops ++ [.reopen mode])).slots[256 * p + r] with
    | pending => exact absurd (by rw [List.getElem?_eq_getElem hlt, hsl]) (hnp (256 * p + r))
    | dead =>
      rw [hsl] at hso
      obtain ⟨g1, g2⟩ := dead_deleted hso.1
      simp [Xdf.look, get, hloc, g1, g2, Slot.seen]
    | live t pl =>
      rw [hsl] at hso
      obtain ⟨⟨h1, h2, h3, h4, h5, h6⟩, hreg⟩ := hso
      have hdel : isDeleted e = false := by simp only [isDeleted, h1]; exact live_not_deleted t h3
      have h6' := keep (.ent (256 * p + r)) e.addr e.lng _ hreg (by simp [recWords]; omega)
        (fun p' r' data res3 junk hmem hc => by
          have hr' := validRun_rewrite hv hmem
          injection hc with hc
          have : p' = p ∧ r' = r := by omega
          obtain ⟨rfl, rfl⟩ := this
          exact hnr _ _ _ hmem) h6
      have hrd := has_read h6' (n := 2 * e.lng) (by simp [recWords]; omega) (by omega)
      have h0 : e.idtyp ≠ 0 := by omega
      simp only [Xdf.look, get, hloc, if_neg h0, hdel, hrd]
      simp [Slot.seen, h1, h5, recWords]

/-! ## C24 -/

/-- **C24.** The process dies inside `close`, after any history on a file open for writing: the
first write is done, the last is not, and of the writes between them any part may have been done.
Opening the file for writing is refused. -/
theorem C24_half_closed {lprm : Nat} {ops : List Op} {m : Mem} {d : Disk} {cs : List Code}
    (h : History lprm ops m d cs) (hm : m.hdr.rwflg ≠ RDMODE) :
    ∃ first middle last, close m = first :: middle ++ [last] ∧
      ∀ d', CrashDisk (apply d [first]) middle d' → ∀ mode, mode ≠ RDMODE →
        openFile d' mode = some (.error .stillOpn) := by
  obtain ⟨-, -, -, hnp, own, hi⟩ := h.inv
  refine ⟨(0, m.hdr.words), if m.modified then (closePages m.pages).2 else [],
    (0, { m.hdr with rwflg := 0 }.words), by simp [close, if_pos hm], fun d' hd mode hmode => ?_⟩
  have hlen := Header.words_length hi.hok
  have hwin : ∀ w ∈ (if m.modified then (closePages m.pages).2 else []), ∃ k, k ≠ Key.hdr ∧ Within own k w := by
    intro w hw
    split at hw
    · obtain ⟨k, hk, hwk⟩ := closePages_within m.pages 0 (fun i pg hip => by
        rw [Nat.zero_add]; exact hi.pageHyp hnp hip) w hw
      refine ⟨k, ?_, hwk⟩
      rcases hk with ⟨p, _, _, rfl⟩ | ⟨j, _, rfl⟩ <;> simp
    · simp at hw
  have hhas : Has d' 0 m.hdr.words := by
    refine crash_has hd (has_write_self _ _ _) fun w hw i h1 h2 hc => ?_
    obtain ⟨k, hk, a, n, g1, g2, g3⟩ := hwin w hw
    apply hk
    rw [← g3 (i / 2) (by omega) (by omega)]
    exact hi.hreg.own (i / 2) (by omega) (by omega)
  have hl8 : 8 ≤ m.hdr.lng := by have := hi.hok.keys; omega
  have hr4 : readAt d' 0 4 = some (m.hdr.words.take 4) := by
    apply has_read
    · intro i hi4
      simp only [List.length_take] at hi4
      rw [hhas i (by omega), List.getElem?_take_of_lt (by omega)]
    · simp only [List.length_take]; omega
    · omega
  have hlng : (((m.hdr.words.take 4).getD 0 0#32).extractLsb' 0 24).toNat = m.hdr.lng := by
    have := congrArg Header.lng (Header.ofWords_words hi.hok)
    rw [← this]
    simp [Header.ofWords, Header.words]
  have hv : (m.hdr.words.take 4).getD 2 0#32 = 0x58444630#32 := by
    simp [Header.words, hi.vrsn]
  unfold openFile
  rw [hr4]
  simp only
  rw [if_pos (Or.inl hv), hlng, has_read hhas hlen (by omega)]
  simp only
  rw [Header.ofWords_words hi.hok, if_pos ⟨hmode, hm⟩]

/-- **C24 (crash between two writes).** -/
theorem C24_prefix {lprm : Nat} {ops : List Op} {m : Mem} {d : Disk} {cs : List Code}
    (h : History lprm ops m d cs) (hm : m.hdr.rwflg ≠ RDMODE) {k mode : Nat} (hk : 1 ≤ k)
    (hk2 : k < (close m).length) (hmode : mode ≠ RDMODE) :
    openFile (apply d ((close m).take k)) mode = some (.error .stillOpn) := by
  obtain ⟨first, middle, last, hc, hall⟩ := C24_half_closed h hm
  rw [hc] at hk2 ⊢
  simp only [List.length_append, List.length_cons, List.length_nil] at hk2
  obtain ⟨j, rfl⟩ : ∃ j, k = j + 1 := ⟨k - 1, by omega⟩
  have e : (first :: middle ++ [last]).take (j + 1) = first :: middle.take j := by
    rw [List.cons_append, List.take_succ_cons, List.take_append_of_le_length (by omega)]
  rw [e]
  exact hall _ (crash_mono (crash_apply _ _) (fun w hw => List.mem_of_mem_take hw)) mode hmode

/-! ## C25 -/

theorem xorAll_from (ws : List W) (a : W) : ws.foldl (· ^^^ ·) a = a ^^^ xorAll ws := by
  induction ws generalizing a with
  | nil => simp [xorAll]
  | cons w ws ih =>
    simp only [xorAll, List.foldl_cons]
    rw [ih, ih (0#32 ^^^ w)]
    simp [BitVec.xor_assoc]

theorem xorAll_append (a b : List W) : xorAll (a ++ b) = xorAll a ^^^ xorAll b := by
  rw [xorAll, List.foldl_append, xorAll_from]
  rfl

theorem xorAll_cons (w : W) (ws : List W) : xorAll (w :: ws) = w ^^^ xorAll ws := by
  rw [xorAll, List.foldl_cons, xorAll_from, BitVec.zero_xor]

/-- **C25 (first half).** The page `close` writes, whatever the page in memory, passes the test. -/
theorem C25_written_passes (pg : Page) {a : Nat} {ws : List W}
    (h : (closePage pg).2.getLast? = some (a, ws)) : checksumOk ws = true := by
  simp only [closePage, List.getLast?_append, List.getLast?_singleton, Option.some_or,
    Option.some.injEq, Prod.mk.injEq] at h
  obtain ⟨-, rfl⟩ := h
  simp only [checksumOk, Page.words, List.drop_succ_cons, List.drop_zero, Page.body, beq_iff_eq]
  rw [xorAll_from]
  simp only [xorAll_cons]
  generalize xorAll _ = x
  generalize BitVec.ofNat 32 pg.nxtAddr = y
  generalize BitVec.ofNat 32 pg.nent = z
  generalize pg.chksum = c
  generalize pg.res3 = r
  apply BitVec.eq_of_getLsbD_eq
  intro i hi
  simp only [BitVec.getLsbD_xor, BitVec.getLsbD_zero]
  cases x.getLsbD i <;> cases y.getLsbD i <;> cases z.getLsbD i <;> cases c.getLsbD i <;>
    cases r.getLsbD i <;> rfl

/-- **C25 (second half), partial.** A page passing the test in which exactly one word is altered, not
one of its first four words, fails it.  The first four words (page type and length, address, two
reserved words) are missing: see `C25_first_words_unprotected`. -/
theorem C25_one_word_partial (ws : List W) (h : checksumOk ws = true) {i : Nat} (h4 : 4 ≤ i)
    (hi : i < ws.length) (v : W) (hv : v ≠ ws[i]) : checksumOk (ws.set i v) = false := by
  have hsplit : ∀ x, ws.set i x = ws.take i ++ x :: ws.drop (i + 1) := fun x =>
    List.set_eq_take_append_cons_drop.trans (by rw [if_pos hi])
  have hself : ws = ws.take i ++ ws[i] :: ws.drop (i + 1) := by
    conv => lhs; rw [← List.set_getElem_self hi, hsplit]
  have hsum : ∀ x, xorAll ((ws.take i ++ x :: ws.drop (i + 1)).drop 4) =
      x ^^^ (xorAll ((ws.take i).drop 4) ^^^ xorAll (ws.drop (i + 1))) := by
    intro x
    rw [List.drop_append_of_le_length (by simp only [List.length_take]; omega), xorAll_append, xorAll_cons,
      ← BitVec.xor_assoc, ← BitVec.xor_assoc, BitVec.xor_comm x]
  rw [checksumOk, hself, hsum, beq_iff_eq] at h
  rw [checksumOk, hsplit, hsum]
  rw [beq_eq_false_iff_ne]
  intro hc
  apply hv
  have := h.trans hc.symm
  exact (BitVec.xor_right_inj _ |>.1 (by rw [BitVec.xor_comm, ← this, BitVec.xor_comm])) 

/-- **C25, negative.** Damage to one of the first four words of a page is never noticed. -/
theorem C25_first_words_unprotected (ws : List W) {i : Nat} (h4 : i < 4) (v : W) :
    checksumOk (ws.set i v) = checksumOk ws := by
  rw [checksumOk, checksumOk, List.drop_set_of_lt h4]

/-! ## Concrete cases meeting the hypotheses -/

namespace Example

def junk : List Entry := List.replicate 256 ⟨0, 0, 0, [0#32, 0#32]⟩

/-- A record of type `t`, with `n + 2` data words. -/
def data (t : Nat) (x : W) (n : Nat) : List W :=
  (BitVec.ofNat 8 t ++ 0#24) :: 0#32 :: 1#32 :: x :: List.replicate n x

def base : List Op := [.append (data 1 5#32 2) 7#32 junk, .append (data 2 6#32 4) 7#32 junk,
  .rewrite 0 0 (data 3 8#32 4) 7#32 junk]

def more : List Op := [.del 0 1, .append (data 4 9#32 0) 0#32 junk, .reopen APPEND]

def session : List Op := [.append (data 5 1#32 6) 0#32 junk]

def start (ops : List Op) : Option (Mem × Disk × List Code) :=
  (create 0x53544452#32 1#16 2 0#32 [1#32, 2#32] 7#32 junk).bind fun x => run x.1 (apply [] x.2.1) ops

theorem junk_ok : ValidJunk 4 junk :=
  ⟨List.length_replicate, fun e he => by
    rw [List.eq_of_mem_replicate he]; exact ⟨by decide, by decide, by decide, by decide⟩⟩

theorem data_ok (t : Nat) (ht : 1 ≤ t) (ht2 : t ≤ 125) (x : W) (n : Nat) (hn : n < 100) : ValidData 4 (data t x n) := by
  have : idtypOf (data t x n) = t := by
    simp only [idtypOf, data, List.getD_cons_zero]
    rw [ext_hi]
    simp; omega
  exact ⟨by simp [data], by simp [data]; omega, by omega, by omega⟩

theorem base_ok : ValidRun 4 ⟨CREATE, []⟩ base :=
  ⟨⟨data_ok 1 (by decide) (by decide) _ _ (by decide), junk_ok⟩,
    ⟨data_ok 2 (by decide) (by decide) _ _ (by decide), junk_ok⟩,
    ⟨data_ok 3 (by decide) (by decide) _ _ (by decide), junk_ok, by decide, by decide⟩, trivial⟩

theorem more_ok : ValidRun 4 (expected base) more :=
  ⟨⟨by decide, by decide⟩, ⟨data_ok 4 (by decide) (by decide) _ _ (by decide), junk_ok⟩,
    (by decide : APPEND ≤ 4), trivial⟩

theorem session_ok : ValidRun 4 (expected (base ++ more)) session :=
  ⟨⟨data_ok 5 (by decide) (by decide) _ _ (by decide), junk_ok⟩, trivial⟩

theorem start_history {ops : List Op} (hv : ValidRun 4 ⟨CREATE, []⟩ ops) {m : Mem} {d : Disk}
    {cs : List Code} (h : start ops = some (m, d, cs)) : History 2 ops m d cs := by
  unfold start at h
  cases hc : create 0x53544452#32 1#16 2 0#32 [1#32, 2#32] 7#32 junk with
  | none => rw [hc] at h; simp at h
  | some x =>
    rw [hc] at h
    exact ⟨_, _, _, [1#32, 2#32], _, junk, x.1, x.2.1, x.2.2,
      ⟨by decide, by decide, by decide, by decide, junk_ok⟩, hc, hv, h⟩

/-- A history with an append, a rewriting, a deletion and a reopening (C21, C22, C26). -/
example : ∃ m d cs, History 2 (base ++ more) m d cs ∧ cs = [.ok, .ok, .ok, .ok, .ok, .ok] ∧
    m.hdr.nrec = 2 ∧ look m d 0 0 = none ∧ look m d 0 1 = none ∧
    look m d 0 2 = some (3, [1#32, 8#32], 1#32 :: List.replicate 5 8#32) := by
  have key : (start (base ++ more)).any (fun x => x.2.2 == [.ok, .ok, .ok, .ok, .ok, .ok] &&
      x.1.hdr.nrec == 2 && look x.1 x.2.1 0 0 == none && look x.1 x.2.1 0 1 == none &&
      look x.1 x.2.1 0 2 == some (3, [1#32, 8#32], 1#32 :: List.replicate 5 8#32)) = true := by
    decide +kernel
  cases hs : start (base ++ more) with
  | none => rw [hs] at key; simp at key
  | some x =>
    obtain ⟨m, d, cs⟩ := x
    rw [hs] at key
    simp only [Option.any_some, Bool.and_eq_true, beq_iff_eq] at key
    obtain ⟨⟨⟨⟨k1, k2⟩, k3⟩, k4⟩, k5⟩ := key
    exact ⟨m, d, cs, start_history ((validRun_append _ _ _ _).2 ⟨base_ok, more_ok⟩) hs, k1, k2, k3, k4, k5⟩

/-- The hypotheses of `C21_read_back`, for the append inside `more`, after the deletion. -/
example : (expected (base ++ [.del 0 1])).slots.length = 3 ∧
    ((⟨CREATE, []⟩ : File).run (base ++ more)).2[4]? = some .ok ∧
    ¬ (Op.reopen APPEND).touches 3 := ⟨by decide, by decide, by simp [Op.touches]⟩

/-- The hypotheses of `C20_delete` and of `C24_prefix`: three writes at least in `close`. -/
example : ∃ m d cs, History 2 base m d cs ∧ HasSlot m 0 1 ∧ look m d 0 1 ≠ none ∧
    m.hdr.rwflg ≠ RDMODE ∧ m.hdr.rwflg ≠ APPEND ∧ 3 ≤ (close m).length := by
  have key : (start base).any (fun x => (allEntries x.1.pages).length == 3 &&
      (look x.1 x.2.1 0 1).isSome && x.1.hdr.rwflg == CREATE && decide (3 ≤ (close x.1).length)) = true := by
    decide +kernel
  cases hs : start base with
  | none => rw [hs] at key; simp at key
  | some x =>
    obtain ⟨m, d, cs⟩ := x
    rw [hs] at key
    simp only [Option.any_some, Bool.and_eq_true, beq_iff_eq, decide_eq_true_eq] at key
    obtain ⟨⟨⟨k1, k2⟩, k3⟩, k4⟩ := key
    refine ⟨m, d, cs, start_history base_ok hs, ⟨by decide, by omega⟩, ?_, by rw [k3]; decide, by rw [k3]; decide, k4⟩
    intro hc; rw [hc] at k2; simp at k2

/-- The first write is made at the end of the file. -/
def firstAtEnd (d : Disk) : Option (List Write) → Bool
  | some (w :: _) => decide (1 < w.2.length ∧ d.length ≤ w.1)
  | _ => false

/-- The hypotheses of `C23_crash`: a session with a write, and a crash that leaves a cut write. -/
example : ∃ m d cs ws, History 2 ((base ++ more.take 2) ++ [.reopen APPEND]) m d cs ∧
    (∀ op ∈ session, op.isSession = true) ∧
    ValidRun 4 (expected ((base ++ more.take 2) ++ [.reopen APPEND])) session ∧
    writes m d session = some ws ∧ ws ≠ [] ∧ ∃ d', CrashDisk d ws d' ∧ d' ≠ d := by
  have key : (start (base ++ more)).any (fun x =>
      firstAtEnd x.2.1 (writes x.1 x.2.1 session)) = true := by
    decide +kernel
  cases hs : start (base ++ more) with
  | none => rw [hs] at key; simp at key
  | some x =>
    obtain ⟨m, d, cs⟩ := x
    rw [hs] at key
    rw [Option.any_some] at key
    cases hw : writes m d session with
    | none => exact absurd (hw ▸ key : firstAtEnd d none = true) (by simp [firstAtEnd])
    | some l =>
    cases l with
    | nil => exact absurd (hw ▸ key : firstAtEnd d (some []) = true) (by simp [firstAtEnd])
    | cons w ws =>
      have key : firstAtEnd d (some (w :: ws)) = true := hw ▸ key
      simp only [firstAtEnd, decide_eq_true_eq] at key
      refine ⟨m, d, cs, w :: ws, start_history ((validRun_append _ _ _ _).2 ⟨base_ok, more_ok⟩) hs,
        by simp [session, Op.isSession], session_ok, hw, by simp, _, crash_torn d [] w ws 1, ?_⟩
      intro hc
      have := congrArg List.length hc
      simp only [List.nil_append, apply, List.foldl_cons, List.foldl_nil, writeAt_length,
        List.length_take] at this
      omega

/-- The hypotheses of the C25 theorems: a page passing the test. -/
example : checksumOk [1#32, 2#32, 3#32, 4#32, 5#32, 6#32, 3#32] = true ∧
    checksumOk [1#32, 2#32, 3#32, 4#32, 5#32, 7#32, 3#32] = false := by decide

end Example

end Verif.Xdf
