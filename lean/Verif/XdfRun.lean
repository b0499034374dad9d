import Verif.XdfClose
/-! Histories of operations on one random file, and what a user expects of them. -/

namespace Verif.Xdf

/-- The operations of a session, as seen by the XDF layer.  `res3` and `junk` are the uninitialised
words of a page added on the way. -/
inductive Op
  | append (data : List W) (res3 : W) (junk : List Entry)
  | rewrite (p r : Nat) (data : List W) (res3 : W) (junk : List Entry)
  | rewriteEnd (p r : Nat) (data : List W) (res3 : W) (junk : List Entry)
  | del (p r : Nat)
  | checkpoint
  | reopen (mode : Nat)

/-- One operation of the code: new in-memory state, disk writes, return code. -/
def step (m : Mem) (d : Disk) : Op → Option (Mem × List Write × Code)
  | .append data res3 junk => put m .append data res3 junk
  | .rewrite p r data res3 junk => put m (.rewrite p r) data res3 junk
  | .rewriteEnd p r data res3 junk => put m (.rewriteEnd p r) data res3 junk
  | .del p r => Xdf.del m p r
  | .checkpoint => some ((Xdf.checkpoint m).1, (Xdf.checkpoint m).2, .ok)
  | .reopen mode =>
    match openFile (apply d (close m)) mode with
    | some (.ok m') => some (m', close m, .ok)
    | _ => none

/-- A history: in-memory state, disk and return codes at the end. -/
def run (m : Mem) (d : Disk) : List Op → Option (Mem × Disk × List Code)
  | [] => some (m, d, [])
  | op :: ops =>
    match step m d op with
    | none => none
    | some (m', ws, c) =>
      match run m' (apply d ws) ops with
      | none => none
      | some (m'', d'', cs) => some (m'', d'', c :: cs)

/-! ## The specification: a list of slots -/

/-- A file as the user sees it: how it is open, and what each directory slot holds.  The slot of
page `p`, record `r` has number `256 * p + r`. -/
structure File where
  mode : Nat
  slots : List Slot
deriving DecidableEq

/-- Add a record at the end, after deleting slot `old` if any. -/
def File.add (f : File) (data : List W) (old : Option Nat) : File × Code :=
  if f.slots.length = 262144 then (f, .dirFull)
  else
    let s := match old with
      | none => f.slots
      | some i => f.slots.set i .dead
    ({ f with slots := s ++ [slotOf data] }, .ok)

def File.step (f : File) : Op → File × Code
  | .append data _ _ =>
    if data.length % 2 ≠ 0 then (f, .badAddr)
    else if f.mode = RDMODE then (f, .noWrite)
    else f.add data none
  | .rewrite p r data _ _ =>
    if data.length % 2 ≠ 0 then (f, .badAddr)
    else if f.mode = RDMODE ∨ f.mode = APPEND then (f, .noWrite)
    else match f.slots[256 * p + r]? with
      | some (.live _ pl) =>
        if pl.length + 2 = data.length then
          ({ f with slots := f.slots.set (256 * p + r) (slotOf data) }, .ok)
        else f.add data (some (256 * p + r))
      | _ => (f, .deleted)
  | .rewriteEnd p r data _ _ =>
    if data.length % 2 ≠ 0 then (f, .badAddr)
    else if f.mode = RDMODE ∨ f.mode = APPEND then (f, .noWrite)
    else match f.slots[256 * p + r]? with
      | some (.live _ _) => f.add data (some (256 * p + r))
      | _ => (f, .deleted)
  | .del p r =>
    if f.mode = RDMODE ∨ f.mode = APPEND then (f, .rdonly)
    else match f.slots[256 * p + r]? with
      | some (.live _ _) => ({ f with slots := f.slots.set (256 * p + r) .dead }, .ok)
      | _ => (f, .deleted)
  | .checkpoint => (f, .ok)
  | .reopen mode => ({ f with mode := mode }, .ok)

def File.run (f : File) : List Op → File × List Code
  | [] => (f, [])
  | op :: ops =>
    let (f', c) := f.step op
    let (f'', cs) := f'.run ops
    (f'', c :: cs)

/-- Operations a caller may make: handles name existing slots, buffers are proper records. -/
def ValidOp (width : Nat) (f : File) : Op → Prop
  | .append data _ junk => ValidData width data ∧ ValidJunk width junk
  | .rewrite p r data _ junk => ValidData width data ∧ ValidJunk width junk ∧ r < 256 ∧
      256 * p + r < f.slots.length
  | .rewriteEnd p r data _ junk => ValidData width data ∧ ValidJunk width junk ∧ r < 256 ∧
      256 * p + r < f.slots.length
  | .del p r => r < 256 ∧ 256 * p + r < f.slots.length
  | .checkpoint => True
  | .reopen mode => mode ≤ 4

def ValidRun (width : Nat) (f : File) : List Op → Prop
  | [] => True
  | op :: ops => ValidOp width f op ∧ ValidRun width (f.step op).1 ops

/-- Size in 64-bit units of the buffer of an operation. -/
def Op.size : Op → Nat
  | .append data _ _ => data.length / 2
  | .rewrite _ _ data _ _ => data.length / 2
  | .rewriteEnd _ _ data _ _ => data.length / 2
  | _ => 0

/-! ## The code does what the specification says -/

theorem noPending_set {s : List Slot} (h : NoPending s) {i : Nat} {a : Slot} (ha : a ≠ .pending) :
    NoPending (s.set i a) := by
  intro j hj
  rcases getElem?_set_cases hj with ⟨_, h1, _⟩ | ⟨_, h1⟩
  · exact ha h1.symm
  · exact h j h1

theorem noPending_append {s : List Slot} (h : NoPending s) {a : Slot} (ha : a ≠ .pending) :
    NoPending (s ++ [a]) := by
  intro j hj
  rcases append_one_cases hj with ⟨_, h1⟩ | ⟨_, h1⟩
  · exact h j h1
  · exact ha h1.symm

theorem add_slots (f : File) (data : List W) (old : Option Nat) (hnp : NoPending f.slots) :
    NoPending (f.add data old).1.slots ∧ (f.add data old).1.mode = f.mode := by
  unfold File.add
  split
  · exact ⟨hnp, rfl⟩
  · refine ⟨?_, rfl⟩
    cases old with
    | none => exact noPending_append hnp (by simp [slotOf])
    | some i => exact noPending_append (noPending_set hnp (by simp)) (by simp [slotOf])

theorem step_noPending (f : File) (op : Op) (hnp : NoPending f.slots) :
    NoPending (f.step op).1.slots := by
  cases op <;> simp only [File.step]
  · split
    · exact hnp
    · split
      · exact hnp
      · exact (add_slots f _ _ hnp).1
  · split
    · exact hnp
    · split
      · exact hnp
      · split
        · split
          · exact noPending_set hnp (by simp [slotOf])
          · exact (add_slots f _ _ hnp).1
        · exact hnp
  · split
    · exact hnp
    · split
      · exact hnp
      · split
        · exact (add_slots f _ _ hnp).1
        · exact hnp
  · split
    · exact hnp
    · split
      · exact noPending_set hnp (by simp)
      · exact hnp
  · exact hnp
  · exact hnp

/-- Writes of an operation during a session: at the end of the file, or (in-place rewriting of slot
`i`) inside the words of that slot. -/
def SessionWrites (own : Own) (f : Nat) (op : Op) (ws : List Write) : Prop :=
  AtEnd f ws ∨ ∃ p r data res3 junk, op = .rewrite p r data res3 junk ∧
    ∀ w ∈ ws, ∃ a n, w.1 = 2 * a ∧ w.2.length = 2 * n ∧ a + n ≤ f ∧
      ∀ u, a ≤ u → u < a + n → own u = .ent (256 * p + r)

def Op.isReopen : Op → Bool
  | .reopen _ => true
  | _ => false

def Op.isSession : Op → Bool
  | .reopen _ => false
  | .checkpoint => false
  | _ => true

theorem slot_cases {s : List Slot} (hnp : NoPending s) {i : Nat} (hi : i < s.length) :
    (∃ t pl, s[i]? = some (.live t pl)) ∨ s[i]? = some .dead := by
  have hs := List.getElem?_eq_getElem hi
  cases hc : s[i] with
  | pending => rw [hc] at hs; exact absurd hs (hnp i)
  | dead => rw [hc] at hs; exact Or.inr hs
  | live t pl => rw [hc] at hs; exact Or.inl ⟨t, pl, hs⟩

/-- What every step guarantees. -/
def Good (own : Own) (m : Mem) (d : Disk) (f : File) (op : Op) : Prop :=
  (step m d op = none ∧ 2 ^ 30 ≤ m.hdr.fsiz + pageLng m.hdr.lprm + op.size) ∨
  ∃ m' ws own', step m d op = some (m', ws, (f.step op).2) ∧
    Inv own' m' (apply d ws) (f.step op).1.slots ∧ m'.hdr.rwflg = (f.step op).1.mode ∧
    m'.hdr.lprm = m.hdr.lprm ∧ m'.hdr.lng = m.hdr.lng ∧
    m.hdr.fsiz ≤ m'.hdr.fsiz ∧ (∀ u, u < m.hdr.fsiz → own' u = own u) ∧
    (op.isSession = true → SessionWrites own m.hdr.fsiz op ws)

theorem good_same {own : Own} {m : Mem} {d : Disk} {f : File} (h : Inv own m d f.slots)
    (hmode : m.hdr.rwflg = f.mode) {op : Op} {c : Code} (hs : step m d op = some (m, [], c))
    (hf : f.step op = (f, c)) : Good own m d f op := by
  right
  refine ⟨m, [], own, by rw [hs, hf], by rw [hf]; exact h, by rw [hf]; exact hmode, rfl, rfl,
    Nat.le_refl _, fun _ _ => rfl, fun _ => Or.inl (by simp [AtEnd])⟩

def killed (s : List Slot) : Option (Nat × Nat) → List Slot
  | none => s
  | some x => s.set (256 * x.1 + x.2) .dead

theorem good_add {own : Own} {m : Mem} {d : Disk} {f : File} (_h : Inv own m d f.slots)
    (hmode : m.hdr.rwflg = f.mode) {op : Op} {data : List W} {old : Option (Nat × Nat)} {res3 : W}
    {junk : List Entry} (hs : step m d op = putEnd m data old res3 junk)
    (hsz : op.size = data.length / 2)
    (hf : f.step op = f.add data (old.map fun x => 256 * x.1 + x.2))
    (hput : (f.slots.length = maxSlots ∧ ∃ m1, putEnd m data old res3 junk = some (m1, [], .dirFull) ∧
        Inv own m1 d f.slots ∧ Ext own m own m1) ∨
      (f.slots.length < maxSlots ∧ putEnd m data old res3 junk = none ∧
        2 ^ 30 ≤ m.hdr.fsiz + pageLng m.hdr.lprm + data.length / 2) ∨
      (f.slots.length < maxSlots ∧ ∃ m1 ws own', putEnd m data old res3 junk = some (m1, ws, .ok) ∧
        Inv own' m1 (apply d ws) (killed f.slots old ++ [slotOf data]) ∧ Ext own m own' m1 ∧
        AtEnd m.hdr.fsiz ws)) : Good own m d f op := by
  rcases hput with ⟨hl, m1, hp, hi, hx⟩ | ⟨hl, hp, hb⟩ | ⟨hl, m1, ws, own', hp, hi, hx, hw⟩
  · right
    have hadd : f.step op = (f, .dirFull) := by
      rw [hf]; unfold File.add; rw [if_pos hl]
    exact ⟨m1, [], own, by rw [hs, hp, hadd], by rw [hadd]; exact hi,
      by rw [hadd, hx.rwflg]; exact hmode, hx.lprm, hx.lng, hx.fs, hx.own,
      fun _ => Or.inl (by simp [AtEnd])⟩
  · left
    exact ⟨by rw [hs, hp], by rw [hsz]; exact hb⟩
  · right
    have hadd : f.step op = ({ f with slots := killed f.slots old ++ [slotOf data] }, .ok) := by
      rw [hf]; unfold File.add
      rw [if_neg (by simp only [maxSlots] at hl; omega)]
      cases old <;> rfl
    exact ⟨m1, ws, own', by rw [hs, hp, hadd], by rw [hadd]; exact hi,
      by rw [hadd, hx.rwflg]; exact hmode, hx.lprm, hx.lng, hx.fs, hx.own, fun _ => Or.inl hw⟩

theorem step_good {own : Own} {m : Mem} {d : Disk} {f : File} (h : Inv own m d f.slots)
    (hnp : NoPending f.slots) (hmode : m.hdr.rwflg = f.mode) {op : Op}
    (hv : ValidOp m.width f op) : Good own m d f op := by
  cases op with
  | append data res3 junk =>
    obtain ⟨hvd, hj⟩ := hv
    by_cases hev : data.length % 2 = 0
    · by_cases hrd : m.hdr.rwflg = RDMODE
      · refine good_same h hmode (c := .noWrite) ?_ ?_
        · simp [step, put, hev, hrd]
        · simp only [File.step]; rw [if_neg (by omega), if_pos (by rw [← hmode]; exact hrd)]
      · refine good_add h hmode (data := data) (old := none) (res3 := res3) (junk := junk) ?_ rfl ?_
          (putEnd_append h hvd hev hrd hj)
        · simp only [step, put]; rw [if_neg (by omega), if_neg hrd]
        · simp only [File.step]; rw [if_neg (by omega), if_neg (by rw [← hmode]; exact hrd)]; rfl
    · refine good_same h hmode (c := .badAddr) ?_ ?_
      · simp only [step, put]; rw [if_pos hev]
      · simp only [File.step]; rw [if_pos hev]
  | rewrite p r data res3 junk =>
    obtain ⟨hvd, hj, hr, hi⟩ := hv
    by_cases hev : data.length % 2 = 0
    rotate_left
    · refine good_same h hmode (c := .badAddr) ?_ ?_
      · simp only [step, put]; rw [if_pos hev]
      · simp only [File.step]; rw [if_pos hev]
    by_cases hrd : m.hdr.rwflg = RDMODE
    · refine good_same h hmode (c := .noWrite) ?_ ?_
      · simp [step, put, hev, hrd]
      · simp only [File.step]; rw [if_neg (by omega), if_pos (by rw [← hmode]; exact Or.inl hrd)]
    by_cases hap : m.hdr.rwflg = APPEND
    · refine good_same h hmode (c := .noWrite) ?_ ?_
      · simp only [step, put]; rw [if_neg (by omega), if_neg hrd, if_pos hap]
      · simp only [File.step]; rw [if_neg (by omega), if_pos (by rw [← hmode]; exact Or.inr hap)]
    have hfm : ¬ (f.mode = RDMODE ∨ f.mode = APPEND) := by rw [← hmode]; simp [hrd, hap]
    rcases slot_cases hnp hi with ⟨t, pl, hs⟩ | hs
    · obtain ⟨pg, e, hp, he, hn, hso, heok⟩ := h.slot hr hs
      have hloc := locate_eq h hp he hn
      obtain ⟨⟨h1, h2, h3, h4, h5, h6⟩, hreg⟩ := hso
      have hdel : isDeleted e = false := by simp only [isDeleted, h1]; exact live_not_deleted t h3
      by_cases hl : 2 * e.lng = data.length
      · -- in place
        obtain ⟨m2, hd2, hi2, hx2, hlen2, hfs2, hpg2, hna2⟩ := del_live h hr hs hrd hap
        have hp2 := hpg2 pg e hp he
        have hw2 : m2.width = m.width := by simp [Mem.width, hx2.lprm]
        have hs2 : (f.slots.set (256 * p + r) .dead)[256 * p + r]? = some .dead := by
          rw [List.getElem?_set_self hi]
        have hre : r < pg.entries.length := (List.getElem?_eq_some_iff.1 he).1
        have he2 : ({ pg with entries := pg.entries.set r { e with idtyp := 254 },
                              modified := true } : Page).entries[r]? =
            some { e with idtyp := 254 } := by
          simp [List.getElem?_set_self hre]
        have hstep : step m d (.rewrite p r data res3 junk) =
            finishPut m2 p r (2 * (e.addr - 1) + 1) data false true := by
          simp only [step, put]
          rw [if_neg (by omega), if_neg hrd, if_neg hap, hloc]
          simp only
          rw [if_neg (by omega), hdel, if_neg (by simp), if_neg (by omega), hd2]
        have hfstep : f.step (.rewrite p r data res3 junk) =
            ({ f with slots := f.slots.set (256 * p + r) (slotOf data) }, .ok) := by
          simp only [File.step]
          rw [if_neg (by omega), if_neg hfm, hs]
          simp only
          rw [if_pos (by omega)]
        cases hf : finishPut m2 p r (2 * (e.addr - 1) + 1) data false true with
        | none =>
          exfalso
          rw [finishPut_eq] at hf
          split at hf
          · rename_i hge
            rw [(putHdr_props _ _ _ _).1] at hge
            simp only [Bool.false_eq_true, if_false] at hge
            have := h.fs
            omega
          · simp at hf
        | some x =>
          obtain ⟨m4, ws, c⟩ := x
          obtain ⟨hc, hws, hinv, hx, hrg⟩ := finishPut_inplace hi2 (by rw [hw2]; exact hvd) hev hr hs2
            (by rw [hx2.rwflg]; exact hrd) hp2 he2 hl hf
          subst hc
          right
          refine ⟨m4, ws, own, by rw [hstep, hf, hfstep], ?_, ?_, ?_, ?_, ?_, ?_, ?_⟩
          · rw [hfstep]
            simp only [List.set_set] at hinv
            exact hinv
          · rw [hfstep, hx.rwflg, hx2.rwflg]; exact hmode
          · rw [hx.lprm, hx2.lprm]
          · rw [hx.lng, hx2.lng]
          · exact Nat.le_trans hx2.fs hx.fs
          · intro u hu; rfl
          · intro _
            right
            refine ⟨p, r, data, res3, junk, rfl, ?_⟩
            intro w hw
            rw [hws, List.mem_singleton] at hw
            subst hw
            have hd2' : 2 ≤ data.length := by have := hreg.l1; omega
            refine ⟨e.addr - 1, e.lng, rfl, ?_, hreg.fit, hreg.own⟩
            show (recOf _ _ data).length = _
            rw [recOf_length hd2']; omega
      · -- at the end
        refine good_add h hmode (data := data) (old := some (p, r)) (res3 := res3) (junk := junk) ?_ rfl ?_
          (putEnd_replace h hvd hev hrd hap hj hr hs)
        · simp only [step, put]
          rw [if_neg (by omega), if_neg hrd, if_neg hap, hloc]
          simp only
          rw [if_neg (by omega), hdel, if_neg (by simp), if_pos hl]
        · simp only [File.step]
          rw [if_neg (by omega), if_neg hfm, hs]
          simp only
          rw [if_neg (by omega)]
          rfl
    · obtain ⟨pg, e, hp, he, hn, hso, heok⟩ := h.slot hr hs
      obtain ⟨g1, g2⟩ := dead_deleted hso.1
      refine good_same h hmode (c := .deleted) ?_ ?_
      · simp only [step, put]
        rw [if_neg (by omega), if_neg hrd, if_neg hap, locate_eq h hp he hn]
        simp [g1, g2]
      · simp only [File.step]; rw [if_neg (by omega), if_neg hfm, hs]
  | rewriteEnd p r data res3 junk =>
    obtain ⟨hvd, hj, hr, hi⟩ := hv
    by_cases hev : data.length % 2 = 0
    rotate_left
    · refine good_same h hmode (c := .badAddr) ?_ ?_
      · simp only [step, put]; rw [if_pos hev]
      · simp only [File.step]; rw [if_pos hev]
    by_cases hrd : m.hdr.rwflg = RDMODE
    · refine good_same h hmode (c := .noWrite) ?_ ?_
      · simp [step, put, hev, hrd]
      · simp only [File.step]; rw [if_neg (by omega), if_pos (by rw [← hmode]; exact Or.inl hrd)]
    by_cases hap : m.hdr.rwflg = APPEND
    · refine good_same h hmode (c := .noWrite) ?_ ?_
      · simp only [step, put]; rw [if_neg (by omega), if_neg hrd, if_pos hap]
      · simp only [File.step]; rw [if_neg (by omega), if_pos (by rw [← hmode]; exact Or.inr hap)]
    have hfm : ¬ (f.mode = RDMODE ∨ f.mode = APPEND) := by rw [← hmode]; simp [hrd, hap]
    rcases slot_cases hnp hi with ⟨t, pl, hs⟩ | hs
    · obtain ⟨pg, e, hp, he, hn, hso, heok⟩ := h.slot hr hs
      have hloc := locate_eq h hp he hn
      obtain ⟨⟨h1, h2, h3, h4, h5, h6⟩, hreg⟩ := hso
      have hdel : isDeleted e = false := by simp only [isDeleted, h1]; exact live_not_deleted t h3
      refine good_add h hmode (data := data) (old := some (p, r)) (res3 := res3) (junk := junk) ?_ rfl ?_
        (putEnd_replace h hvd hev hrd hap hj hr hs)
      · simp only [step, put]
        rw [if_neg (by omega), if_neg hrd, if_neg hap, hloc]
        simp only
        rw [if_neg (by omega), hdel, if_neg (by simp)]
      · simp only [File.step]
        rw [if_neg (by omega), if_neg hfm, hs]
        rfl
    · obtain ⟨pg, e, hp, he, hn, hso, heok⟩ := h.slot hr hs
      obtain ⟨g1, g2⟩ := dead_deleted hso.1
      refine good_same h hmode (c := .deleted) ?_ ?_
      · simp only [step, put]
        rw [if_neg (by omega), if_neg hrd, if_neg hap, locate_eq h hp he hn]
        simp [g1, g2]
      · simp only [File.step]; rw [if_neg (by omega), if_neg hfm, hs]
  | del p r =>
    obtain ⟨hr, hi⟩ := hv
    by_cases hm : m.hdr.rwflg = RDMODE ∨ m.hdr.rwflg = APPEND
    · refine good_same h hmode (c := .rdonly) ?_ ?_
      · simp only [step, Xdf.del]; rw [if_pos hm]
      · simp only [File.step]; rw [if_pos (by rw [← hmode]; exact hm)]
    · have hfm : ¬ (f.mode = RDMODE ∨ f.mode = APPEND) := by rw [← hmode]; exact hm
      simp only [not_or] at hm
      rcases slot_cases hnp hi with ⟨t, pl, hs⟩ | hs
      · obtain ⟨m2, hd2, hi2, hx2, -⟩ := del_live h hr hs hm.1 hm.2
        have hfs : f.step (.del p r) = ({ f with slots := f.slots.set (256 * p + r) .dead }, .ok) := by
          simp only [File.step]; rw [if_neg hfm, hs]
        right
        refine ⟨m2, [], own, by rw [hfs]; exact hd2, by rw [hfs]; exact hi2,
          by rw [hfs, hx2.rwflg]; exact hmode, hx2.lprm, hx2.lng, hx2.fs, hx2.own,
          fun _ => Or.inl (by simp [AtEnd])⟩
      · refine good_same h hmode (c := .deleted) ?_ ?_
        · simp only [step]; exact del_dead h hr hs hm.1 hm.2
        · simp only [File.step]; rw [if_neg hfm, hs]
  | checkpoint =>
    obtain ⟨hc, -, hh⟩ := h.checkpoint hnp
    right
    refine ⟨_, _, own, rfl, hc, ?_, by rw [hh], by rw [hh], by rw [hh]; exact Nat.le_refl _, fun _ _ => rfl,
      by simp [Op.isSession]⟩
    rw [hh]; exact hmode
  | reopen mode =>
    obtain ⟨m', ho, hinv, hh, -⟩ := h.reopen hnp (mode := mode) hv
    right
    refine ⟨m', close m, own, ?_, hinv, by rw [hh]; rfl, by rw [hh], by rw [hh], by rw [hh]; exact Nat.le_refl _,
      fun _ _ => rfl, by simp [Op.isSession]⟩
    simp only [step, ho, File.step]

end Verif.Xdf
