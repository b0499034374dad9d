import Verif.FnomAttr

/-! # Properties C88 and C89: the table of units -/

namespace Verif.Fnom

/-- The word `k` is in the type, in upper or in lower case. -/
def Has (type : Str) (k : Kw) : Prop := k.upper <:+: type ∨ k.lower <:+: type

theorem asks_iff (type : Str) (k : Kw) : asks type k = true ↔ Has type k := by
  unfold asks Has
  rw [Bool.or_eq_true, hasSub_iff, hasSub_iff]

/-- The unit `u` is given to a file. -/
def InUse (s : St) (u : Int) : Prop := ∃ (i : Nat) (e : Entry), s.table[i]? = some e ∧ e.iun = u

theorem inUse_iff (s : St) (u : Int) : InUse s u ↔ (find s.table u).isSome = true := by
  constructor
  · rintro ⟨i, e, h, he⟩
    obtain ⟨k, hk⟩ := find_exists h he
    simp [hk]
  · intro h
    rcases hf : find s.table u with _ | k
    · simp [hf] at h
    · obtain ⟨e, he, hu⟩ := find_some hf
      exact ⟨k, e, he, hu⟩

/-- A state that a program can reach. -/
def Reached (s : St) : Prop := ∃ ops, run initial ops = .ok s

theorem Reached.inv {s : St} (h : Reached s) : Inv s.table ∧ s.table.length = maxFiles := by
  obtain ⟨ops, h⟩ := h
  obtain ⟨i, l⟩ := run_inv ops initial_inv h
  exact ⟨i, by rw [l]; simp [initial]⟩

/-- Units treated apart: the standard output, the standard input and the standard error. -/
def Standard (u : Int) (nom : Str) : Prop := u = 6 ∨ u = -2 ∨ (u = 5 ∧ nom ∈ inNames)

/-- C88.  After any calls the table has 1024 entries and no unit is in two of them. -/
theorem C88_units (s : St) (h : Reached s) : s.table.length = 1024 ∧
    ∀ (i j : Nat) (a b : Entry), s.table[i]? = some a → s.table[j]? = some b → a.iun = b.iun → a.iun ≠ 0 → i = j := by
  obtain ⟨i, l⟩ := h.inv
  exact ⟨l, i.distinct⟩

/-- C88.  The unit chosen when the caller gives 0 is not in use; it is the largest such unit up to 99 (FTN or D77) or 999,
above 10, and there is none only when all are in use. -/
theorem C88_auto (os : Os) (nom type : Str) (lrec : Int) (s s' : St) (v r : Int) (top : Nat)
    (ht : ((Has type .ftn ∨ Has type .d77) ∧ top = 99) ∨ (¬(Has type .ftn ∨ Has type .d77) ∧ top = 999))
    (hs : s.started = true) (h : fnom os 0 nom type lrec s = .ok (s', v, r)) :
    (v = -1 ∧ r = -1 ∧ ∀ w : Nat, 10 < w → w ≤ top → InUse s w) ∨
    ((10 < v ∧ v ≤ top) ∧ ¬ InUse s v ∧ ∀ w : Nat, v < w → w ≤ top → InUse s w) := by
  obtain ⟨hv, -, hr⟩ := fnom_spec h
  have e : start s = s := by unfold start; rw [if_pos hs]
  rw [if_pos rfl, e] at hv
  have htop : (if asks type .ftn || asks type .d77 then 99 - 10 else 999 - 10) + 10 = top := by
    rw [← asks_iff, ← asks_iff, ← Bool.or_eq_true] at ht
    rcases ht with ⟨c, rfl⟩ | ⟨c, rfl⟩
    · rw [if_pos c]
    · rw [if_neg c]
  have use : ∀ w : Nat, (∃ k, find s.table w = some k) → InUse s w := by
    rintro w ⟨k, hk⟩
    exact (inUse_iff s w).2 (by simp [hk])
  unfold qqqfscr at hv
  rcases scanUnit_spec s.table (if asks type .ftn || asks type .d77 then 99 - 10 else 999 - 10) with ⟨h1, h2⟩ | ⟨w, h1, h2, h3, h4, h5⟩
  · rw [h1] at hv
    rw [htop] at h2
    refine .inl ⟨hv, ?_, fun w a b => use w (h2 w a b)⟩
    rcases hr with ⟨a, -⟩ | ⟨-, -, -, -, -, a⟩
    · exact absurd hv a
    · exact (a hv).1
  · rw [h1] at hv
    rw [htop] at h3 h5
    refine .inr ⟨by omega, fun hu => ?_, fun w' a b => use w' (h5 w' (by omega) b)⟩
    rw [inUse_iff, hv, h4] at hu
    cases hu

/-- C88.  A call for one unit leaves the entries of all others as they were. -/
theorem C88_frame (op : Op) (u : Int) (s s' : St) (hr : Reached s) (hs : s.started = true) (h : step s op = .ok s')
    (hu : match op with
      | .fnom os v nom type lrec => ∀ s1 w r, fnom os v nom type lrec s = .ok (s1, w, r) → u ≠ w
      | .fclos _ v => u ≠ v
      | .waopen _ v => u ≠ v
      | .waclos v => u ≠ v) (h0 : u ≠ 0) (i : Nat) (a : Entry) (ha : a.iun = u) :
    s'.table[i]? = some a ↔ s.table[i]? = some a := by
  obtain ⟨I, -⟩ := hr.inv
  cases op with
  | fnom os v nom type lrec =>
    simp only [step] at h
    rcases hf : fnom os v nom type lrec s with _ | ⟨s2, w, r⟩
    · rw [hf] at h; cases h
    rw [hf] at h
    injection h with h
    dsimp only at h
    subst h
    have := (fnom_local hf).frame (hu _ _ _ hf) h0 i a ha
    rwa [show start s = s by unfold start; rw [if_pos hs]] at this
  | fclos os v =>
    simp only [step] at h
    injection h with h
    subst h
    exact (fclos_local os v s).frame hu h0 i a ha
  | waopen os v =>
    simp only [step] at h
    rcases hf : waopen os v s with _ | ⟨s2, r⟩
    · rw [hf] at h; cases h
    rw [hf] at h
    injection h with h
    dsimp only at h
    subst h
    exact ((waopen_spec hf).local I).frame hu h0 i a ha
  | waclos v =>
    simp only [step] at h
    rcases hf : waclos v s with _ | ⟨s2, r⟩
    · rw [hf] at h; cases h
    rw [hf] at h
    injection h with h
    dsimp only at h
    subst h
    exact (waclos_local hf I).frame hu h0 i a ha

/-- C88.  A unit in use is refused, without any effect; a successful call gives an unused unit to the file. -/
theorem C88_connected (os : Os) (u : Int) (nom type : Str) (lrec : Int) (s s' : St) (v r : Int) (hs : s.started = true)
    (h : fnom os u nom type lrec s = .ok (s', v, r)) (hv : ¬ Standard v nom) :
    (u ≠ 0 → v = u) ∧ (InUse s v → r = -1 ∧ s' = s) ∧ (r = 0 ∨ r = -1) ∧
    (r = 0 → ¬ InUse s v ∧ ∃ (i : Nat) (a : Entry), s'.table[i]? = some a ∧ a.iun = v ∧ a.isOpen = true ∧
      a.ftype = some type ∧ a.lrec = lrec) := by
  obtain ⟨e1, e0, h⟩ := fnom_spec h
  have e : start s = s := by unfold start; rw [if_pos hs]
  rw [e] at h
  refine ⟨fun hu => by rw [e1, if_neg hu], ?_⟩
  rcases h with ⟨-, h6, h5, h2, hc⟩ | ⟨hc, -, -, -, -, hm⟩
  · refine ⟨fun hu => ?_, ?_, fun h0 => ?_⟩
    · rw [inUse_iff] at hu
      cases hc with
      | used k hk g => exact ⟨rfl, g⟩
      | stuck k e e1 hk h0 he hr h => rw [hk] at hu; cases hu
      | new k e e1 _ hk h0 he hr h => rw [hk] at hu; cases hu
    · cases hc with
      | used k hk g => exact .inr rfl
      | stuck k e e1 hk h0 he hr h => exact .inr rfl
      | new k e e1 _ hk h0 he hr h =>
        cases h with
        | ftn => exact .inl rfl
        | wa => exact .inl rfl
        | failed => exact .inr rfl
    · subst h0
      obtain ⟨k, e, e1, a, hk, h0, he, hr, hx, ht, h1, h2, h3, h4, -⟩ := connected_entry hc
      refine ⟨fun hu => ?_, k, a, by rw [ht]; exact set_get he, h1, h2, h3, h4⟩
      rw [inUse_iff, hk] at hu; cases hu
  · have h1 : v = -1 := by
      rcases hc with hc | hc | hc | hc
      · exact hc
      · exact absurd (.inl hc) hv
      · exact absurd (.inr (.inr hc)) hv
      · exact absurd (.inr (.inl hc)) hv
    obtain ⟨hr, hq⟩ := hm h1
    subst hr
    exact ⟨fun _ => ⟨rfl, hq⟩, .inr rfl, fun h => by omega⟩

/-- C88.  A closed unit is free again; closing a unit that is not in use is refused. -/
theorem C88_closed (os : Os) (u : Int) (s : St) (hr : Reached s) (h0 : u ≠ 0)
    (h6 : ¬(u = 6 ∧ s.stdoutFlag = true)) (h5 : ¬(u = 5 ∧ s.stdinFlag = true)) :
    ¬ InUse (fclos os u s).1 u ∧ (¬ InUse s u → fclos os u s = (s, -1)) := by
  obtain ⟨I, -⟩ := hr.inv
  rcases hk : find s.table u with _ | k
  · have e : fclos os u s = (s, -1) := by
      unfold fclos
      rw [if_neg h6, if_neg h5, hk]
    rw [e]
    refine ⟨?_, fun _ => rfl⟩
    rw [inUse_iff, hk]; simp
  · obtain ⟨e, he, hu⟩ := find_some hk
    refine ⟨?_, fun h => absurd ((inUse_iff s u).2 (by simp [hk])) h⟩
    rw [fclos_spec os u s k e hk he, if_neg (by rintro (h | h); exact h6 h; exact h5 h)]
    rintro ⟨i, a, ha, hau⟩
    dsimp only at ha
    by_cases c : i = k
    · subst c
      rw [set_get he] at ha
      injection ha with ha
      subst ha
      exact h0 hau.symm
    · rw [List.getElem?_set_ne (by omega)] at ha
      exact c (I.distinct i k a e ha he (by omega) (by omega))

/-- C88, what holds of it: a refused call leaves the units in use as they were, unless the name is a scratch name with `/`,
or begins with `@`, or the unit is 5 after its use as standard input.  In those cases the unit stays taken
(see the witnesses). -/
theorem C88_refused_partial (os : Os) (u : Int) (nom type : Str) (lrec : Int) (s s' : St) (v r : Int) (hR : Reached s)
    (hs : s.started = true) (h : fnom os u nom type lrec s = .ok (s', v, r)) (hr : r ≠ 0)
    (hscr : ¬(Has type .scratch ∧ '/' ∈ nom)) (hat : nom.head? ≠ some '@') (h5 : ¬(v = 5 ∧ s.stdinFlag = true))
    (i : Nat) (a : Entry) (ha : a.iun ≠ 0) : s'.table[i]? = some a ↔ s.table[i]? = some a := by
  obtain ⟨I, -⟩ := hR.inv
  obtain ⟨e1, e0, h⟩ := fnom_spec h
  have e : start s = s := by unfold start; rw [if_pos hs]
  rw [e] at h
  rcases h with ⟨-, h6, -, h2, hc⟩ | ⟨hc, ht, -⟩
  · cases hc with
    | used k hk g => rw [g]
    | stuck k e e1 hk h0 he hg g =>
      exfalso
      obtain ⟨-, -, -, -, ⟨-, hc1, hc2⟩ | ⟨name, a, hl, -⟩⟩ := register_spec hg
      · rw [(parse_spec e.attr type).2.2.2.2.2.1, asks_iff] at hc1
        exact hscr ⟨hc1, hc2⟩
      · unfold locate at hl
        rw [if_neg hat] at hl
        simp at hl
    | new k e e1 _ hk h0 he hr' h =>
      cases h with
      | ftn => exact absurd rfl hr
      | wa => exact absurd rfl hr
      | failed s1 e2 h1 hi ho hsm g =>
        rw [g, if_neg h5]
        dsimp only
        by_cases c : i = k
        · subst c
          rw [set_get he, he]
          obtain ⟨b, hb, hb'⟩ := find_some h0
          rw [he] at hb; injection hb with hb; subst hb
          constructor
          · intro hh; injection hh with hh; subst hh; exact absurd rfl ha
          · intro hh; injection hh with hh; subst hh; exact absurd hb' ha
        · rw [List.getElem?_set_ne (by omega)]
  · rw [ht]

/-- C88 does not hold of every refused call: the unit of a scratch file whose name has `/` stays taken. -/
theorem C88_scratch_witness (os : Os) (u : Int) (nom type : Str) (lrec : Int) (s : St) (hs : s.started = true)
    (hu : ¬ Standard u nom ∧ u ≠ 0 ∧ u ≠ -1) (hn : ¬ InUse s u) (h0 : InUse s 0) (ht : Has type .scratch) (hc : '/' ∈ nom) :
    ∃ s', fnom os u nom type lrec s = .ok (s', u, -1) ∧ InUse s' u := by
  obtain ⟨hst, hu0, hu1⟩ := hu
  rw [inUse_iff] at hn h0
  rcases hk : find s.table 0 with _ | k
  · simp [hk] at h0
  obtain ⟨e, he, -⟩ := find_some hk
  have hp : (parse e.attr type).scratch = true := by
    rw [(parse_spec e.attr type).2.2.2.2.2.1, asks_iff]; exact ht
  refine ⟨{ s with table := s.table.set k { e with
    iun := u, ftype := some type, attr := parse e.attr type, lrec := lrec, isOpen := false } }, ?_, ?_⟩
  · unfold fnom
    have e1 : start s = s := by unfold start; rw [if_pos hs]
    simp only [e1, if_neg hu0, if_neg hu1, if_neg (fun h => hst (.inl h) : ¬ u = 6),
      if_neg (fun h => hst (.inr (.inr h)) : ¬ (u = 5 ∧ nom ∈ inNames)), if_neg (fun h => hst (.inr (.inl h)) : ¬ u = -2)]
    unfold connect
    simp only [Bool.eq_false_iff.2 hn, Bool.false_eq_true, if_false, hk, he]
    unfold register
    simp [hp, hc, Except.bind, Except.map]
  · exact ⟨k, _, set_get he, rfl⟩

/-- The same for a file `@name` found in none of the three places. -/
theorem C88_at_witness (os : Os) (u : Int) (f type : Str) (lrec : Int) (s : St) (hs : s.started = true)
    (hu : ¬ Standard u ('@' :: f) ∧ u ≠ 0 ∧ u ≠ -1) (hn : ¬ InUse s u) (h0 : InUse s 0) (ht : ¬ Has type .scratch) (hr : ¬ Has type .remote)
    (hf : '@' ∉ f) (ha : ∀ g, os.access g = false) :
    ∃ s', fnom os u ('@' :: f) type lrec s = .ok (s', u, -1) ∧ InUse s' u := by
  obtain ⟨hst, hu0, hu1⟩ := hu
  rw [inUse_iff] at hn h0
  rcases hk : find s.table 0 with _ | k
  · simp [hk] at h0
  obtain ⟨e, he, -⟩ := find_some hk
  have hp : (parse e.attr type).scratch = false := by
    rw [(parse_spec e.attr type).2.2.2.2.2.1, Bool.eq_false_iff, Ne, asks_iff]; exact ht
  have hq : (parse e.attr type).remote = false := by
    rw [(parse_spec e.attr type).2.2.2.2.2.2.1, Bool.eq_false_iff, Ne, asks_iff]; exact hr
  refine ⟨{ s with table := s.table.set k { e with
    iun := u, ftype := some type, attr := { parse e.attr type with remote := false, pipe := false }, lrec := lrec, isOpen := false
    name := some f, sub := none } }, ?_, ?_⟩
  · unfold fnom
    have e1 : start s = s := by unfold start; rw [if_pos hs]
    simp only [e1, if_neg hu0, if_neg hu1, if_neg (fun h => hst (.inl h) : ¬ u = 6),
      if_neg (fun h => hst (.inr (.inr h)) : ¬ (u = 5 ∧ ('@' :: f) ∈ inNames)), if_neg (fun h => hst (.inr (.inl h)) : ¬ u = -2)]
    unfold connect
    simp only [Bool.eq_false_iff.2 hn, Bool.false_eq_true, if_false, hk, he]
    unfold register
    simp [hp, hq, strip, archive, hf, locate, ha, Except.bind, Except.map]
  · exact ⟨k, _, set_get he, rfl⟩

/-- The first call of `c_fnom` forgets every unit opened before with `c_waopen2`. -/
theorem C88_first_witness (os : Os) (u : Int) (nom type : Str) (lrec : Int) (s s' : St) (v r : Int) (hs : s.started = false)
    (h : fnom os u nom type lrec s = .ok (s', v, r)) (w : Int) (hw : w ≠ v) (h0 : w ≠ 0) : ¬ InUse s' w := by
  rintro ⟨i, a, ha, hu⟩
  rw [(fnom_local h).frame hw h0 i a hu] at ha
  unfold start at ha
  simp only [hs, Bool.false_eq_true, if_false] at ha
  rw [List.getElem?_map] at ha
  rcases hx : s.table[i]? with _ | x
  · rw [hx] at ha; cases ha
  · rw [hx] at ha
    injection ha with ha
    subst ha
    exact h0 hu.symm

/-- When the table is full the search for a free entry reads past its end. -/
theorem C88_full_witness (os : Os) (u : Int) (nom type : Str) (lrec : Int) (s : St) (hs : s.started = true)
    (hu : ¬ Standard u nom ∧ u ≠ 0 ∧ u ≠ -1) (hn : ¬ InUse s u) (h0 : ¬ InUse s 0) :
    fnom os u nom type lrec s = .error .outside := by
  obtain ⟨hst, hu0, hu1⟩ := hu
  rw [inUse_iff] at hn h0
  have hk : find s.table 0 = none := by
    rcases hk : find s.table 0 with _ | k
    · rfl
    · simp [hk] at h0
  unfold fnom
  have e1 : start s = s := by unfold start; rw [if_pos hs]
  simp only [e1, if_neg hu0, if_neg hu1, if_neg (fun h => hst (.inl h) : ¬ u = 6),
    if_neg (fun h => hst (.inr (.inr h)) : ¬ (u = 5 ∧ nom ∈ inNames)), if_neg (fun h => hst (.inr (.inl h)) : ¬ u = -2)]
  unfold connect
  simp only [Bool.eq_false_iff.2 hn, Bool.false_eq_true, if_false, hk]
  rfl

/-- The name of a unit of more than three digits overflows the ten bytes allocated for it. -/
theorem C88_digits_witness (os : Os) : waopen os 1000 initial = .error .outside := by
  have h1 : find initial.table 1000 = none := by decide +kernel
  have h2 : find initial.table 0 = some 0 := by decide +kernel
  unfold waopen
  rw [h1]
  dsimp only
  rw [h2]
  rfl

/-- A system where every file exists and can be opened. -/
def osAll : Os := { access := fun _ => true, rdonly := fun _ => some 3, rdwr := fun _ => some 4, creat := fun _ => some 5 }

theorem ok_of {α : Type} (x : Except Fault α) (p : α → Bool) (h : (match x with | .ok s => p s | .error _ => false) = true) :
    ∃ s, x = .ok s ∧ p s = true := by
  cases x with
  | ok s => exact ⟨s, rfl, h⟩
  | error e => cases h

/-- A unit opened with `c_waopen2` before any `c_fnom` is in use, and `c_fnom` has not been called. -/
example : ∃ s, Reached s ∧ InUse s 21 ∧ s.started = false := by
  obtain ⟨s, h, hp⟩ := ok_of (run initial [.waopen osAll 21]) (fun s => (find s.table 21).isSome && !s.started) (by decide +kernel)
  simp only [Bool.and_eq_true, Bool.not_eq_true'] at hp
  exact ⟨s, ⟨_, h⟩, (inUse_iff s 21).2 hp.1, hp.2⟩

/-- A state where a scratch file, a standard file and an automatic unit are connected; the automatic unit is 999. -/
example : ∃ s, Reached s ∧ s.started = true ∧ InUse s 21 ∧ InUse s 999 ∧ InUse s 0 ∧ ¬ InUse s 998 := by
  obtain ⟨s, h, hp⟩ := ok_of (run initial [.fnom osAll 21 ['a'] Kw.scratch.upper 0, .fnom osAll 0 ['b'] Kw.std.upper 0])
    (fun s => s.started && (find s.table 21).isSome && (find s.table 999).isSome && (find s.table 0).isSome && (find s.table 998).isNone)
    (by decide +kernel)
  simp only [Bool.and_eq_true] at hp
  obtain ⟨⟨⟨⟨h1, h2⟩, h3⟩, h4⟩, h5⟩ := hp
  refine ⟨s, ⟨_, h⟩, h1, (inUse_iff s _).2 h2, (inUse_iff s _).2 h3, (inUse_iff s _).2 h4, ?_⟩
  rw [inUse_iff]
  rcases hf : find s.table 998 with _ | k
  · simp
  · rw [hf] at h5; cases h5

/-- A file given to unit 5 after its use as standard input cannot be closed: the call says that it was. -/
theorem C88_stdin_witness : ∃ s, Reached s ∧ InUse s 5 ∧ fclos osAll 5 s = (s, 0) := by
  obtain ⟨s, h, hp⟩ := ok_of (run initial [.fnom osAll 5 ['$', 'I', 'N'] Kw.ftn.upper 0, .fnom osAll 5 ['a'] Kw.std.upper 0])
    (fun s => (find s.table 5).isSome && s.stdinFlag) (by decide +kernel)
  simp only [Bool.and_eq_true] at hp
  refine ⟨s, ⟨_, h⟩, (inUse_iff s _).2 hp.1, ?_⟩
  unfold fclos
  rw [if_neg (by intro h; exact absurd h.1 (by decide)), if_pos ⟨rfl, hp.2⟩]

end Verif.Fnom
