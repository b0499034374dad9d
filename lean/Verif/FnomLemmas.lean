import Verif.Fnom

/-! Lemmas about the model of the table of units. -/
namespace Verif.Fnom

theorem hasSub_iff (pat : Str) : ∀ t, hasSub pat t = true ↔ pat <:+: t
  | [] => by simp [hasSub]
  | c :: t => by
    rw [hasSub, Bool.or_eq_true, hasSub_iff pat t, List.isPrefixOf_iff_prefix, List.infix_cons_iff]

theorem modify_set {α : Type} {l : List α} {k : Nat} {a : α} (f : α → α) (h : l[k]? = some a) :
    l.modify k f = l.set k (f a) := by
  apply List.ext_getElem?
  intro i
  rw [List.getElem?_modify, List.getElem?_set]
  by_cases c : k = i
  · subst c
    have : k < l.length := by
      rcases Nat.lt_or_ge k l.length with h' | h'
      · exact h'
      · rw [List.getElem?_eq_none h'] at h; cases h
    rw [h]; simp [this]
  · simp [c]

theorem set_get {α : Type} {l : List α} {k : Nat} {a b : α} (h : l[k]? = some a) : (l.set k b)[k]? = some b := by
  have : k < l.length := by
    rcases Nat.lt_or_ge k l.length with h' | h'
    · exact h'
    · rw [List.getElem?_eq_none h'] at h; cases h
  simp [this]

theorem find_some {t : List Entry} {u : Int} {k : Nat} (h : find t u = some k) : ∃ e, t[k]? = some e ∧ e.iun = u := by
  unfold find at h
  obtain ⟨hk, hp, -⟩ := List.findIdx?_eq_some_iff_getElem.mp h
  exact ⟨t[k], List.getElem?_eq_getElem hk, by simpa using hp⟩

theorem find_none {t : List Entry} {u : Int} : find t u = none ↔ ∀ (i : Nat) (e : Entry), t[i]? = some e → e.iun ≠ u := by
  unfold find
  rw [List.findIdx?_eq_none_iff]
  constructor
  · intro h i e he
    have := h e (List.mem_of_getElem? he)
    simpa using this
  · intro h e he
    obtain ⟨i, hi, rfl⟩ := List.mem_iff_getElem.mp he
    simpa using h i _ (List.getElem?_eq_getElem hi)

theorem find_exists {t : List Entry} {u : Int} {i : Nat} {e : Entry} (h : t[i]? = some e) (he : e.iun = u) :
    ∃ k, find t u = some k := by
  rcases hf : find t u with _ | k
  · exact absurd he (find_none.mp hf i e h)
  · exact ⟨k, rfl⟩

/-- No two entries have the same unit. -/
def Distinct (t : List Entry) : Prop :=
  ∀ (i j : Nat) (a b : Entry), t[i]? = some a → t[j]? = some b → a.iun = b.iun → a.iun ≠ 0 → i = j

theorem find_eq {t : List Entry} (D : Distinct t) {u : Int} {i : Nat} {e : Entry} (h : t[i]? = some e)
    (he : e.iun = u) (hu : u ≠ 0) : find t u = some i := by
  obtain ⟨k, hk⟩ := find_exists h he
  obtain ⟨e', h', he'⟩ := find_some hk
  rw [hk, D k i e' e h' h (by omega) (by omega)]

/-- Only one entry of the table may differ. -/
def Touch (k : Nat) (t t' : List Entry) : Prop := t'.length = t.length ∧ ∀ i, i ≠ k → t'[i]? = t[i]?

theorem Touch.refl (k : Nat) (t : List Entry) : Touch k t t := ⟨rfl, fun _ _ => rfl⟩
theorem Touch.trans {k : Nat} {a b c : List Entry} (h : Touch k a b) (g : Touch k b c) : Touch k a c :=
  ⟨by rw [g.1, h.1], fun i hi => by rw [g.2 i hi, h.2 i hi]⟩
theorem touch_set (k : Nat) (t : List Entry) (e : Entry) : Touch k t (t.set k e) :=
  ⟨by simp, fun i hi => by rw [List.getElem?_set_ne (by omega)]⟩
theorem touch_modify (k : Nat) (t : List Entry) (f : Entry → Entry) : Touch k t (t.modify k f) :=
  ⟨by simp, fun i hi => by rw [List.getElem?_modify_ne _ _ (by omega)]⟩

theorem waStart_table (s : St) : (waStart s).table = s.table := by unfold waStart; split <;> rfl
theorem waStart_flags (s : St) : (waStart s).started = s.started ∧ (waStart s).stdoutFlag = s.stdoutFlag ∧
    (waStart s).stdinFlag = s.stdinFlag ∧ (waStart s).waInit = true := by
  unfold waStart; split <;> simp_all

/-- Flags that an opening does not change. -/
def Same (s s' : St) : Prop :=
  s'.started = s.started ∧ s'.stdoutFlag = s.stdoutFlag ∧ s'.stdinFlag = s.stdinFlag

/-- How a descriptor was obtained for a file that is not in an archive. -/
def Plain (os : Os) (f : Str) (a : Attr) (d : Nat) (ro : Bool) : Prop :=
  (ro = true ∧ os.access f = true ∧ os.rdonly f = some d ∧ (a.readOnly = true ∨ (a.writeMode = false ∧ os.rdwr f = none))) ∨
  (ro = false ∧ ((os.access f = true ∧ a.readOnly = false ∧ os.rdwr f = some d) ∨ (os.access f = false ∧ os.creat f = some d)))

theorem openPlain_spec {os : Os} {name : Option Str} {a : Attr} {d : Nat} {ro : Bool}
    (h : openPlain os name a = (some d, ro)) : ∃ f, name = some f ∧ Plain os f a d ro := by
  unfold openPlain at h
  rcases name with _ | f
  · simp at h
  refine ⟨f, rfl, ?_⟩
  dsimp only at h
  unfold Plain
  by_cases c : os.access f = true
  · rw [if_pos c] at h
    by_cases c2 : a.readOnly = true
    · rw [if_pos c2] at h
      simp only [Prod.mk.injEq] at h
      exact .inl ⟨h.2.symm, c, h.1, .inl c2⟩
    · rw [if_neg c2] at h
      rcases hr : os.rdwr f with _ | d'
      · rw [hr] at h
        dsimp only at h
        by_cases c3 : a.writeMode = true
        · rw [if_pos c3] at h; simp at h
        · rw [if_neg c3] at h
          simp only [Prod.mk.injEq] at h
          exact .inl ⟨h.2.symm, c, h.1, .inr ⟨by simpa using c3, rfl⟩⟩
      · rw [hr] at h
        simp only [Prod.mk.injEq, Option.some.injEq] at h
        exact .inr ⟨h.2.symm, .inl ⟨c, by simpa using c2, by rw [h.1]⟩⟩
  · rw [if_neg c] at h
    by_cases c2 : os.noent = true
    · rw [if_pos c2] at h
      simp only [Prod.mk.injEq] at h
      exact .inr ⟨h.2.symm, .inr ⟨by simpa using c, h.1⟩⟩
    · rw [if_neg c2] at h; simp at h

/-- What an opening may do. -/
inductive Opened (os : Os) (k : Nat) (e : Entry) (s s' : St) : Int → Prop
  | not (ro : Bool) (ht : s'.table = s.table.set k { e with fd := -1, attr := { e.attr with readOnly := ro } })
      (hs : s'.slots = (waStart s).slots) : Opened os k e s s' (-1)
  | lost (d i : Nat) (n : Str) (hn : e.sub = some n) (hp : os.filepos ≤ 0) (hd : os.rdonly (e.name.getD []) = some d)
      (hi : (waStart s).slots.findIdx? (·.fd == -1) = some i)
      (ht : s'.table = s.table.set k { e with fd := d, attr := { e.attr with readOnly := true } })
      (hs : s'.slots = (waStart s).slots.set i ⟨d, os.filepos⟩) : Opened os k e s s' (-1)
  | sub (d i : Nat) (n : Str) (hn : e.sub = some n) (hp : 0 < os.filepos) (hd : os.rdonly (e.name.getD []) = some d)
      (hi : (waStart s).slots.findIdx? (·.fd == -1) = some i)
      (ht : s'.table = s.table.set k { e with fd := d, isOpen := true, attr := { e.attr with readOnly := true } })
      (hs : s'.slots = (waStart s).slots.set i ⟨d, os.filepos⟩) : Opened os k e s s' d
  | plain (d i : Nat) (f : Str) (ro : Bool) (hn : e.sub = none) (hf : e.name = some f) (hp : Plain os f e.attr d ro)
      (hi : (waStart s).slots.findIdx? (·.fd == -1) = some i)
      (ht : s'.table = s.table.set k { e with fd := d, isOpen := true, attr := { e.attr with readOnly := ro } })
      (hs : s'.slots = (waStart s).slots.modify i ({ · with fd := d })) : Opened os k e s s' d

theorem qqcopen_spec {os : Os} {k : Nat} {e : Entry} {s s' : St} {r : Int} (he : s.table[k]? = some e)
    (h : qqcopen os k s = .ok (s', r)) : Opened os k e s s' r ∧ Same s s' ∧ s'.waInit = true := by
  unfold qqcopen at h
  dsimp only at h
  rw [waStart_table, he] at h
  obtain ⟨f1, f2, f3, f4⟩ := waStart_flags s
  dsimp only at h
  rcases hi : (waStart s).slots.findIdx? (·.fd == -1) with _ | i
  · rw [hi] at h; cases h
  rw [hi] at h
  dsimp only at h
  rcases hs : e.sub with _ | n
  · rw [hs] at h
    dsimp only at h
    rcases hp : openPlain os e.name e.attr with ⟨_ | d, ro⟩
    · rw [hp] at h
      dsimp only at h
      injection h with h; injection h with h1 h2; subst h1; subst h2
      exact ⟨.not ro (by simp [hs]) rfl, ⟨f1, f2, f3⟩, f4⟩
    · rw [hp] at h
      dsimp only at h
      injection h with h; injection h with h1 h2; subst h1; subst h2
      obtain ⟨f, hf, hP⟩ := openPlain_spec hp
      exact ⟨.plain d i f ro hs hf hP hi (by simp [hs]) rfl, ⟨f1, f2, f3⟩, f4⟩
  · rw [hs] at h
    dsimp only at h
    rcases hd : os.rdonly (e.name.getD []) with _ | d
    · rw [hd] at h
      dsimp only at h
      injection h with h; injection h with h1 h2; subst h1; subst h2
      exact ⟨.not true (by simp [hs]) rfl, ⟨f1, f2, f3⟩, f4⟩
    · rw [hd] at h
      dsimp only at h
      by_cases c : os.filepos ≤ 0
      · rw [if_pos c] at h
        injection h with h; injection h with h1 h2; subst h1; subst h2
        exact ⟨.lost d i n hs c hd hi (by simp [hs]) rfl, ⟨f1, f2, f3⟩, f4⟩
      · rw [if_neg c] at h
        injection h with h; injection h with h1 h2; subst h1; subst h2
        exact ⟨.sub d i n hs (by omega) hd hi (by simp [hs]) rfl, ⟨f1, f2, f3⟩, f4⟩

theorem lt_of_get {α : Type} {l : List α} {k : Nat} {a : α} (h : l[k]? = some a) : k < l.length := by
  rcases Nat.lt_or_ge k l.length with h' | h'
  · exact h'
  · rw [List.getElem?_eq_none h'] at h; cases h

/-- The table after an opening. -/
theorem Opened.table {os : Os} {k : Nat} {e : Entry} {s s' : St} {r : Int} (h : Opened os k e s s' r) :
    ∃ fd ro, (0 ≤ r → fd = r) ∧ s'.table = s.table.set k { e with fd := fd, isOpen := e.isOpen || decide (0 ≤ r), attr := { e.attr with readOnly := ro } } := by
  cases h with
  | not ro ht hs => exact ⟨_, _, by omega, by rw [ht]; simp; rfl⟩
  | lost d i n hn hp hd hi ht hs => exact ⟨_, _, by omega, by rw [ht]; simp; rfl⟩
  | sub d i n hn hp hd hi ht hs => exact ⟨d, _, fun _ => rfl, by rw [ht]; simp; rfl⟩
  | plain d i f ro hn hf hp hi ht hs => exact ⟨d, _, fun _ => rfl, by rw [ht]; simp; rfl⟩

/-- What `c_waopen2` may do. -/
inductive WaOpened (os : Os) (u : Int) (s s' : St) : Int → Prop
  | refused (h : s' = s) : WaOpened os u s s' (-1)
  | again (k : Nat) (e : Entry) (hk : find s.table u = some k) (he : s.table[k]? = some e) (ho : e.isOpen = true)
      (hr : e.attr.rnd = true)
      (h : s' = { s with table := s.table.set k { e with attr := { e.attr with wa := true } } }) : WaOpened os u s s' e.fd
  | opened (k : Nat) (e e1 : Entry) (s1 s2 : St) (r : Int) (he : s.table[k]? = some e)
      (hk : (find s.table u = some k ∧ e1 = e ∧ e.isOpen = false ∧ e.attr.rnd = true) ∨
        (find s.table u = none ∧ find s.table 0 = some k ∧ e1 = waEntry u e))
      (h1 : s1 = { s with table := s.table.set k e1 })
      (ho : Opened os k e1 s1 s2 r) (hw : s2.waInit = true) (hf : Same s s2)
      (h : s' = (waFinish k (s2, r)).1) : WaOpened os u s s' r

theorem waopen_spec {os : Os} {u : Int} {s s' : St} {r : Int} (h : waopen os u s = .ok (s', r)) :
    WaOpened os u s s' r := by
  unfold waopen at h
  rcases hk : find s.table u with _ | k
  · rw [hk] at h
    dsimp only at h
    rcases h0 : find s.table 0 with _ | k
    · rw [h0] at h
      injection h with h; injection h with h1 h2; subst h1; subst h2
      exact .refused rfl
    rw [h0] at h
    dsimp only at h
    by_cases c : 3 < (digits u).length
    · rw [if_pos c] at h; cases h
    rw [if_neg c] at h
    obtain ⟨e, he, -⟩ := find_some h0
    rw [modify_set _ he] at h
    rcases hq : qqcopen os k { s with table := s.table.set k (waEntry u e) } with _ | ⟨s2, r2⟩
    · rw [hq] at h; cases h
    · rw [hq] at h
      simp only [Except.map] at h
      injection h with h
      obtain ⟨o, f, w⟩ := qqcopen_spec (set_get he) hq
      have hr : (waFinish k (s2, r2)).2 = r2 := by unfold waFinish; split <;> rfl
      rw [h] at hr
      dsimp only at hr
      subst hr
      exact .opened k e _ _ s2 r he (.inr ⟨hk, h0, rfl⟩) rfl o w f (by rw [h])
  · rw [hk] at h
    obtain ⟨e, he, -⟩ := find_some hk
    dsimp only at h
    rw [he] at h
    dsimp only at h
    by_cases c : e.attr.rnd = true
    · simp only [c, Bool.not_true, Bool.false_eq_true, if_false] at h
      by_cases c2 : e.isOpen = true
      · rw [if_pos c2] at h
        injection h with h; injection h with h1 h2; subst h1; subst h2
        exact .again k e hk he c2 c (by simp [c])
      · rw [if_neg c2] at h
        rcases hq : qqcopen os k s with _ | ⟨s2, r2⟩
        · rw [hq] at h; cases h
        · rw [hq] at h
          simp only [Except.map] at h
          injection h with h
          obtain ⟨o, f, w⟩ := qqcopen_spec he hq
          have hr : (waFinish k (s2, r2)).2 = r2 := by unfold waFinish; split <;> rfl
          rw [h] at hr
          dsimp only at hr
          subst hr
          have hset : s = { s with table := s.table.set k e } := by
            have : s.table.set k e = s.table := by
              apply List.ext_getElem?
              intro i
              by_cases ci : i = k
              · subst ci; rw [set_get he, he]
              · rw [List.getElem?_set_ne (by omega)]
            rw [this]
          exact .opened k e e s s2 r he (.inl ⟨hk, rfl, by simpa using c2, c⟩) hset o w f (by rw [h])
    · simp only [c, Bool.not_false, if_true] at h
      injection h with h; injection h with h1 h2; subst h1; subst h2
      exact .refused rfl

theorem fclos_spec (os : Os) (u : Int) (s : St) (k : Nat) (e : Entry) (hk : find s.table u = some k) (he : s.table[k]? = some e) :
    (fclos os u s).1 = if (u = 6 ∧ s.stdoutFlag = true) ∨ (u = 5 ∧ s.stdinFlag = true) then s
      else { s with table := s.table.set k (resetEntry e) } := by
  unfold fclos
  by_cases c : u = 6 ∧ s.stdoutFlag = true
  · rw [if_pos c, if_pos (.inl c)]
  rw [if_neg c]
  by_cases c2 : u = 5 ∧ s.stdinFlag = true
  · rw [if_pos c2, if_pos (.inr c2)]
  rw [if_neg c2, if_neg (by rintro (h | h); exact c h; exact c2 h), hk]
  dsimp only
  rw [modify_set _ he]

/-- What the opening of a new entry may do. -/
inductive NewOpened (os : Os) (u : Int) (k : Nat) (e : Entry) (s s' : St) : Int → Prop
  | ftn (hf : e.attr.ftn = true) (ho : os.ftnOpen = true)
      (hx : (e.attr.old || e.attr.readOnly) = true → os.access (rstrip (e.name.getD [])) = true)
      (h : s' = { s with table := s.table.set k { e with isOpen := true } }) : NewOpened os u k e s s' 0
  | wa (d : Nat) (ro : Bool) (s1 : St) (hf : e.attr.ftn = false) (hr : e.attr.rnd = true)
      (hx : (e.attr.old || e.attr.readOnly) = true → os.access (rstrip (e.name.getD [])) = true)
      (ho : Opened os k e { s with table := s.table.set k e } s1 d)
      (h1 : s1.table = s.table.set k { e with fd := d, isOpen := true, attr := { e.attr with readOnly := ro } })
      (hw : s1.waInit = true) (hs : Same s s1)
      (h : s' = { s1 with table := s.table.set k { e with
        fd := d, isOpen := true, attr := { e.attr with readOnly := ro, wa := false } } }) : NewOpened os u k e s s' 0
  | failed (s1 : St) (e1 : Entry) (h1 : (s1 = { s with table := s.table.set k e }) ∨
        (e.attr.ftn = false ∧ Opened os k e { s with table := s.table.set k e } s1 (-1) ∧ s1.waInit = true))
      (hi : e1.iun = u) (ho : e1.isOpen = false) (hs : Same s s1)
      (h : s' = { s1 with table := s.table.set k (if u = 5 ∧ s.stdinFlag = true then e1 else resetEntry e1) }) :
      NewOpened os u k e s s' (-1)

theorem same_refl (s : St) (t : List Entry) : Same s { s with table := t } := ⟨rfl, rfl, rfl⟩

theorem openNew_spec {os : Os} {u : Int} {k : Nat} {e e0 : Entry} {s s' : St} {r : Int} (hu : find s.table u = none)
    (h0 : s.table[k]? = some e0) (hi : e.iun = u) (ho : e.isOpen = false) (h6 : u ≠ 6)
    (h : openNew os u k e s = .ok (s', r)) : NewOpened os u k e s s' r := by
  have hfind : ∀ e' : Entry, e'.iun = u → find (s.table.set k e') u = some k := by
    intro e' he'
    obtain ⟨j, hj⟩ := find_exists (t := s.table.set k e') (set_get h0) he'
    obtain ⟨a, ha, ha'⟩ := find_some hj
    by_cases c : j = k
    · rw [hj, c]
    · rw [List.getElem?_set_ne (by omega)] at ha
      exact absurd ha' (find_none.mp hu j a ha)
  have hfail : ∀ (s1 : St) (e1 : Entry), s1.table = s.table.set k e1 → e1.iun = u → Same s s1 →
      (fclos os u s1).1 = { s1 with table := s.table.set k (if u = 5 ∧ s.stdinFlag = true then e1 else resetEntry e1) } := by
    intro s1 e1 ht h1 hs
    rw [fclos_spec os u s1 k e1 (by rw [ht]; exact hfind e1 h1) (by rw [ht]; exact set_get h0)]
    have hc := hs.2.2
    by_cases c : u = 5 ∧ s.stdinFlag = true
    · rw [if_pos (.inr ⟨c.1, by rw [hc]; exact c.2⟩), if_pos c, ← ht]
    · rw [if_neg (by rintro (h | h); exact h6 h.1; rw [hc] at h; exact c h), if_neg c, ht, List.set_set]
  unfold openNew at h
  dsimp only at h
  by_cases cx : ((e.attr.old || e.attr.readOnly) && !os.access (rstrip (e.name.getD []))) = true
  · rw [if_pos cx] at h
    injection h with h; injection h with h1 h2; subst h1; subst h2
    exact .failed _ e (.inl rfl) hi ho (same_refl _ _) (hfail _ e rfl hi (same_refl _ _))
  rw [if_neg cx] at h
  have hx : (e.attr.old || e.attr.readOnly) = true → os.access (rstrip (e.name.getD [])) = true := by
    intro c; rw [c] at cx; simpa using cx
  by_cases cf : e.attr.ftn = true
  · rw [if_pos cf] at h
    by_cases c2 : os.ftnOpen = true
    · rw [if_pos c2] at h
      injection h with h; injection h with h1 h2; subst h1; subst h2
      exact .ftn cf c2 hx (by simp)
    · rw [if_neg c2] at h
      injection h with h; injection h with h1 h2; subst h1; subst h2
      exact .failed _ e (.inl rfl) hi ho (same_refl _ _) (hfail _ e rfl hi (same_refl _ _))
  rw [if_neg cf] at h
  rcases hw : waopen os u { s with table := s.table.set k e } with _ | ⟨s2, r2⟩
  · rw [hw] at h; cases h
  rw [hw] at h
  simp only [Except.map] at h
  injection h with h
  have hs := waopen_spec hw
  cases hs with
  | refused hh =>
    subst hh
    simp only [show (-1 : Int) < 0 by decide, if_true] at h
    injection h with h1 h2; subst h1; subst h2
    rw [modify_set _ (set_get h0), List.set_set]
    refine .failed _ _ (.inl rfl) ?_ ?_ (same_refl _ _) (hfail _ _ rfl ?_ (same_refl _ _))
    · exact hi
    · exact ho
    · exact hi
  | again k' e' hk he ho' hr hh =>
    have hk' := hfind e hi
    rw [hk'] at hk
    injection hk with hk
    subst hk
    dsimp only at he
    rw [set_get h0] at he
    injection he with he
    subst he
    rw [ho] at ho'; cases ho'
  | opened k' e' e1 s1 s3 r' he hk h1 hop hwi hsm hh =>
    have hk' := hfind e hi
    obtain ⟨hk2, rfl, ho', hr⟩ : find (s.table.set k e) u = some k' ∧ e1 = e' ∧ e'.isOpen = false ∧ e'.attr.rnd = true := by
      rcases hk with hk | ⟨hk, -⟩
      · exact hk
      · dsimp only at hk; rw [hk'] at hk; cases hk
    rw [hk'] at hk2
    injection hk2 with hk2
    subst hk2
    dsimp only at he
    rw [set_get h0] at he
    injection he with he
    subst he
    dsimp only at h1
    rw [List.set_set] at h1
    subst h1
    obtain ⟨fd, ro, hfd, ht⟩ := hop.table
    dsimp only at ht
    rw [List.set_set, ho] at ht
    by_cases c : r2 < 0
    · have hd : decide (0 ≤ r2) = false := by simp; omega
      rw [if_pos c] at h
      injection h with h1 h2; subst h1; subst h2
      unfold waFinish at hh
      rw [if_neg (by omega)] at hh
      subst hh
      rw [hd] at ht
      rw [ht, modify_set _ (set_get h0), List.set_set]
      have hr1 : r2 = -1 := by cases hop <;> omega
      subst hr1
      refine .failed s2 _ (.inr ⟨by simpa using cf, hop, hwi⟩) ?_ ?_ hsm (hfail { s2 with table := _ } _ rfl ?_ hsm)
      · exact hi
      · rfl
      · exact hi
    · have hd : decide (0 ≤ r2) = true := by simp; omega
      rw [if_neg c] at h
      unfold waFinish at hh
      rw [if_pos (by dsimp only; omega)] at hh
      dsimp only at hh
      rw [hd] at ht
      rw [ht, modify_set _ (set_get h0), List.set_set] at hh
      subst hh
      rw [modify_set _ (set_get h0), List.set_set] at h
      obtain ⟨d, hd'⟩ : ∃ d : Nat, r2 = d := ⟨r2.toNat, by omega⟩
      subst hd'
      have hfd := hfd (by omega)
      subst hfd
      have e0 : r = 0 := by
        split at h
        all_goals (injection h with h1 h2; exact h2.symm)
      subst e0
      refine .wa d ro s3 (by simpa using cf) hr hx hop (by rw [ht]; simp) hwi hsm ?_
      split at h
      all_goals
        injection h with h1 h2
        subst h1
        try rw [modify_set _ (set_get h0), List.set_set]
        simp [hr]

end Verif.Fnom
