import Verif.FnomAttr

/-! The table of word addressable files. -/
namespace Verif.Fnom

/-- A word addressable file is open on this entry. -/
def WaOpen (e : Entry) : Prop := e.isOpen = true ∧ e.attr.ftn = false

/-- Slots in use and open word addressable files correspond one to one. -/
structure Slots (s : St) : Prop where
  has : ∀ (i : Nat) (e : Entry), s.table[i]? = some e → WaOpen e → s.waInit = true ∧ 0 ≤ e.fd ∧ ∃ (j : Nat) (w : Slot), s.slots[j]? = some w ∧ w.fd = e.fd
  once : ∀ (i j : Nat) (v w : Slot), s.waInit = true → s.slots[i]? = some v → s.slots[j]? = some w → v.fd = w.fd → v.fd ≠ -1 → i = j
  own : ∀ (i j : Nat) (e f : Entry), s.table[i]? = some e → s.table[j]? = some f → WaOpen e → WaOpen f → e.fd = f.fd → i = j
  used : ∀ (j : Nat) (w : Slot), s.waInit = true → s.slots[j]? = some w → w.fd ≠ -1 → ∃ (i : Nat) (e : Entry), s.table[i]? = some e ∧ WaOpen e ∧ e.fd = w.fd

/-- The descriptors that the system may give are not those of slots in use. -/
def Fresh (os : Os) (s : St) : Prop :=
  ∀ (f : Str) (d : Nat), os.rdonly f = some d ∨ os.rdwr f = some d ∨ os.creat f = some d →
    s.waInit = true → ∀ (j : Nat) (w : Slot), s.slots[j]? = some w → w.fd ≠ d

/-- The calls that the library expects: a word addressable file is closed with `c_waclos2` before `c_fclos`, Fortran files are not
given to `c_waopen2` and `c_waclos2`, parts of archives are found, `c_fnom` comes first. -/
def Legal (s : St) : Op → Prop
  | .fnom os _ _ _ _ => Fresh os s ∧ 0 < os.filepos ∧ (s.started = true ∨ ∀ (i : Nat) (e : Entry), s.table[i]? = some e → ¬ WaOpen e)
  | .fclos _ u => ∀ (i : Nat) (e : Entry), s.table[i]? = some e → e.iun = u → ¬ WaOpen e
  | .waopen os u => Fresh os s ∧ 0 < os.filepos ∧ ∀ (i : Nat) (e : Entry), s.table[i]? = some e → e.iun = u → e.attr.ftn = false
  | .waclos u => ∀ (i : Nat) (e : Entry), s.table[i]? = some e → e.iun = u → e.attr.ftn = false

/-- Replacing an entry that is not open by one that is not open. -/
theorem Slots.quiet {s s' : St} {k : Nat} {e a : Entry} (S : Slots s) (he : s.table[k]? = some e) (ho : ¬ WaOpen e) (ha : ¬ WaOpen a)
    (ht : s'.table = s.table.set k a) (hs : s'.slots = s.slots) (hw : s'.waInit = s.waInit) : Slots s' := by
  have old : ∀ (i : Nat) (x : Entry), s'.table[i]? = some x → WaOpen x → s.table[i]? = some x := by
    intro i x hx hox
    rw [ht] at hx
    by_cases c : i = k
    · subst c; rw [set_get he] at hx; injection hx with hx; subst hx; exact absurd hox ha
    · rwa [List.getElem?_set_ne (by omega)] at hx
  refine ⟨fun i x hx hox => ?_, fun i j v w h0 h1 h2 h3 h4 => ?_, fun i j x y hx hy hox hoy h => ?_, fun j w h0 h1 h2 => ?_⟩
  · rw [hw, hs]; exact S.has i x (old i x hx hox) hox
  · rw [hw] at h0; rw [hs] at h1 h2; exact S.once i j v w h0 h1 h2 h3 h4
  · exact S.own i j x y (old i x hx hox) (old j y hy hoy) hox hoy h
  · rw [hw] at h0; rw [hs] at h1
    obtain ⟨i, x, hx, hox, hf⟩ := S.used j w h0 h1 h2
    refine ⟨i, x, ?_, hox, hf⟩
    rw [ht]
    by_cases c : i = k
    · subst c; rw [he] at hx; injection hx with hx; subst hx; exact absurd hox ho
    · rwa [List.getElem?_set_ne (by omega)]

/-- The slots before the first opening are made ready. -/
theorem Slots.start {s : St} (S : Slots s) : Slots (waStart s) := by
  unfold waStart
  by_cases c : s.waInit = true
  · rw [if_pos c]; exact S
  · rw [if_neg c]
    have free : ∀ (j : Nat) (w : Slot), (s.slots.map fun _ => ({ fd := -1, offset := 0 } : Slot))[j]? = some w → w.fd = -1 := by
      intro j w hw
      rw [List.getElem?_map] at hw
      rcases hx : s.slots[j]? with _ | x
      · rw [hx] at hw; cases hw
      · rw [hx] at hw; injection hw with hw; subst hw; rfl
    refine ⟨fun i x hx hox => absurd (S.has i x hx hox).1 c, fun i j v w _ h1 h2 h3 h4 => absurd (free i v h1) h4,
      fun i j x y hx _ hox _ _ => absurd (S.has i x hx hox).1 c, fun j w _ h1 h2 => absurd (free j w h1) h2⟩

/-- Opening a file on an entry that is not open, with a new descriptor, in the first free slot. -/
theorem Slots.open {s s' : St} {k i : Nat} {e a : Entry} {d : Nat} {w' : Slot} (S : Slots s) (hw : s.waInit = true) (he : s.table[k]? = some e)
    (ho : ¬ WaOpen e) (hi : s.slots.findIdx? (·.fd == -1) = some i) (hd : ∀ (j : Nat) (w : Slot), s.slots[j]? = some w → w.fd ≠ d)
    (ha : WaOpen a) (hf : a.fd = d) (hw' : w'.fd = d)
    (ht : s'.table = s.table.set k a) (hs : s'.slots = s.slots.set i w') (hi' : s'.waInit = true) : Slots s' := by
  obtain ⟨hlt, hfree, -⟩ := List.findIdx?_eq_some_iff_getElem.mp hi
  have hsi : s.slots[i]? = some s.slots[i] := List.getElem?_eq_getElem hlt
  have hfree' : s.slots[i].fd = -1 := by simpa using hfree
  have ents : ∀ (j : Nat) (x : Entry), s'.table[j]? = some x → (j = k ∧ x = a) ∨ (j ≠ k ∧ s.table[j]? = some x) := by
    intro j x hx
    rw [ht] at hx
    by_cases c : j = k
    · subst c; rw [set_get he] at hx; injection hx with hx; exact .inl ⟨rfl, hx.symm⟩
    · rw [List.getElem?_set_ne (by omega)] at hx; exact .inr ⟨c, hx⟩
  have slts : ∀ (j : Nat) (x : Slot), s'.slots[j]? = some x → (j = i ∧ x = w') ∨ (j ≠ i ∧ s.slots[j]? = some x) := by
    intro j x hx
    rw [hs] at hx
    by_cases c : j = i
    · subst c; rw [set_get hsi] at hx; injection hx with hx; exact .inl ⟨rfl, hx.symm⟩
    · rw [List.getElem?_set_ne (by omega)] at hx; exact .inr ⟨c, hx⟩
  have notd : ∀ (j : Nat) (x : Entry), s.table[j]? = some x → WaOpen x → x.fd ≠ d := by
    intro j x hx hox hc
    obtain ⟨-, -, l, w, hl, hlw⟩ := S.has j x hx hox
    exact hd l w hl (by omega)
  refine ⟨fun j x hx hox => ?_, fun j l v w h0 h1 h2 h3 h4 => ?_, fun j l x y hx hy hox hoy h => ?_, fun j w h0 h1 h2 => ?_⟩
  · rcases ents j x hx with ⟨rfl, rfl⟩ | ⟨c, hx⟩
    · exact ⟨hi', by omega, i, w', by rw [hs]; exact set_get hsi, by omega⟩
    · obtain ⟨-, h1, l, w, hl, hlw⟩ := S.has j x hx hox
      refine ⟨hi', h1, l, w, ?_, hlw⟩
      rw [hs, List.getElem?_set_ne]
      · exact hl
      · intro hc; subst hc; rw [hsi] at hl; injection hl with hl; subst hl; omega
  · rcases slts j v h1 with ⟨rfl, rfl⟩ | ⟨c1, h1⟩
    · rcases slts l w h2 with ⟨rfl, rfl⟩ | ⟨c2, h2⟩
      · rfl
      · exact absurd (by omega) (hd l w h2)
    · rcases slts l w h2 with ⟨rfl, rfl⟩ | ⟨c2, h2⟩
      · exact absurd (by omega) (hd j v h1)
      · exact S.once j l v w hw h1 h2 h3 h4
  · rcases ents j x hx with ⟨rfl, rfl⟩ | ⟨c1, hx⟩
    · rcases ents l y hy with ⟨rfl, rfl⟩ | ⟨c2, hy⟩
      · rfl
      · exact absurd (by omega) (notd l y hy hoy)
    · rcases ents l y hy with ⟨rfl, rfl⟩ | ⟨c2, hy⟩
      · exact absurd (by omega) (notd j x hx hox)
      · exact S.own j l x y hx hy hox hoy h
  · rcases slts j w h1 with ⟨rfl, rfl⟩ | ⟨c, h1⟩
    · exact ⟨k, a, by rw [ht]; exact set_get he, ha, by omega⟩
    · obtain ⟨l, x, hx, hox, hxf⟩ := S.used j w hw h1 h2
      refine ⟨l, x, ?_, hox, hxf⟩
      rw [ht, List.getElem?_set_ne]
      · exact hx
      · intro hc; subst hc; rw [he] at hx; injection hx with hx; subst hx; exact ho hox

/-- Closing. -/
theorem Slots.close {s s' : St} {k i : Nat} {e a : Entry} {w' : Slot} (S : Slots s) (he : s.table[k]? = some e)
    (ho : WaOpen e) (hi : s.slots.findIdx? (·.fd == e.fd) = some i) (ha : ¬ WaOpen a) (hw' : w'.fd = -1)
    (ht : s'.table = s.table.set k a) (hs : s'.slots = s.slots.set i w') (hi' : s'.waInit = s.waInit) : Slots s' := by
  obtain ⟨hlt, hfree, -⟩ := List.findIdx?_eq_some_iff_getElem.mp hi
  have hsi : s.slots[i]? = some s.slots[i] := List.getElem?_eq_getElem hlt
  have hfree' : s.slots[i].fd = e.fd := by simpa using hfree
  obtain ⟨hw, hpos, -⟩ := S.has k e he ho
  have ents : ∀ (j : Nat) (x : Entry), s'.table[j]? = some x → WaOpen x → j ≠ k ∧ s.table[j]? = some x := by
    intro j x hx hox
    rw [ht] at hx
    by_cases c : j = k
    · subst c; rw [set_get he] at hx; injection hx with hx; subst hx; exact absurd hox ha
    · rw [List.getElem?_set_ne (by omega)] at hx; exact ⟨c, hx⟩
  have slts : ∀ (j : Nat) (x : Slot), s'.slots[j]? = some x → x.fd ≠ -1 → j ≠ i ∧ s.slots[j]? = some x := by
    intro j x hx hn
    rw [hs] at hx
    by_cases c : j = i
    · subst c; rw [set_get hsi] at hx; injection hx with hx; subst hx; exact absurd hw' hn
    · rw [List.getElem?_set_ne (by omega)] at hx; exact ⟨c, hx⟩
  refine ⟨fun j x hx hox => ?_, fun j l v w h0 h1 h2 h3 h4 => ?_, fun j l x y hx hy hox hoy h => ?_, fun j w h0 h1 h2 => ?_⟩
  · obtain ⟨c, hx⟩ := ents j x hx hox
    obtain ⟨-, h1, l, w, hl, hlw⟩ := S.has j x hx hox
    refine ⟨by rw [hi', hw], h1, l, w, ?_, hlw⟩
    rw [hs, List.getElem?_set_ne]
    · exact hl
    · intro hc; subst hc
      rw [hsi] at hl; injection hl with hl; subst hl
      exact c (S.own j k x e hx he hox ho (by omega))
  · obtain ⟨-, h1⟩ := slts j v h1 h4
    obtain ⟨-, h2⟩ := slts l w h2 (by omega)
    exact S.once j l v w hw h1 h2 h3 h4
  · exact S.own j l x y (ents j x hx hox).2 (ents l y hy hoy).2 hox hoy h
  · obtain ⟨c, h1⟩ := slts j w h1 h2
    obtain ⟨l, x, hx, hox, hxf⟩ := S.used j w hw h1 h2
    refine ⟨l, x, ?_, hox, hxf⟩
    rw [ht, List.getElem?_set_ne]
    · exact hx
    · intro hcc; subst hcc
      rw [he] at hx; injection hx with hx; subst hx
      exact c (S.once j i w s.slots[i] hw h1 hsi (by omega) h2)

/-- Changing attributes other than those of the opening. -/
theorem Slots.touch {s s' : St} {k : Nat} {e a : Entry} (S : Slots s) (he : s.table[k]? = some e) (ha : WaOpen a ↔ WaOpen e) (hf : a.fd = e.fd)
    (ht : s'.table = s.table.set k a) (hs : s'.slots = s.slots) (hw : s'.waInit = s.waInit) : Slots s' := by
  have old : ∀ (i : Nat) (x : Entry), s'.table[i]? = some x → WaOpen x → ∃ y, s.table[i]? = some y ∧ WaOpen y ∧ y.fd = x.fd := by
    intro i x hx hox
    rw [ht] at hx
    by_cases c : i = k
    · subst c; rw [set_get he] at hx; injection hx with hx; subst hx; exact ⟨e, he, ha.1 hox, by omega⟩
    · rw [List.getElem?_set_ne (by omega)] at hx; exact ⟨x, hx, hox, rfl⟩
  refine ⟨fun i x hx hox => ?_, fun i j v w h0 h1 h2 h3 h4 => ?_, fun i j x y hx hy hox hoy h => ?_, fun j w h0 h1 h2 => ?_⟩
  · obtain ⟨y, h1, h2, h3⟩ := old i x hx hox
    rw [hw, hs, ← h3]; exact S.has i y h1 h2
  · rw [hw] at h0; rw [hs] at h1 h2; exact S.once i j v w h0 h1 h2 h3 h4
  · obtain ⟨x', h1, h2, h3⟩ := old i x hx hox
    obtain ⟨y', g1, g2, g3⟩ := old j y hy hoy
    exact S.own i j x' y' h1 g1 h2 g2 (by omega)
  · rw [hw] at h0; rw [hs] at h1
    obtain ⟨i, x, hx, hox, hf'⟩ := S.used j w h0 h1 h2
    rw [ht]
    by_cases c : i = k
    · subst c; rw [he] at hx; injection hx with hx; subst hx
      exact ⟨i, a, set_get he, ha.2 hox, by omega⟩
    · exact ⟨i, x, by rwa [List.getElem?_set_ne (by omega)], hox, hf'⟩

theorem fresh_start {os : Os} {s : St} (F : Fresh os s) : Fresh os (waStart s) := by
  intro f d hd hw j w hj
  unfold waStart at hj
  by_cases c : s.waInit = true
  · rw [if_pos c] at hj; exact F f d hd c j w hj
  · rw [if_neg c] at hj
    dsimp only at hj
    rw [List.getElem?_map] at hj
    rcases hx : s.slots[j]? with _ | x
    · rw [hx] at hj; cases hj
    · rw [hx] at hj; injection hj with hj; subst hj; dsimp only; omega

theorem Opened.slots {os : Os} {k : Nat} {e : Entry} {s s' : St} {r : Int} (h : Opened os k e s s' r) (S : Slots s)
    (he : s.table[k]? = some e) (ho : e.isOpen = false) (hn : e.attr.ftn = false) (F : Fresh os s) (hp : 0 < os.filepos)
    (hw : s'.waInit = true) : Slots s' := by
  have hno : ¬ WaOpen e := by rintro ⟨h, -⟩; rw [ho] at h; cases h
  have S1 := S.start
  have he1 : (waStart s).table[k]? = some e := by rw [waStart_table]; exact he
  have hw1 := (waStart_flags s).2.2.2
  have F1 := fresh_start F
  cases h with
  | not ro ht hs =>
    refine S1.quiet he1 hno (a := { e with fd := -1, attr := { e.attr with readOnly := ro } }) ?_ (by rw [ht, waStart_table]) hs (by rw [hw, hw1])
    rintro ⟨h, -⟩; rw [ho] at h; cases h
  | lost d i n hn hp' hd hi ht hs => omega
  | sub d i n hn' hp' hd hi ht hs =>
    exact S1.open hw1 he1 hno hi (F1 _ d (.inl hd) hw1)
      (a := { e with fd := d, isOpen := true, attr := { e.attr with readOnly := true } }) ⟨rfl, hn⟩ rfl
      (w' := ⟨d, os.filepos⟩) rfl (by rw [ht, waStart_table]) hs hw
  | plain d i f ro hn' hf hp' hi ht hs =>
    obtain ⟨hlt, -, -⟩ := List.findIdx?_eq_some_iff_getElem.mp hi
    rw [modify_set _ (List.getElem?_eq_getElem hlt)] at hs
    refine S1.open hw1 he1 hno hi (F1 f d ?_ hw1)
      (a := { e with fd := d, isOpen := true, attr := { e.attr with readOnly := ro } }) ⟨rfl, hn⟩ rfl
      (w' := { (waStart s).slots[i] with fd := d }) rfl (by rw [ht, waStart_table]) hs hw
    rcases hp' with ⟨-, -, h, -⟩ | ⟨-, ⟨-, -, h⟩ | ⟨-, h⟩⟩
    · exact .inl h
    · exact .inr (.inl h)
    · exact .inr (.inr h)

theorem clean_closed {e : Entry} (h : Clean e) : ¬ WaOpen e := by
  obtain ⟨fd, p, rfl⟩ := h
  rintro ⟨h, -⟩; cases h

theorem not_open {e : Entry} (h : e.isOpen = false) : ¬ WaOpen e := by
  rintro ⟨h', -⟩; rw [h] at h'; cases h'

theorem WaOpened.slots {os : Os} {u : Int} {s s' : St} {r : Int} (h : WaOpened os u s s' r) (I : Inv s.table) (S : Slots s)
    (F : Fresh os s) (hp : 0 < os.filepos) (hn : ∀ (i : Nat) (e : Entry), s.table[i]? = some e → e.iun = u → e.attr.ftn = false) : Slots s' := by
  cases h with
  | refused h => rw [h]; exact S
  | again k e hk he ho hr h =>
    rw [h]
    exact S.touch he (a := { e with attr := { e.attr with wa := true } }) Iff.rfl rfl rfl rfl rfl
  | opened k e e1 s1 s2 _ he hk h1 ho hw hf h =>
    have hprops : ¬ WaOpen e ∧ e1.isOpen = false ∧ e1.attr.ftn = false := by
      rcases hk with ⟨hk, rfl, h2, -⟩ | ⟨-, h0, rfl⟩
      · obtain ⟨b, hb, hb'⟩ := find_some hk
        rw [he] at hb; injection hb with hb; subst hb
        exact ⟨not_open h2, h2, hn k e1 he hb'⟩
      · obtain ⟨b, hb, hb'⟩ := find_some h0
        rw [he] at hb; injection hb with hb; subst hb
        have hc := I.clean k e he hb'
        refine ⟨clean_closed hc, ?_⟩
        obtain ⟨fd, p, rfl⟩ := hc
        exact ⟨rfl, rfl⟩
    obtain ⟨g1, g2, g3⟩ := hprops
    have S1 : Slots s1 := S.quiet he g1 (a := e1) (not_open g2) (by rw [h1]) (by rw [h1]) (by rw [h1])
    have he1 : s1.table[k]? = some e1 := by rw [h1]; exact set_get he
    have S2 : Slots s2 := ho.slots S1 he1 g2 g3 (by subst h1; exact F) hp hw
    rw [h]
    unfold waFinish
    split
    · obtain ⟨fd, ro, -, ht⟩ := ho.table
      have hr : 0 ≤ r := by assumption
      have he2 : s2.table[k]? = some { e1 with fd := fd, isOpen := e1.isOpen || decide (0 ≤ r), attr := { e1.attr with readOnly := ro } } := by
        rw [ht]; exact set_get he1
      refine S2.touch he2 (a := { e1 with fd := fd, isOpen := true, attr := { e1.attr with readOnly := ro, wa := true, rnd := true } }) ?_ rfl ?_ rfl rfl
      · unfold WaOpen
        simp [hr]
      · rw [modify_set _ he2]
    · exact S2

theorem fclos_slots (os : Os) (u : Int) (s : St) (S : Slots s)
    (hn : ∀ (i : Nat) (e : Entry), s.table[i]? = some e → e.iun = u → ¬ WaOpen e) : Slots (fclos os u s).1 := by
  rcases hk : find s.table u with _ | k
  · have : (fclos os u s).1 = s := by
      unfold fclos
      rw [hk]
      split
      · rfl
      · split <;> rfl
    rw [this]; exact S
  · obtain ⟨e, he, hu⟩ := find_some hk
    rw [fclos_spec os u s k e hk he]
    split
    · exact S
    · exact S.quiet he (hn k e he hu) (clean_closed (clean_reset e)) rfl rfl rfl

theorem waclos_slots {u : Int} {s s' : St} {r : Int} (h : waclos u s = .ok (s', r)) (S : Slots s)
    (hn : ∀ (i : Nat) (e : Entry), s.table[i]? = some e → e.iun = u → e.attr.ftn = false) : Slots s' := by
  rcases waclos_spec h with ⟨rfl, -⟩ | ⟨k, i, e, hk, he, ho, hi, rfl⟩
  · exact S
  · obtain ⟨b, hb, hb'⟩ := find_some hk
    rw [he] at hb; injection hb with hb; subst hb
    obtain ⟨hlt, -, -⟩ := List.findIdx?_eq_some_iff_getElem.mp hi
    refine S.close he ⟨ho, hn k e he hb'⟩ hi
      (a := { e with fd := -1, isOpen := false, attr := { e.attr with wa := false } }) (not_open rfl) (w' := { s.slots[i] with fd := -1 }) rfl rfl ?_ rfl
    rw [modify_set _ (List.getElem?_eq_getElem hlt)]

theorem Connected.slots {os : Os} {u : Int} {nom type : Str} {lrec : Int} {s s' : St} {r : Int}
    (h : Connected os u nom type lrec s s' r) (I : Inv s.table) (S : Slots s) (F : Fresh os s) (hp : 0 < os.filepos) : Slots s' := by
  have cl : ∀ (k : Nat) (e : Entry), find s.table 0 = some k → s.table[k]? = some e → ¬ WaOpen e := by
    intro k e h0 he
    obtain ⟨b, hb, hb'⟩ := find_some h0
    rw [he] at hb; injection hb with hb; subst hb
    exact clean_closed (I.clean k e he hb')
  cases h with
  | used k hk h => rw [h]; exact S
  | stuck k e e1 hk h0 he hr h =>
    obtain ⟨-, r2, -⟩ := register_spec hr
    rw [h]
    exact S.quiet he (cl k e h0 he) (not_open r2) rfl rfl rfl
  | new k e e1 _ hk h0 he hr h =>
    obtain ⟨-, r2, -⟩ := register_spec hr
    have hcl := cl k e h0 he
    have S1 : Slots { s with table := s.table.set k e1 } := S.quiet he hcl (not_open r2) rfl rfl rfl
    cases h with
    | ftn hf ho hx h =>
      rw [h]
      refine S.quiet he hcl (a := { e1 with isOpen := true }) ?_ rfl rfl rfl
      rintro ⟨-, h'⟩; rw [show ({ e1 with isOpen := true } : Entry).attr = e1.attr from rfl, hf] at h'; cases h'
    | wa d ro s1 hf hr' hx ho h1 hw hs h =>
      have S2 := ho.slots S1 (set_get he) r2 hf F hp hw
      rw [h]
      refine S2.touch (k := k) (e := { e1 with fd := d, isOpen := true, attr := { e1.attr with readOnly := ro } })
        (a := { e1 with fd := d, isOpen := true, attr := { e1.attr with readOnly := ro, wa := false } })
        (by rw [h1]; exact set_get he) Iff.rfl rfl ?_ rfl rfl
      rw [h1, List.set_set]
    | failed s1 e2 h1 hi ho hs h =>
      rw [h]
      rcases h1 with h1 | ⟨hf, h1, hw⟩
      · refine S.quiet he hcl (a := if u = 5 ∧ s.stdinFlag = true then e2 else resetEntry e2) ?_ rfl (by rw [h1]) (by rw [h1])
        split
        · exact not_open ho
        · exact clean_closed (clean_reset e2)
      · have S2 := h1.slots S1 (set_get he) r2 hf F hp hw
        obtain ⟨fd, ro, -, ht⟩ := h1.table
        have he2 : s1.table[k]? = some { e1 with fd := fd, isOpen := e1.isOpen || decide (0 ≤ (-1 : Int)), attr := { e1.attr with readOnly := ro } } := by
          rw [ht]; exact set_get (set_get he)
        refine S2.quiet he2 (not_open ?_) (a := if u = 5 ∧ s.stdinFlag = true then e2 else resetEntry e2) ?_ ?_ rfl rfl
        · simp [r2]
        · split
          · exact not_open ho
          · exact clean_closed (clean_reset e2)
        · rw [ht]
          simp

theorem step_slots {s s' : St} {op : Op} (I : Inv s.table) (S : Slots s) (L : Legal s op) (h : step s op = .ok s') : Slots s' := by
  cases op with
  | fnom os u nom type lrec =>
    simp only [step] at h
    rcases hf : fnom os u nom type lrec s with _ | ⟨s2, v, r⟩
    · rw [hf] at h; cases h
    rw [hf] at h
    injection h with h
    dsimp only at h
    subst h
    obtain ⟨F, hp, hst⟩ := L
    have hS : Slots (Fnom.start s) ∧ Fresh os (Fnom.start s) := by
      unfold Fnom.start
      split
      · exact ⟨S, F⟩
      · refine ⟨?_, F⟩
        have none : ∀ (i : Nat) (e : Entry), s.table[i]? = some e → ¬ WaOpen e := by
          rcases hst with h | h
          · contradiction
          · exact h
        have closed : ∀ (i : Nat) (x : Entry), (s.table.map resetEntry)[i]? = some x → ¬ WaOpen x := by
          intro i x hx
          rw [List.getElem?_map] at hx
          rcases hy : s.table[i]? with _ | y
          · rw [hy] at hx; cases hx
          · rw [hy] at hx; injection hx with hx; subst hx; exact clean_closed (clean_reset y)
        refine ⟨fun i x hx hox => absurd hox (closed i x hx), S.once, fun i j x y hx _ hox _ _ => absurd hox (closed i x hx), fun j w h0 h1 h2 => ?_⟩
        obtain ⟨i, e, he, ho, -⟩ := S.used j w h0 h1 h2
        exact absurd ho (none i e he)
    obtain ⟨-, -, ⟨-, -, -, -, hc⟩ | ⟨-, ht, hs, hw, -⟩⟩ := fnom_spec hf
    · exact hc.slots (start_inv I).1 hS.1 hS.2 hp
    · obtain ⟨⟨a, b, c, d⟩, -⟩ := hS
      exact ⟨by rw [ht, hs, hw]; exact a, by rw [hs, hw]; exact b, by rw [ht]; exact c, by rw [ht, hs, hw]; exact d⟩
  | fclos os u =>
    simp only [step] at h
    injection h with h
    subst h
    exact fclos_slots os u s S L
  | waopen os u =>
    simp only [step] at h
    rcases hf : waopen os u s with _ | ⟨s2, r⟩
    · rw [hf] at h; cases h
    rw [hf] at h
    injection h with h
    dsimp only at h
    subst h
    exact (waopen_spec hf).slots I S L.1 L.2.1 L.2.2
  | waclos u =>
    simp only [step] at h
    rcases hf : waclos u s with _ | ⟨s2, r⟩
    · rw [hf] at h; cases h
    rw [hf] at h
    injection h with h
    dsimp only at h
    subst h
    exact waclos_slots hf S L

theorem initial_slots : Slots initial := by
  have closed : ∀ (i : Nat) (x : Entry), initial.table[i]? = some x → ¬ WaOpen x := by
    intro i x hx
    have : x ∈ List.replicate maxFiles ({} : Entry) := List.mem_of_getElem? hx
    rw [List.eq_of_mem_replicate this]
    exact not_open rfl
  exact ⟨fun i x hx hox => absurd hox (closed i x hx), fun i j v w h => (nomatch h), fun i j x y hx _ hox => absurd hox (closed i x hx),
    fun j w h => (nomatch h)⟩

/-- A program all of whose calls are as expected. -/
def LegalRun : St → List Op → Prop
  | _, [] => True
  | s, op :: ops => Legal s op ∧ ∀ s', step s op = .ok s' → LegalRun s' ops

theorem run_slots : ∀ (ops : List Op) {s s' : St}, Inv s.table → Slots s → LegalRun s ops → run s ops = .ok s' → Slots s'
  | [], s, s', _, S, _, h => by
    injection h with h; subst h; exact S
  | op :: ops, s, s', I, S, L, h => by
    unfold run at h
    rcases hs : step s op with _ | s1
    · rw [hs] at h; cases h
    rw [hs] at h
    exact run_slots ops (step_inv I hs).1 (step_slots I S L.1 hs) (L.2 s1 hs) h

end Verif.Fnom
