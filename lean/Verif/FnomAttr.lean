import Verif.FnomInv

/-! The attributes and the name of a new unit. -/

namespace Verif.Fnom
theorem sets_rnd (c : Bool) (f : Attr → Attr) (a : Attr) : (sets c f a).rnd = if c then (f a).rnd else a.rnd := apply_ite ..
theorem sets_stream (c : Bool) (f : Attr → Attr) (a : Attr) : (sets c f a).stream = if c then (f a).stream else a.stream := apply_ite ..
theorem sets_std (c : Bool) (f : Attr → Attr) (a : Attr) : (sets c f a).std = if c then (f a).std else a.std := apply_ite ..
theorem sets_burp (c : Bool) (f : Attr → Attr) (a : Attr) : (sets c f a).burp = if c then (f a).burp else a.burp := apply_ite ..
theorem sets_wa (c : Bool) (f : Attr → Attr) (a : Attr) : (sets c f a).wa = if c then (f a).wa else a.wa := apply_ite ..
theorem sets_ftn (c : Bool) (f : Attr → Attr) (a : Attr) : (sets c f a).ftn = if c then (f a).ftn else a.ftn := apply_ite ..
theorem sets_unf (c : Bool) (f : Attr → Attr) (a : Attr) : (sets c f a).unf = if c then (f a).unf else a.unf := apply_ite ..
theorem sets_readOnly (c : Bool) (f : Attr → Attr) (a : Attr) : (sets c f a).readOnly = if c then (f a).readOnly else a.readOnly := apply_ite ..
theorem sets_old (c : Bool) (f : Attr → Attr) (a : Attr) : (sets c f a).old = if c then (f a).old else a.old := apply_ite ..
theorem sets_scratch (c : Bool) (f : Attr → Attr) (a : Attr) : (sets c f a).scratch = if c then (f a).scratch else a.scratch := apply_ite ..
theorem sets_writeMode (c : Bool) (f : Attr → Attr) (a : Attr) : (sets c f a).writeMode = if c then (f a).writeMode else a.writeMode := apply_ite ..
theorem sets_remote (c : Bool) (f : Attr → Attr) (a : Attr) : (sets c f a).remote = if c then (f a).remote else a.remote := apply_ite ..

theorem parse_spec (a0 : Attr) (t : Str) :
    (parse a0 t).stream = asks t .stream ∧ (parse a0 t).std = asks t .std ∧ (parse a0 t).burp = asks t .burp ∧
    (parse a0 t).wa = false ∧ (parse a0 t).unf = asks t .unf ∧ (parse a0 t).scratch = asks t .scratch ∧
    (parse a0 t).remote = asks t .remote ∧ (parse a0 t).old = (asks t .old || asks t .ro) ∧
    (parse a0 t).readOnly = (asks t .ro && !asks t .rw) ∧ (parse a0 t).writeMode = (a0.writeMode || asks t .rw) ∧
    (parse a0 t).rnd = (asks t .d77 || ((asks t .stream || asks t .std || asks t .burp || asks t .rnd || asks t .wa) &&
      !asks t .ftn && !asks t .unf)) ∧
    (parse a0 t).ftn = (asks t .ftn || asks t .unf || asks t .d77 ||
      !(asks t .stream || asks t .std || asks t .burp || asks t .rnd || asks t .wa)) := by
  unfold parse
  refine ⟨?_, ?_, ?_, by simp only [sets_wa, ite_self], ?_, ?_, ?_, ?_, ?_, ?_, ?_, ?_⟩
  all_goals
    simp only [sets_rnd, sets_stream, sets_std, sets_burp, sets_wa, sets_ftn, sets_unf, sets_readOnly, sets_old, sets_scratch, sets_writeMode, sets_remote, ite_self]
    generalize asks t .stream = b1
    generalize asks t .std = b2
    generalize asks t .burp = b3
    generalize asks t .rnd = b4
    generalize asks t .wa = b5
    generalize asks t .ftn = b6
    generalize asks t .unf = b7
    generalize asks t .d77 = b8
    generalize asks t .old = b9
    generalize asks t .ro = b10
    generalize asks t .rw = b11
    generalize asks t .scratch = b12
    generalize asks t .remote = b13
  · revert b1; decide
  · revert b2; decide
  · revert b3; decide
  · revert b7; decide
  · revert b12; decide
  · revert b13; decide
  · revert b9 b10; decide
  · revert b10 b11; decide
  · generalize a0.writeMode = b; revert b b11; decide
  · revert b1 b2 b3 b4 b5 b6 b7 b8; decide
  · revert b1 b2 b3 b4 b5 b6 b7 b8; decide

theorem archive_attr (E : Entry) (name : Str) : (archive E name).attr =
    if '@' ∈ name then { E.attr with old := true, readOnly := true } else E.attr := by
  unfold archive
  by_cases c : '@' ∈ name
  · simp [c]
  · simp [c]

theorem locate_true {os : Os} {nom : Str} {E e1 : Entry} (h : (e1, true) = locate os nom E) :
    e1.attr = E.attr ∧ e1.sub = E.sub ∧ (nom.head? ≠ some '@' → e1 = E) ∧
      (nom.head? = some '@' → ∃ g, e1.name = some g ∧
        [E.name.getD [], os.cmcconst ++ '/' :: E.name.getD [], os.armnlib ++ ['/', 'd', 'a', 't', 'a', '/'] ++ E.name.getD []].find? os.access =
          some g) := by
  unfold locate at h
  by_cases c : nom.head? = some '@'
  · rw [if_pos c] at h
    dsimp only at h
    generalize hg : List.find? os.access _ = g at h
    rcases g with _ | g
    · simp at h
    · simp only [Prod.mk.injEq, and_true] at h
      subst h
      exact ⟨rfl, rfl, fun h => absurd c h, fun _ => ⟨g, rfl, by rw [← hg]⟩⟩
  · rw [if_neg c] at h
    simp only [Prod.mk.injEq, and_true] at h
    subst h
    exact ⟨rfl, rfl, fun _ => rfl, fun h => absurd h c⟩

/-- How the descriptor of a word addressable file was obtained. -/
def Mode (os : Os) (e : Entry) (d : Nat) (ro : Bool) : Prop :=
  match e.sub with
  | some _ => ro = true ∧ os.rdonly (e.name.getD []) = some d
  | none => ∃ f, e.name = some f ∧ Plain os f e.attr d ro

theorem Opened.mode {os : Os} {k : Nat} {e : Entry} {s s' : St} {d : Nat} {ro : Bool} {e0 : Entry} (he : s.table[k]? = some e0)
    (h : Opened os k e s s' d)
    (ht : s'.table = s.table.set k { e with fd := d, isOpen := true, attr := { e.attr with readOnly := ro } }) : Mode os e d ro := by
  have key : ∀ (a b : Entry), s.table.set k a = s.table.set k b → a = b := by
    intro a b hab
    have h1 := set_get (b := a) he
    rw [hab, set_get he] at h1
    exact (Option.some.inj h1).symm
  generalize hr : (d : Int) = r at h
  unfold Mode
  cases h with
  | not ro' ht' hs => omega
  | lost d' i n hn hp hd hi ht' hs => omega
  | sub d' i n hn hp hd hi ht' hs =>
    have : d = d' := by omega
    subst this
    rw [ht'] at ht
    have := key _ _ ht
    simp only [Entry.mk.injEq, Attr.mk.injEq] at this
    simp only [hn, hd]
    exact ⟨by simpa using this.2.2.2.2.2.2.2.2.2.2.2.2.2.2.1.symm, trivial⟩
  | plain d' i f ro' hn hf hp hi ht' hs =>
    have : d = d' := by omega
    subst this
    rw [ht'] at ht
    have := key _ _ ht
    simp only [Entry.mk.injEq, Attr.mk.injEq] at this
    simp only [hn]
    have e : ro' = ro := by simpa using this
    subst e
    exact ⟨f, hf, hp⟩

/-- A unit given to a file: its entry. -/
theorem connected_entry {os : Os} {u : Int} {nom type : Str} {lrec : Int} {s s' : St}
    (h : Connected os u nom type lrec s s' 0) : ∃ (k : Nat) (e e1 a : Entry), find s.table u = none ∧ find s.table 0 = some k ∧
      s.table[k]? = some e ∧ register os u nom type lrec e = .ok (e1, true) ∧
      ((e1.attr.old || e1.attr.readOnly) = true → os.access (rstrip (e1.name.getD [])) = true) ∧
      s'.table = s.table.set k a ∧ a.iun = u ∧ a.isOpen = true ∧ a.ftype = some type ∧ a.lrec = lrec ∧ a.name = e1.name ∧ a.sub = e1.sub ∧
      ((e1.attr.ftn = true ∧ a.attr = e1.attr) ∨
       (e1.attr.ftn = false ∧ ∃ (d : Nat) (ro : Bool), a.fd = d ∧ a.attr = { e1.attr with readOnly := ro, wa := false } ∧ Mode os e1 d ro)) := by
  cases h with
  | new k e e1 _ hk h0 he hr h =>
    obtain ⟨r1, r2, r3, r4, -⟩ := register_spec hr
    cases h with
    | ftn hf ho hx h =>
      exact ⟨k, e, e1, { e1 with isOpen := true }, hk, h0, he, hr, hx, by rw [h], r1, rfl, r3, r4, rfl, rfl, .inl ⟨hf, rfl⟩⟩
    | wa d ro s1 hf hr' hx ho h1 hw hs h =>
      refine ⟨k, e, e1, { e1 with fd := d, isOpen := true, attr := { e1.attr with readOnly := ro, wa := false } },
        hk, h0, he, hr, hx, by rw [h], r1, rfl, r3, r4, rfl, rfl, .inr ⟨hf, d, ro, rfl, rfl, ?_⟩⟩
      exact ho.mode (set_get he) (by rw [h1, List.set_set])

end Verif.Fnom
