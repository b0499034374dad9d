import Verif.Props.Fnom

/-! # Property C89: attributes, name and mode of a new unit -/

namespace Verif.Fnom

/-- Words that ask for a word addressable file. -/
def Random (type : Str) : Prop := Has type .stream ∨ Has type .std ∨ Has type .burp ∨ Has type .rnd ∨ Has type .wa

/-- The name sent to another machine. -/
def Remote (nom type : Str) : Prop := Has type .remote ∧ ':' ∈ nom

/-- What the entry of a unit is after a successful call, from `register`. -/
theorem entry_of {os : Os} {u : Int} {nom type : Str} {lrec : Int} {s s' : St} {v : Int} (hR : Reached s) (hs : s.started = true)
    (h : fnom os u nom type lrec s = .ok (s', v, 0)) (hv : ¬ Standard v nom) :
    ∃ (k : Nat) (e e1 a : Entry), e.attr.writeMode = false ∧
      register os v nom type lrec e = .ok (e1, true) ∧
      ((e1.attr.old || e1.attr.readOnly) = true → os.access (rstrip (e1.name.getD [])) = true) ∧
      s'.table[k]? = some a ∧ a.iun = v ∧ a.name = e1.name ∧ a.sub = e1.sub ∧
      ((e1.attr.ftn = true ∧ a.attr = e1.attr) ∨
       (e1.attr.ftn = false ∧ ∃ (d : Nat) (ro : Bool), a.fd = d ∧ a.attr = { e1.attr with readOnly := ro, wa := false } ∧ Mode os e1 d ro)) := by
  obtain ⟨I, -⟩ := hR.inv
  obtain ⟨-, -, h⟩ := fnom_spec h
  rw [show start s = s by unfold start; rw [if_pos hs]] at h
  rcases h with ⟨-, -, -, -, hc⟩ | ⟨hc, -, -, -, -, hm⟩
  · obtain ⟨k, e, e1, a, hk, h0, he, hr, hx, ht, h1, -, -, -, h2, h3, h4⟩ := connected_entry hc
    obtain ⟨b, hb, hb'⟩ := find_some h0
    rw [he] at hb; injection hb with hb; subst hb
    obtain ⟨fd, p, hcl⟩ := I.clean k e he hb'
    exact ⟨k, e, e1, a, by rw [hcl], hr, hx, by rw [ht]; exact set_get he, h1, h2, h3, h4⟩
  · exfalso
    rcases hc with hc | hc | hc | hc
    · have := (hm hc).1; omega
    · exact hv (.inl hc)
    · exact hv (.inr (.inr hc))
    · exact hv (.inr (.inl hc))

/-- The attributes given by `register`. -/
theorem register_attr {os : Os} {u : Int} {nom type : Str} {lrec : Int} {e e1 : Entry}
    (hr : register os u nom type lrec e = .ok (e1, true)) :
    ∃ p ro old, e1.attr = { parse e.attr type with remote := false, pipe := p, readOnly := ro, old := old } ∧
      (e1.sub = none → old = (parse e.attr type).old) ∧ (e1.sub ≠ none → old = true ∧ ro = true) ∧
      (e1.sub = none → ¬ Remote nom type → ro = (parse e.attr type).readOnly) ∧ (ro = true → e1.sub = none → (parse e.attr type).readOnly = true) ∧
      (e1.sub = none → ro = false → (parse e.attr type).readOnly = true → Remote nom type) := by
  obtain ⟨-, -, -, -, ⟨h, -⟩ | ⟨name, a, hl, hc⟩⟩ := register_spec hr
  · cases h
  obtain ⟨l1, l2, -, -⟩ := locate_true hl
  have hsub : e1.sub = none ↔ '@' ∉ name := by
    rw [l2]
    unfold archive
    by_cases c : '@' ∈ name <;> simp [c]
  have hrem : (parse e.attr type).remote = true → ':' ∈ nom → Remote nom type := by
    intro h1 h2
    rw [(parse_spec e.attr type).2.2.2.2.2.2.1, asks_iff] at h1
    exact ⟨h1, h2⟩
  have ha : ∃ p ro, a = { parse e.attr type with remote := false, pipe := p, readOnly := ro } ∧
      (ro = (parse e.attr type).readOnly ∨ (ro = false ∧ Remote nom type)) := by
    rcases hc with ⟨-, -, h1, h2, -⟩ | ⟨-, -, ⟨h1, h2⟩ | ⟨h1, h2, h3, h4⟩⟩
    · refine ⟨(parse e.attr type).pipe, _, ?_, .inl rfl⟩
      rw [h2, ← h1]
    · exact ⟨_, _, h2, .inl rfl⟩
    · exact ⟨_, _, h4, .inr ⟨rfl, hrem h1 h2⟩⟩
  obtain ⟨p, ro, ha, hro⟩ := ha
  rw [archive_attr] at l1
  by_cases c : '@' ∈ name
  · rw [if_pos c] at l1
    have hn : e1.sub ≠ none := fun h => hsub.1 h c
    refine ⟨p, true, true, ?_, fun h => absurd h hn, fun _ => ⟨rfl, rfl⟩, fun h => absurd h hn, fun _ h => absurd h hn, fun h => absurd h hn⟩
    rw [l1]
    dsimp only
    rw [ha]
  · rw [if_neg c] at l1
    have hn : e1.sub = none := hsub.2 c
    refine ⟨p, ro, (parse e.attr type).old, ?_, fun _ => rfl, fun h => absurd hn h, fun _ h => ?_, fun h _ => ?_, fun _ h g => ?_⟩
    · rw [l1]
      dsimp only
      rw [ha]
    · rcases hro with h' | ⟨-, h'⟩
      · exact h'
      · exact absurd h' h
    · rcases hro with h' | ⟨h', -⟩
      · rw [← h']; exact h
      · rw [h'] at h; cases h
    · rcases hro with h' | ⟨-, h'⟩
      · rw [h', g] at h; cases h
      · exact h'

/-- C89.  The attributes follow the words of the type; every file is opened by Fortran or as a word addressable file. -/
theorem C89_kind (os : Os) (u : Int) (nom type : Str) (lrec : Int) (s s' : St) (v : Int) (hR : Reached s) (hs : s.started = true)
    (h : fnom os u nom type lrec s = .ok (s', v, 0)) (hv : ¬ Standard v nom) :
    ∃ (i : Nat) (a : Entry), s'.table[i]? = some a ∧ a.iun = v ∧
      (a.attr.ftn = true ↔ Has type .ftn ∨ Has type .unf ∨ Has type .d77 ∨ ¬ Random type) ∧
      (a.attr.rnd = true ↔ Has type .d77 ∨ (Random type ∧ ¬ Has type .ftn ∧ ¬ Has type .unf)) ∧
      (a.attr.stream = true ↔ Has type .stream) ∧ (a.attr.std = true ↔ Has type .std) ∧ (a.attr.burp = true ↔ Has type .burp) ∧
      (a.attr.unf = true ↔ Has type .unf) ∧ (a.attr.scratch = true ↔ Has type .scratch) ∧ a.attr.wa = false ∧
      (a.attr.writeMode = true ↔ Has type .rw) ∧ (a.attr.ftn = false → a.attr.rnd = true ∧ ∃ d : Nat, a.fd = d) := by
  obtain ⟨k, e, e1, a, hw, hr, hx, hk, hu, -, -, h4⟩ := entry_of hR hs h hv
  obtain ⟨p, ro, old, ha, -⟩ := register_attr hr
  obtain ⟨p1, p2, p3, p4, p5, p6, p7, p8, p9, p10, p11, p12⟩ := parse_spec e.attr type
  have hA : ∃ ro', a.attr = { e1.attr with readOnly := ro', wa := false } ∧ (a.attr.ftn = false → ∃ d : Nat, a.fd = d) := by
    rcases h4 with ⟨h1, h2⟩ | ⟨h1, d, ro', h2, h3, -⟩
    · refine ⟨ro, ?_, fun hf => ?_⟩
      · rw [h2, ha]
        simp only [p4]
      · rw [h2, h1] at hf; cases hf
    · exact ⟨ro', h3, fun _ => ⟨d, h2⟩⟩
  obtain ⟨ro', hA, hd⟩ := hA
  rw [ha] at hA
  unfold Random
  simp only [← asks_iff]
  refine ⟨k, a, hk, hu, ?_⟩
  refine ⟨?_, ?_, ?_, ?_, ?_, ?_, ?_, ?_, ?_, fun hf => ⟨?_, hd hf⟩⟩
  · rw [hA]
    dsimp only
    rw [p12]
    simp [or_assoc, and_assoc]
  · rw [hA]
    dsimp only
    rw [p11]
    simp [or_assoc, and_assoc]
  · rw [hA]; dsimp only; rw [p1]
  · rw [hA]; dsimp only; rw [p2]
  · rw [hA]; dsimp only; rw [p3]
  · rw [hA]; dsimp only; rw [p5]
  · rw [hA]; dsimp only; rw [p6]
  · rw [hA]
  · rw [hA]; dsimp only; rw [p10, hw]; simp
  · rw [hA] at hf ⊢
    dsimp only at hf ⊢
    rw [p12] at hf
    rw [p11]
    revert hf
    generalize asks type .stream = b1
    generalize asks type .std = b2
    generalize asks type .burp = b3
    generalize asks type .rnd = b4
    generalize asks type .wa = b5
    generalize asks type .ftn = b6
    generalize asks type .unf = b7
    generalize asks type .d77 = b8
    revert b1 b2 b3 b4 b5 b6 b7 b8
    decide

/-- A name that ends with a blank. -/
def Blank (f : Str) : Prop := rstrip f ≠ f

/-- C89.  The descriptor of a word addressable file and the attribute `read_only` go together: a file open for reading has the
attribute, and a file without it is open for reading and writing.  A file asked with R/W is never read only.  A file asked with
OLD, or R/O, or in an archive, exists. -/
theorem C89_mode (os : Os) (u : Int) (nom type : Str) (lrec : Int) (s s' : St) (v : Int) (hR : Reached s) (hs : s.started = true)
    (h : fnom os u nom type lrec s = .ok (s', v, 0)) (hv : ¬ Standard v nom) :
    ∃ (i : Nat) (a : Entry), s'.table[i]? = some a ∧ a.iun = v ∧
      (Has type .old ∨ Has type .ro ∨ a.sub ≠ none → os.access (rstrip (a.name.getD [])) = true) ∧
      (a.attr.ftn = false →
        (a.attr.readOnly = true → ∃ d : Nat, os.rdonly (a.name.getD []) = some d ∧ a.fd = d) ∧
        (a.attr.readOnly = false → ∃ d : Nat, a.fd = d ∧ a.sub = none ∧
          ((os.access (a.name.getD []) = true ∧ os.rdwr (a.name.getD []) = some d) ∨
           (os.access (a.name.getD []) = false ∧ os.creat (a.name.getD []) = some d))) ∧
        (Has type .rw → a.sub = none → a.attr.readOnly = false) ∧ (a.sub ≠ none → a.attr.readOnly = true) ∧
        (a.attr.readOnly = true → a.sub = none → Has type .ro ∨ os.rdwr (a.name.getD []) = none)) := by
  obtain ⟨k, e, e1, a, hw, hr, hx, hk, hu, hn, hsub, h4⟩ := entry_of hR hs h hv
  obtain ⟨p, ro, old, ha, r1, r2, r3, r4, r5⟩ := register_attr hr
  obtain ⟨p1, p2, p3, p4, p5, p6, p7, p8, p9, p10, p11, p12⟩ := parse_spec e.attr type
  refine ⟨k, a, hk, hu, fun ho => ?_, fun hf => ?_⟩
  · rw [hn]
    refine hx ?_
    rw [ha]
    dsimp only
    rw [hsub] at ho
    by_cases c : e1.sub = none
    · rw [r1 c, p8, Bool.or_eq_true, Bool.or_eq_true, asks_iff, asks_iff]
      rcases ho with ho | ho | ho
      · exact .inl (.inl ho)
      · exact .inl (.inr ho)
      · exact absurd c ho
    · rw [(r2 c).1]; rfl
  · rcases h4 with ⟨h1, h2⟩ | ⟨h1, d, ro', h2, h3, hm⟩
    · rw [h2, h1] at hf; cases hf
    have hro : a.attr.readOnly = ro' := by rw [h3]
    rw [hro, hn, hsub, h2]
    unfold Mode at hm
    rcases hs' : e1.sub with _ | n
    · rw [hs'] at hm
      obtain ⟨f, hf', hp⟩ := hm
      rw [hf']
      simp only [Option.getD_some]
      unfold Plain at hp
      have hwm : e1.attr.writeMode = asks type .rw := by rw [ha]; dsimp only; rw [p10, hw]; simp
      have hrd : e1.attr.readOnly = true → asks type .ro = true ∧ asks type .rw = false := by
        intro hh
        rw [ha] at hh
        dsimp only at hh
        have := r4 hh hs'
        rw [p9] at this
        simpa using this
      refine ⟨fun c => ?_, fun c => ?_, fun c _ => ?_, fun c => absurd rfl c, fun c _ => ?_⟩
      · rcases hp with ⟨-, -, h5, -⟩ | ⟨h5, -⟩
        · exact ⟨d, h5, rfl⟩
        · rw [h5] at c; cases c
      · rcases hp with ⟨h5, -⟩ | ⟨-, ⟨h5, -, h6⟩ | h5⟩
        · rw [h5] at c; cases c
        · exact ⟨d, rfl, trivial, .inl ⟨h5, h6⟩⟩
        · exact ⟨d, rfl, trivial, .inr h5⟩
      · rw [← asks_iff] at c
        rcases hp with ⟨-, -, -, h5 | ⟨h5, -⟩⟩ | ⟨h5, -⟩
        · rw [(hrd h5).2] at c; cases c
        · rw [hwm, c] at h5; cases h5
        · exact h5
      · rcases hp with ⟨-, -, -, h5 | ⟨-, h5⟩⟩ | ⟨h5, -⟩
        · exact .inl ((asks_iff _ _).1 (hrd h5).1)
        · exact .inr h5
        · rw [h5] at c; cases c
    · rw [hs'] at hm
      obtain ⟨h5, h6⟩ := hm
      subst h5
      exact ⟨fun _ => ⟨d, h6, rfl⟩, nofun, fun _ => nofun, fun _ => rfl, fun _ => nofun⟩

/-- C89, what holds of it: a file asked with R/O and without R/W is open for reading only, and a file asked with OLD is not created,
if its name does not end with a blank (see the witness) and it is not asked with REMOTE. -/
theorem C89_readonly_partial (os : Os) (u : Int) (nom type : Str) (lrec : Int) (s s' : St) (v : Int) (hR : Reached s) (hs : s.started = true)
    (h : fnom os u nom type lrec s = .ok (s', v, 0)) (hv : ¬ Standard v nom) :
    ∃ (i : Nat) (a : Entry), s'.table[i]? = some a ∧ a.iun = v ∧
      (a.attr.ftn = false → ¬ Blank (a.name.getD []) →
        (Has type .old ∨ Has type .ro → os.access (a.name.getD []) = true) ∧
        (Has type .ro → ¬ Has type .rw → ¬ Remote nom type →
          a.attr.readOnly = true ∧ ∃ d : Nat, os.rdonly (a.name.getD []) = some d ∧ a.fd = d)) := by
  obtain ⟨k, e, e1, a, hw, hr, hx, hk, hu, hn, hsub, h4⟩ := entry_of hR hs h hv
  obtain ⟨p, ro, old, ha, r1, r2, r3, r4, r5⟩ := register_attr hr
  obtain ⟨p1, p2, p3, p4, p5, p6, p7, p8, p9, p10, p11, p12⟩ := parse_spec e.attr type
  refine ⟨k, a, hk, hu, fun hf hb => ?_⟩
  rcases h4 with ⟨h1, h2⟩ | ⟨h1, d, ro', h2, h3, hm⟩
  · rw [h2, h1] at hf; cases hf
  rw [hn] at hb ⊢
  have hacc : Has type .old ∨ Has type .ro → os.access (e1.name.getD []) = true := by
    intro ho
    have := hx (by
      rw [ha]
      dsimp only
      by_cases c : e1.sub = none
      · rw [r1 c, p8, Bool.or_eq_true, Bool.or_eq_true, asks_iff, asks_iff]
        exact .inl ho
      · rw [(r2 c).1]; rfl)
    rwa [Classical.not_not.1 hb] at this
  refine ⟨hacc, fun c1 c2 c3 => ?_⟩
  have hro : a.attr.readOnly = ro' := by rw [h3]
  rw [hro, h2]
  unfold Mode at hm
  rcases hs' : e1.sub with _ | n
  · rw [hs'] at hm
    obtain ⟨f, hf', hp⟩ := hm
    have ha' := hacc (.inr c1)
    rw [hf'] at ha' ⊢
    simp only [Option.getD_some] at ha' ⊢
    have hrd : e1.attr.readOnly = true := by
      rw [ha]
      dsimp only
      rw [r3 hs' c3, p9, (asks_iff _ _).2 c1]
      simp only [Bool.true_and, Bool.not_eq_true', Bool.eq_false_iff, Ne, asks_iff]
      exact c2
    rcases hp with ⟨h5, -, h6, -⟩ | ⟨-, ⟨-, h5, -⟩ | ⟨h5, -⟩⟩
    · exact ⟨h5, d, h6, rfl⟩
    · rw [hrd] at h5; cases h5
    · rw [ha'] at h5; cases h5
  · rw [hs'] at hm
    exact ⟨hm.1, d, hm.2, rfl⟩

/-- C89.  The name of the file: the name given, less a first `+` or `%`; a scratch file is in the directory of temporary files,
with the number of the process; `file@sub` is the part `sub` of the archive `file`. -/
theorem C89_name (os : Os) (u : Int) (nom type : Str) (lrec : Int) (s s' : St) (v : Int) (hR : Reached s) (hs : s.started = true)
    (h : fnom os u nom type lrec s = .ok (s', v, 0)) (hv : ¬ Standard v nom) :
    ∃ (i : Nat) (a : Entry), s'.table[i]? = some a ∧ a.iun = v ∧
      (∀ c t, ¬ Has type .scratch → nom = c :: t → c = '+' ∨ c = '%' → '@' ∉ t → a.name = some t ∧ a.sub = none) ∧
      (∀ c t, ¬ Has type .scratch → nom = c :: t → c ≠ '+' → c ≠ '%' → '@' ∉ nom → a.name = some nom ∧ a.sub = none) ∧
      (Has type .scratch → '@' ∉ os.tmpdir ++ os.pid ++ nom → a.name = some (os.tmpdir ++ ['/'] ++ os.pid ++ ['_'] ++ nom) ∧ a.sub = none) ∧
      (∀ c f g, ¬ Has type .scratch → nom = c :: f ++ '@' :: g → c ≠ '+' → c ≠ '%' → c ≠ '@' → '@' ∉ f → a.name = some (c :: f) ∧ a.sub = some g) ∧
      (∀ f, ¬ Has type .scratch → nom = '@' :: f → '@' ∉ f → a.sub = none ∧ ∃ g, a.name = some g ∧
        [f, os.cmcconst ++ ['/'] ++ f, os.armnlib ++ ['/', 'd', 'a', 't', 'a', '/'] ++ f].find? os.access = some g) := by
  obtain ⟨k, e, e1, a, hw, hr, hx, hk, hu, hn, hsub, -⟩ := entry_of hR hs h hv
  obtain ⟨-, -, -, -, ⟨h, -⟩ | ⟨name, at', hl, hc⟩⟩ := register_spec hr
  · cases h
  refine ⟨k, a, hk, hu, ?_⟩
  rw [hn, hsub]
  have hscr : ((parse e.attr type).scratch = true ↔ Has type .scratch) := by
    rw [(parse_spec e.attr type).2.2.2.2.2.1, asks_iff]
  obtain ⟨l1, l2, l3, l4⟩ := locate_true hl
  have plain : ∀ x, name = x → '@' ∉ x → nom.head? ≠ some '@' → e1.name = some x ∧ e1.sub = none := by
    rintro x rfl hx hh
    rw [l3 hh]
    unfold archive
    simp [hx]
  refine ⟨fun c t h1 h2 h3 h4 => ?_, fun c t h1 h2 h3 h4 h5 => ?_, fun h1 h2 => ?_, fun c f g h1 h2 h3 h4 h5 h6 => ?_, fun f h1 h2 h3 => ?_⟩
  · rcases hc with ⟨hs1, -⟩ | ⟨-, hs2, -⟩
    · exact absurd (hscr.1 hs1) h1
    · refine plain t ?_ h4 ?_
      · rw [hs2, h2]
        rcases h3 with h | h <;> simp [strip, h]
      · rw [h2]
        rcases h3 with h | h <;> simp [h]
  · rcases hc with ⟨hs1, -⟩ | ⟨-, hs2, -⟩
    · exact absurd (hscr.1 hs1) h1
    · have hca : c ≠ '@' := by
        intro hc; rw [h2, hc] at h5; simp at h5
      refine plain nom ?_ h5 ?_
      · rw [hs2, h2]
        simp [strip, h3, h4, hca]
      · rw [h2]
        simp [hca]
  · rcases hc with ⟨-, -, -, -, hs2⟩ | ⟨hs1, -⟩
    · refine plain _ ?_ ?_ ?_
      · rw [hs2]; simp
      · simp only [List.mem_append, not_or] at h2 ⊢
        simp [h2]
      · intro hh
        simp only [List.mem_append, not_or] at h2
        exact h2.2 (List.mem_of_head? hh)
    · rw [hscr.2 h1] at hs1; cases hs1
  · rcases hc with ⟨hs1, -⟩ | ⟨-, hs2, -⟩
    · exact absurd (hscr.1 hs1) h1
    · have hname : name = c :: f ++ '@' :: g := by
        rw [hs2, h2]
        simp [strip, h3, h4, h5]
      rw [l3 (by rw [h2]; simp [h5])]
      unfold archive
      have hf : ∀ x ∈ c :: f, (decide (x ≠ '@')) = true := by
        intro x hx
        simp only [ne_eq, decide_eq_true_eq]
        rintro rfl
        rcases List.mem_cons.1 hx with hx | hx
        · exact h5 hx.symm
        · exact h6 hx
      have e1 : name.takeWhile (· ≠ '@') = c :: f := by
        rw [hname, List.takeWhile_append_of_pos hf]
        simp
      have e2 : (name.dropWhile (· ≠ '@')).drop 1 = g := by
        rw [hname, List.dropWhile_append_of_pos hf]
        simp
      rw [if_pos (by rw [hname]; simp), e1, e2]
      exact ⟨rfl, rfl⟩
  · rcases hc with ⟨hs1, -⟩ | ⟨-, hs2, -⟩
    · exact absurd (hscr.1 hs1) h1
    · have hname : name = f := by
        rw [hs2, h2]
        simp [strip]
      have ea : ∀ E, (archive E name).name = some f ∧ (archive E name).sub = none := by
        intro E
        rw [hname]
        unfold archive
        simp [h3]
      refine ⟨by rw [l2, (ea _).2], ?_⟩
      obtain ⟨g, g1, g2⟩ := l4 (by rw [h2]; rfl)
      rw [(ea _).1] at g2
      exact ⟨g, g1, by simpa using g2⟩

/-- A system with one file, `f`. -/
def osF : Os :=
  { access := fun g => g == ['f'], rdonly := fun g => if g == ['f'] then some 3 else none
    rdwr := fun g => if g == ['f'] then some 4 else none, creat := fun _ => some 5 }

/-- The file `f` is found with OLD and R/O and opened for reading. -/
example : ∃ s, fnom osF 21 ['f'] (Kw.std.upper ++ '+' :: Kw.ro.upper) 0 initial = .ok s ∧
    (s.2 == (21, 0) && (s.1.table[0]?.map fun a => a.fd == 3 && a.attr.readOnly && a.attr.std && a.attr.rnd && a.name == some ['f']) == some true) = true :=
  ok_of _ _ (by decide +kernel)

/-- C89 is false of a name that ends with a blank: the file with R/O is said to exist, since the blank is dropped to look for it,
then it is not found with the blank; it is created, open for writing. -/
theorem C89_blank_witness : ∃ s, fnom osF 21 ['f', ' '] (Kw.std.upper ++ '+' :: Kw.ro.upper) 0 initial = .ok s ∧
    (s.2 == (21, 0) && (s.1.table[0]?.map fun a => a.fd == 5 && !a.attr.readOnly) == some true) = true :=
  ok_of _ _ (by decide +kernel)

end Verif.Fnom
