import Verif.FnomLemmas

/-! What one call does to the table of units. -/
namespace Verif.Fnom

/-- An entry that is not in use. -/
def Clean (e : Entry) : Prop := ∃ fd p, e = { fd := fd, attr := { pipe := p } }

theorem clean_reset (e : Entry) : Clean (resetEntry e) := ⟨_, _, rfl⟩

/-- Effect of one call for the unit `u`: nothing, or a change of the entry of the unit or of a free entry. -/
inductive Local (u : Int) (t t' : List Entry) : Prop
  | none (h : t' = t)
  | one (k : Nat) (e e' : Entry) (h : t[k]? = some e) (h' : t'[k]? = some e') (ht : Touch k t t')
      (hk : find t u = some k ∨ (find t u = .none ∧ find t 0 = some k)) (hi : (e'.iun = u ∧ u ≠ 0) ∨ Clean e')

/-- Free entries are clean and the units are distinct. -/
structure Inv (t : List Entry) : Prop where
  distinct : Distinct t
  clean : ∀ (i : Nat) (e : Entry), t[i]? = some e → e.iun = 0 → Clean e

theorem Local.inv {u : Int} {t t' : List Entry} (L : Local u t t') (I : Inv t) : Inv t' ∧ t'.length = t.length := by
  cases L with
  | none h => rw [h]; exact ⟨I, rfl⟩
  | one k e e' h h' ht hk hi =>
    refine ⟨⟨?_, ?_⟩, ht.1⟩
    · have old : ∀ (i : Nat) (a : Entry), i ≠ k → t[i]? = some a → a.iun = e'.iun → a.iun ≠ 0 → False := by
        intro i a hik ha hu h0
        rcases hi with ⟨hi, hu0⟩ | ⟨fd, p, hi⟩
        · rcases hk with hk | ⟨hk, -⟩
          · obtain ⟨b, hb, hb'⟩ := find_some hk
            exact hik (I.distinct i k a b ha hb (by omega) h0)
          · exact find_none.mp hk i a ha (by omega)
        · rw [hi] at hu; exact h0 hu
      intro i j a b ha hb hab h0
      by_cases ci : i = k
      · by_cases cj : j = k
        · omega
        · subst ci
          rw [h'] at ha
          injection ha with ha
          subst ha
          rw [ht.2 j cj] at hb
          exact absurd (old j b cj hb hab.symm (by omega)) id
      · by_cases cj : j = k
        · subst cj
          rw [h'] at hb
          injection hb with hb
          subst hb
          rw [ht.2 i ci] at ha
          exact absurd (old i a ci ha hab h0) id
        · rw [ht.2 i ci] at ha
          rw [ht.2 j cj] at hb
          exact I.distinct i j a b ha hb hab h0
    · intro i a ha h0
      by_cases ci : i = k
      · subst ci
        rw [h'] at ha
        injection ha with ha
        subst ha
        rcases hi with ⟨hi, hu0⟩ | hi
        · omega
        · exact hi
      · rw [ht.2 i ci] at ha
        exact I.clean i a ha h0

theorem Local.frame {u : Int} {t t' : List Entry} (L : Local u t t') {v : Int} (hv : v ≠ u) (h0 : v ≠ 0) (i : Nat) (a : Entry)
    (ha : a.iun = v) : t'[i]? = some a ↔ t[i]? = some a := by
  cases L with
  | none h => rw [h]
  | one k e e' h h' ht hk hi =>
    by_cases ci : i = k
    · subst ci
      rw [h, h']
      have he : e.iun ≠ v := by
        rcases hk with hk | ⟨-, hk⟩
        · obtain ⟨b, hb, hb'⟩ := find_some hk
          rw [h] at hb; injection hb with hb; subst hb; omega
        · obtain ⟨b, hb, hb'⟩ := find_some hk
          rw [h] at hb; injection hb with hb; subst hb; omega
      have he' : e'.iun ≠ v := by
        rcases hi with ⟨hi, -⟩ | ⟨fd, p, hi⟩
        · omega
        · rw [hi]; exact fun h => h0 h.symm
      constructor
      · intro h; injection h with h; subst h; exact absurd ha he'
      · intro h; injection h with h; subst h; exact absurd ha he
    · rw [ht.2 i ci]

theorem Opened.iun {os : Os} {k : Nat} {e : Entry} {s s' : St} {r : Int} (h : Opened os k e s s' r)
    (hk : k < s.table.length) : ∃ e', s'.table[k]? = some e' ∧ e'.iun = e.iun ∧ Touch k s.table s'.table ∧
      e'.sub = e.sub ∧ e'.attr.ftn = e.attr.ftn := by
  obtain ⟨fd, ro, -, ht⟩ := h.table
  rw [ht]
  exact ⟨_, List.getElem?_set_self hk, rfl, touch_set _ _ _, rfl, rfl⟩

theorem WaOpened.local {os : Os} {u : Int} {s s' : St} {r : Int} (h : WaOpened os u s s' r) (I : Inv s.table) :
    Local u s.table s'.table := by
  cases h with
  | refused h => exact .none (by rw [h])
  | again k e hk he ho hr h =>
    obtain ⟨b, hb, hb'⟩ := find_some hk
    rw [he] at hb; injection hb with hb; subst hb
    refine .one k e { e with attr := { e.attr with wa := true } } he ?_ ?_ (.inl hk) (.inl ⟨hb', ?_⟩)
    · rw [h]; exact set_get he
    · rw [h]; exact touch_set _ _ _
    · intro hu
      obtain ⟨fd, p, hc⟩ := I.clean k e he (by omega)
      rw [hc] at ho; cases ho
  | opened k e e1 s1 s2 _ he hk h1 ho hw hf h =>
    subst h1
    obtain ⟨e2, g1, g2, g3, -, -⟩ := ho.iun (by simpa using lt_of_get he)
    have hfin : Touch k s.table s'.table ∧ ∃ e3, s'.table[k]? = some e3 ∧ e3.iun = e1.iun := by
      rw [h]
      unfold waFinish
      dsimp only
      have g : Touch k s.table s2.table := (touch_set _ _ _).trans g3
      split
      · dsimp only
        rw [modify_set _ g1]
        exact ⟨g.trans (touch_set _ _ _), _, set_get g1, g2⟩
      · exact ⟨g, e2, g1, g2⟩
    obtain ⟨g4, e3, g5, g6⟩ := hfin
    have hu : e1.iun = u ∧ u ≠ 0 := by
      rcases hk with ⟨hk, rfl, -, hr⟩ | ⟨hk, h0, rfl⟩
      · obtain ⟨b, hb, hb'⟩ := find_some hk
        rw [he] at hb; injection hb with hb; subst hb
        refine ⟨hb', fun hu => ?_⟩
        obtain ⟨fd, p, hc⟩ := I.clean k e1 he (by omega)
        rw [hc] at hr; cases hr
      · refine ⟨rfl, fun hu => ?_⟩
        subst hu
        rw [hk] at h0; cases h0
    refine .one k e e3 he g5 g4 ?_ (.inl ⟨by rw [g6]; exact hu.1, hu.2⟩)
    rcases hk with ⟨hk, -⟩ | ⟨hk, h0, -⟩
    · exact .inl hk
    · exact .inr ⟨hk, h0⟩

theorem fclos_local (os : Os) (u : Int) (s : St) : Local u s.table (fclos os u s).1.table := by
  rcases hk : find s.table u with _ | k
  · refine .none ?_
    unfold fclos
    rw [hk]
    split
    · rfl
    · split <;> rfl
  · obtain ⟨e, he, -⟩ := find_some hk
    rw [fclos_spec os u s k e hk he]
    split
    · exact .none rfl
    · exact .one k e (resetEntry e) he (set_get he) (touch_set _ _ _) (.inl hk) (.inr (clean_reset e))

theorem waclos_spec {u : Int} {s s' : St} {r : Int} (h : waclos u s = .ok (s', r)) :
    (s' = s ∧ r = -1) ∨ ∃ (k i : Nat) (e : Entry), find s.table u = some k ∧ s.table[k]? = some e ∧ e.isOpen = true ∧
      s.slots.findIdx? (·.fd == e.fd) = some i ∧
      s' = { s with
        slots := s.slots.modify i ({ · with fd := -1 })
        table := s.table.set k { e with fd := -1, isOpen := false, attr := { e.attr with wa := false } } } := by
  unfold waclos at h
  rcases hk : find s.table u with _ | k
  · rw [hk] at h
    injection h with h; injection h with h1 h2
    exact .inl ⟨h1.symm, h2.symm⟩
  rw [hk] at h
  obtain ⟨e, he, -⟩ := find_some hk
  dsimp only at h
  rw [he] at h
  dsimp only at h
  by_cases c : e.isOpen = true
  · simp only [c, Bool.not_true, Bool.false_eq_true, if_false] at h
    unfold qqcclos at h
    rw [he] at h
    dsimp only at h
    rcases hi : s.slots.findIdx? (·.fd == e.fd) with _ | i
    · rw [hi] at h; cases h
    rw [hi] at h
    simp only [Except.map] at h
    injection h with h; injection h with h1 h2
    rw [modify_set _ (set_get he), List.set_set] at h1
    exact .inr ⟨k, i, e, rfl, he, c, hi, h1.symm⟩
  · simp only [c, Bool.not_false, if_true] at h
    injection h with h; injection h with h1 h2
    exact .inl ⟨h1.symm, h2.symm⟩

theorem waclos_local {u : Int} {s s' : St} {r : Int} (h : waclos u s = .ok (s', r)) (I : Inv s.table) :
    Local u s.table s'.table := by
  rcases waclos_spec h with ⟨rfl, -⟩ | ⟨k, i, e, hk, he, ho, -, rfl⟩
  · exact .none rfl
  · obtain ⟨b, hb, hb'⟩ := find_some hk
    rw [he] at hb; injection hb with hb; subst hb
    refine .one k e _ he (set_get he) (touch_set _ _ _) (.inl hk) (.inl ⟨hb', fun hu => ?_⟩)
    obtain ⟨fd, p, hc⟩ := I.clean k e he (by omega)
    rw [hc] at ho; cases ho

/-- The name before an archive is looked for, and the attributes before that. -/
theorem register_spec {os : Os} {u : Int} {nom type : Str} {lrec : Int} {e e1 : Entry} {b : Bool}
    (h : register os u nom type lrec e = .ok (e1, b)) :
    e1.iun = u ∧ e1.isOpen = false ∧ e1.ftype = some type ∧ e1.lrec = lrec ∧
      ((b = false ∧ (parse e.attr type).scratch = true ∧ '/' ∈ nom) ∨
       (∃ name a, (e1, b) = locate os nom (archive
          { e with iun := u, ftype := some type, attr := a, lrec := lrec, isOpen := false } name) ∧
        (((parse e.attr type).scratch = true ∧ '/' ∉ nom ∧ (parse e.attr type).remote = false ∧ a = parse e.attr type ∧
            name = os.tmpdir ++ '/' :: os.pid ++ '_' :: nom) ∨
         ((parse e.attr type).scratch = false ∧ name = strip nom ∧
          ((((parse e.attr type).remote = false ∨ ':' ∉ nom) ∧
            a = { parse e.attr type with remote := false, pipe := nom.head? = some '%' }) ∨
           ((parse e.attr type).remote = true ∧ ':' ∈ nom ∧ (parse e.attr type).rnd = false ∧
            a = { parse e.attr type with remote := false, readOnly := false, pipe := nom.head? = some '%' })))))) := by
  have key : ∀ (E : Entry) (name : Str), E.isOpen = false →
      (locate os nom (archive E name)).1.iun = E.iun ∧ (locate os nom (archive E name)).1.isOpen = false ∧
      (locate os nom (archive E name)).1.ftype = E.ftype ∧ (locate os nom (archive E name)).1.lrec = E.lrec := by
    intro E name hE
    have h1 : (archive E name).iun = E.iun ∧ (archive E name).isOpen = false ∧ (archive E name).ftype = E.ftype ∧
        (archive E name).lrec = E.lrec := by
      unfold archive; split <;> exact ⟨rfl, hE, rfl, rfl⟩
    rw [← h1.1, ← h1.2.2.1, ← h1.2.2.2]
    unfold locate
    split
    · dsimp only
      split
      · exact ⟨rfl, h1.2.1, rfl, rfl⟩
      · exact ⟨rfl, h1.2.1, rfl, rfl⟩
    · exact ⟨rfl, h1.2.1, rfl, rfl⟩
  unfold register at h
  dsimp only at h
  by_cases c : (parse e.attr type).scratch = true
  · rw [if_pos c] at h
    by_cases c2 : nom.contains '/' = true
    · rw [if_pos c2] at h
      injection h with h; injection h with h1 h2
      subst h1
      exact ⟨rfl, rfl, rfl, rfl, .inl ⟨h2.symm, c, by simpa using c2⟩⟩
    · rw [if_neg c2] at h
      by_cases c3 : (parse e.attr type).remote = true
      · rw [if_pos c3] at h; cases h
      · rw [if_neg c3] at h
        injection h with h
        obtain ⟨k1, k2, k3, k4⟩ := key { e with iun := u, ftype := some type, attr := parse e.attr type, lrec := lrec, isOpen := false }
          (os.tmpdir ++ '/' :: os.pid ++ '_' :: nom) rfl
        rw [h] at k1 k2 k3 k4
        exact ⟨k1, k2, k3, k4, .inr ⟨_, _, h.symm, .inl ⟨c, by simpa using c2, by simpa using c3, rfl, rfl⟩⟩⟩
  · rw [if_neg c] at h
    by_cases c2 : ((parse e.attr type).remote && nom.contains ':') = true
    · rw [if_pos c2] at h
      by_cases c3 : (parse e.attr type).rnd = true
      · rw [if_pos c3] at h; cases h
      · rw [if_neg c3] at h
        injection h with h
        obtain ⟨k1, k2, k3, k4⟩ := key { e with iun := u, ftype := some type, attr := { parse e.attr type with
            remote := false, readOnly := false, pipe := nom.head? = some '%' }, lrec := lrec, isOpen := false }
          (strip nom) rfl
        rw [h] at k1 k2 k3 k4
        simp only [Bool.and_eq_true, List.contains_iff_mem] at c2
        exact ⟨k1, k2, k3, k4, .inr ⟨_, _, h.symm, .inr ⟨by simpa using c, rfl, .inr ⟨c2.1, c2.2, by simpa using c3, rfl⟩⟩⟩⟩
    · rw [if_neg c2] at h
      injection h with h
      obtain ⟨k1, k2, k3, k4⟩ := key { e with iun := u, ftype := some type, attr := { parse e.attr type with
          remote := false, pipe := nom.head? = some '%' }, lrec := lrec, isOpen := false }
        (strip nom) rfl
      rw [h] at k1 k2 k3 k4
      refine ⟨k1, k2, k3, k4, .inr ⟨_, _, h.symm, .inr ⟨by simpa using c, rfl, .inl ⟨?_, rfl⟩⟩⟩⟩
      simp only [Bool.and_eq_true, List.contains_iff_mem, not_and] at c2
      by_cases c4 : (parse e.attr type).remote = true
      · exact .inr (c2 c4)
      · exact .inl (by simpa using c4)

/-- What `connect` may do. -/
inductive Connected (os : Os) (u : Int) (nom type : Str) (lrec : Int) (s s' : St) : Int → Prop
  | used (k : Nat) (hk : find s.table u = some k) (h : s' = s) : Connected os u nom type lrec s s' (-1)
  | stuck (k : Nat) (e e1 : Entry) (hk : find s.table u = none) (h0 : find s.table 0 = some k) (he : s.table[k]? = some e)
      (hr : register os u nom type lrec e = .ok (e1, false)) (h : s' = { s with table := s.table.set k e1 }) :
      Connected os u nom type lrec s s' (-1)
  | new (k : Nat) (e e1 : Entry) (r : Int) (hk : find s.table u = none) (h0 : find s.table 0 = some k)
      (he : s.table[k]? = some e) (hr : register os u nom type lrec e = .ok (e1, true))
      (h : NewOpened os u k e1 s s' r) : Connected os u nom type lrec s s' r

theorem connect_spec {os : Os} {u : Int} {nom type : Str} {lrec : Int} {s s' : St} {r : Int} (h6 : u ≠ 6)
    (h : connect os u nom type lrec s = .ok (s', r)) : Connected os u nom type lrec s s' r := by
  unfold connect at h
  rcases hk : find s.table u with _ | k
  · simp only [hk, Option.isSome_none, Bool.false_eq_true, if_false] at h
    rcases h0 : find s.table 0 with _ | k
    · rw [h0] at h; cases h
    rw [h0] at h
    obtain ⟨e, he, -⟩ := find_some h0
    dsimp only at h
    rw [he] at h
    dsimp only at h
    rcases hr : register os u nom type lrec e with _ | ⟨e1, b⟩
    · rw [hr] at h; cases h
    rw [hr] at h
    simp only [Except.bind] at h
    obtain ⟨r1, r2, -⟩ := register_spec hr
    cases b with
    | false =>
      simp only [Bool.false_eq_true, if_false] at h
      injection h with h; injection h with h1 h2
      subst h2
      exact .stuck k e e1 hk h0 he hr h1.symm
    | true =>
      simp only [if_true] at h
      exact .new k e e1 r hk h0 he hr (openNew_spec hk he r1 r2 h6 h)
  · simp only [hk, Option.isSome_some, if_true] at h
    injection h with h; injection h with h1 h2
    subst h2
    exact .used k hk h1.symm

theorem Connected.local {os : Os} {u : Int} {nom type : Str} {lrec : Int} {s s' : St} {r : Int}
    (h : Connected os u nom type lrec s s' r) (hu : u ≠ 0) : Local u s.table s'.table := by
  cases h with
  | used k hk h => exact .none (by rw [h])
  | stuck k e e1 hk h0 he hr h =>
    obtain ⟨r1, -⟩ := register_spec hr
    rw [h]
    exact .one k e e1 he (set_get he) (touch_set _ _ _) (.inr ⟨hk, h0⟩) (.inl ⟨r1, hu⟩)
  | new k e e1 _ hk h0 he hr h =>
    obtain ⟨r1, -⟩ := register_spec hr
    cases h with
    | ftn hf ho hx h =>
      rw [h]
      exact .one k e _ he (set_get he) (touch_set _ _ _) (.inr ⟨hk, h0⟩) (.inl ⟨r1, hu⟩)
    | wa d ro s1 hf hr hx ho h1 hw hs h =>
      rw [h]
      exact .one k e _ he (set_get he) (touch_set _ _ _) (.inr ⟨hk, h0⟩) (.inl ⟨r1, hu⟩)
    | failed s1 e2 h1 hi ho hs h =>
      rw [h]
      refine .one k e _ he (set_get he) (touch_set _ _ _) (.inr ⟨hk, h0⟩) ?_
      split
      · exact .inl ⟨hi, hu⟩
      · exact .inr (clean_reset _)

theorem scanUnit_spec (t : List Entry) : ∀ n : Nat,
    (scanUnit t n = -1 ∧ ∀ v : Nat, 10 < v → v ≤ n + 10 → ∃ k, find t v = some k) ∨
    ∃ w : Nat, scanUnit t n = w ∧ 10 < w ∧ w ≤ n + 10 ∧ find t w = none ∧ ∀ v : Nat, w < v → v ≤ n + 10 → ∃ k, find t v = some k
  | 0 => .inl ⟨rfl, fun v h1 h2 => by omega⟩
  | n + 1 => by
    unfold scanUnit
    rcases hf : find t ((n + 11 : Nat) : Int) with _ | k
    · simp only [Option.isSome_none, Bool.false_eq_true, if_false]
      exact .inr ⟨n + 11, rfl, by omega, by omega, hf, fun v h1 h2 => by omega⟩
    · simp only [Option.isSome_some, if_true]
      have top : ∀ v : Nat, v = n + 11 → ∃ k, find t v = some k := by
        intro v hv; subst hv; exact ⟨k, hf⟩
      rcases scanUnit_spec t n with ⟨h1, h2⟩ | ⟨w, h1, h2, h3, h4, h5⟩
      · refine .inl ⟨h1, fun v a b => ?_⟩
        by_cases c : v = n + 11
        · exact top v c
        · exact h2 v a (by omega)
      · refine .inr ⟨w, h1, h2, by omega, h4, fun v a b => ?_⟩
        by_cases c : v = n + 11
        · exact top v c
        · exact h5 v a (by omega)

theorem qqqfscr_ne (t : List Entry) (type : Str) : qqqfscr t type ≠ 0 := by
  unfold qqqfscr
  rcases scanUnit_spec t (if asks type .ftn || asks type .d77 then 99 - 10 else 999 - 10) with ⟨h, -⟩ | ⟨w, h, h2, -⟩ <;> omega

theorem start_inv {s : St} (I : Inv s.table) : Inv (start s).table ∧ (start s).table.length = s.table.length := by
  unfold start
  split
  · exact ⟨I, rfl⟩
  · refine ⟨⟨?_, ?_⟩, by simp⟩
    · intro i j a b ha hb hab h0
      rw [List.getElem?_map] at ha
      rcases h : s.table[i]? with _ | x
      · rw [h] at ha; cases ha
      · rw [h] at ha
        injection ha with ha
        subst ha
        exact absurd rfl h0
    · intro i a ha h0
      rw [List.getElem?_map] at ha
      rcases h : s.table[i]? with _ | x
      · rw [h] at ha; cases ha
      · rw [h] at ha
        injection ha with ha
        subst ha
        exact clean_reset x

/-- What `fnom` may do, once the unit is chosen. -/
theorem fnom_spec {os : Os} {u v : Int} {nom type : Str} {lrec : Int} {s s' : St} {r : Int}
    (h : fnom os u nom type lrec s = .ok (s', v, r)) :
    v = (if u = 0 then qqqfscr (start s).table type else u) ∧ v ≠ 0 ∧
      ((v ≠ -1 ∧ v ≠ 6 ∧ ¬(v = 5 ∧ nom ∈ inNames) ∧ v ≠ -2 ∧ Connected os v nom type lrec (start s) s' r) ∨
       ((v = -1 ∨ v = 6 ∨ (v = 5 ∧ nom ∈ inNames) ∨ v = -2) ∧ s'.table = (start s).table ∧ s'.slots = (start s).slots ∧
         s'.waInit = (start s).waInit ∧ s'.started = (start s).started ∧ (v = -1 → r = -1 ∧ s' = start s))) := by
  unfold fnom at h
  dsimp only at h
  have hne : (if u = 0 then qqqfscr (start s).table type else u) ≠ 0 := by
    split
    · exact qqqfscr_ne _ _
    · assumption
  generalize (if u = 0 then qqqfscr (start s).table type else u) = w at h hne ⊢
  by_cases c1 : w = -1
  · rw [if_pos c1] at h
    injection h with h; injection h with h1 h2; injection h2 with h2 h3
    subst h1; subst h2; subst h3
    exact ⟨rfl, hne, .inr ⟨.inl c1, rfl, rfl, rfl, rfl, fun _ => ⟨rfl, rfl⟩⟩⟩
  rw [if_neg c1] at h
  by_cases c2 : w = 6
  · rw [if_pos c2] at h
    split at h
    all_goals
      injection h with h; injection h with h1 h2; injection h2 with h2 h3
      subst h1; subst h2; subst h3
      exact ⟨rfl, hne, .inr ⟨.inr (.inl c2), rfl, rfl, rfl, rfl, fun h => absurd h c1⟩⟩
  rw [if_neg c2] at h
  by_cases c3 : w = 5 ∧ nom ∈ inNames
  · rw [if_pos c3] at h
    injection h with h; injection h with h1 h2; injection h2 with h2 h3
    subst h1; subst h2; subst h3
    exact ⟨rfl, hne, .inr ⟨.inr (.inr (.inl c3)), rfl, rfl, rfl, rfl, fun h => absurd h c1⟩⟩
  rw [if_neg c3] at h
  by_cases c4 : w = -2
  · rw [if_pos c4] at h
    injection h with h; injection h with h1 h2; injection h2 with h2 h3
    subst h1; subst h2
    exact ⟨rfl, hne, .inr ⟨.inr (.inr (.inr c4)), rfl, rfl, rfl, rfl, fun h => absurd h c1⟩⟩
  rw [if_neg c4] at h
  rcases hc : connect os w nom type lrec (start s) with _ | ⟨s2, r2⟩
  · rw [hc] at h; cases h
  rw [hc] at h
  simp only [Except.map] at h
  injection h with h; injection h with h1 h2; injection h2 with h2 h3
  subst h1; subst h2; subst h3
  exact ⟨rfl, hne, .inl ⟨c1, c2, c3, c4, connect_spec c2 hc⟩⟩

theorem fnom_local {os : Os} {u v : Int} {nom type : Str} {lrec : Int} {s s' : St} {r : Int}
    (h : fnom os u nom type lrec s = .ok (s', v, r)) : Local v (start s).table s'.table := by
  obtain ⟨-, h0, ⟨-, -, -, -, h⟩ | ⟨-, h, -⟩⟩ := fnom_spec h
  · exact h.local h0
  · exact .none h

theorem step_inv {s s' : St} {op : Op} (I : Inv s.table) (h : step s op = .ok s') :
    Inv s'.table ∧ s'.table.length = s.table.length := by
  cases op with
  | fnom os u nom type lrec =>
    simp only [step] at h
    rcases hf : fnom os u nom type lrec s with _ | ⟨s2, v, r⟩
    · rw [hf] at h; cases h
    rw [hf] at h
    injection h with h
    dsimp only at h
    subst h
    obtain ⟨i1, i2⟩ := start_inv I
    obtain ⟨j1, j2⟩ := (fnom_local hf).inv i1
    exact ⟨j1, by omega⟩
  | fclos os u =>
    simp only [step] at h
    injection h with h
    subst h
    exact (fclos_local os u s).inv I
  | waopen os u =>
    simp only [step] at h
    rcases hf : waopen os u s with _ | ⟨s2, r⟩
    · rw [hf] at h; cases h
    rw [hf] at h
    injection h with h
    dsimp only at h
    subst h
    exact ((waopen_spec hf).local I).inv I
  | waclos u =>
    simp only [step] at h
    rcases hf : waclos u s with _ | ⟨s2, r⟩
    · rw [hf] at h; cases h
    rw [hf] at h
    injection h with h
    dsimp only at h
    subst h
    exact (waclos_local hf I).inv I

theorem run_inv : ∀ (ops : List Op) {s s' : St}, Inv s.table → run s ops = .ok s' →
    Inv s'.table ∧ s'.table.length = s.table.length
  | [], s, s', I, h => by
    injection h with h; subst h; exact ⟨I, rfl⟩
  | op :: ops, s, s', I, h => by
    unfold run at h
    rcases hs : step s op with _ | s1
    · rw [hs] at h; cases h
    rw [hs] at h
    obtain ⟨i1, i2⟩ := step_inv I hs
    obtain ⟨j1, j2⟩ := run_inv ops i1 h
    exact ⟨j1, by omega⟩

theorem initial_inv : Inv initial.table := by
  refine ⟨?_, ?_⟩
  · intro i j a b ha hb hab h0
    have : a ∈ List.replicate maxFiles ({} : Entry) := List.mem_of_getElem? ha
    rw [List.eq_of_mem_replicate this] at h0
    exact absurd rfl h0
  · intro i a ha h0
    have : a ∈ List.replicate maxFiles ({} : Entry) := List.mem_of_getElem? ha
    rw [List.eq_of_mem_replicate this]
    exact ⟨_, _, rfl⟩

end Verif.Fnom
