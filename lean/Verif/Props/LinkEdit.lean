import Verif.LinkEdit
import Mathlib.Tactic

namespace Verif.LinkEdit

/-! # C139: changes to linked files -/

/-- The records of a page and of a file that are not deleted. -/
def liveIn (g : Pg) : Int := (g.ents.countP live : Nat)

def liveCount (F : Fil) : Int := (F.pages.map liveIn).sum

/-- The count of the file is that of its records, pages not marked as changed are as on disk, and the
file is marked if one of its pages is. -/
structure Sound (F : Fil) : Prop where
  count : F.nrec = liveCount F
  clean : ∀ (i : Nat) (g : Pg), F.pages[i]? = some g → g.modified = false →
    F.saved[i]? = some (g.ents.map closed)
  mark : ∀ g ∈ F.pages, g.modified = true → F.modified = true

theorem sum_set (l : List Pg) (h : Pg → Pg) : ∀ (p : Nat) (g : Pg), l[p]? = some g →
    ((l.modify p h).map liveIn).sum = (l.map liveIn).sum - liveIn g + liveIn (h g) := by
  induction l with
  | nil => intro p g hg; simp at hg
  | cons a t ih =>
    intro p g hg
    cases p with
    | zero => simp at hg; subst hg; simp; ring
    | succ n => simp at hg; simp [ih n g hg]; ring

theorem countP_set (l : List Ent) : ∀ (r : Nat) (e e' : Ent), l[r]? = some e →
    (((l.set r e').countP live : Nat) : Int) =
      (l.countP live : Nat) - (if live e then 1 else 0) + (if live e' then 1 else 0) := by
  induction l with
  | nil => intro r e e' h; simp at h
  | cons a t ih =>
    intro r e e' h
    cases r with
    | zero => simp at h; subst h; simp [List.countP_cons]
    | succ n => simp at h; simp only [List.set_cons_succ, List.countP_cons]; push_cast; rw [ih n e e' h]; ring

theorem liveCount_setEnt {F : Fil} {p r : Nat} {g : Pg} {e : Ent} (e' : Ent) (hg : F.pages[p]? = some g)
    (he : g.ents[r]? = some e) :
    liveCount (setEnt F p r e') =
      liveCount F - (if live e then 1 else 0) + (if live e' then 1 else 0) := by
  unfold liveCount setEnt
  simp only
  rw [sum_set _ _ p g hg]
  simp only [liveIn]
  rw [countP_set g.ents r e e' he]
  ring

theorem modify_get {l : List Pg} {h : Pg → Pg} {p i : Nat} {g : Pg} (hg : (l.modify p h)[i]? = some g) :
    (i = p ∧ ∃ g0, l[i]? = some g0 ∧ g = h g0) ∨ (i ≠ p ∧ l[i]? = some g) := by
  rw [List.getElem?_modify] at hg
  by_cases hi : p = i
  · subst hi
    cases h0 : l[p]? with
    | none => simp [h0] at hg
    | some g0 => simp [h0] at hg; exact Or.inl ⟨rfl, g0, rfl, hg.symm⟩
  · refine Or.inr ⟨fun h => hi h.symm, ?_⟩
    simpa [hi] using hg

/-- A change of pages that marks those changed and the file. -/
theorem Sound.change {F G : Fil} (h : Sound F) (hc : G.nrec = liveCount G) (hs : G.saved = F.saved)
    (hm : G.modified = true)
    (hp : ∀ (i : Nat) (g : Pg), G.pages[i]? = some g → g.modified = false → F.pages[i]? = some g) : Sound G where
  count := hc
  clean := fun i g hg hm => by rw [hs]; exact h.clean i g (hp i g hg hm) hm
  mark := fun _ _ _ => hm

theorem entry_own {T : Table} {f p r : Nat} {l : Nat × Nat} {e : Ent} (hp : p < (T f).pages.length)
    (h : entry T f p r = some (l, e)) : l = (f, p) ∧ ∃ g, (T f).pages[p]? = some g ∧ g.ents[r]? = some e := by
  unfold entry pageOf at h
  rw [if_pos hp] at h
  simp only [Option.bind_some] at h
  rw [Option.bind_eq_some_iff] at h
  obtain ⟨g, hg, h⟩ := h
  rw [Option.map_eq_some_iff] at h
  obtain ⟨e', he, h⟩ := h
  simp only [Prod.mk.injEq] at h
  exact ⟨h.1.symm, g, hg, by rw [he, h.2]⟩

theorem live_254 (a n : Nat) : live ⟨254, a, n⟩ = false := by simp [live]

/-- Deletion by a handle to a page of the file itself. -/
theorem del_own {T T' : Table} {f p r : Nat} (hp : p < (T f).pages.length) (h : Sound (T f))
    (hd : del T f p r = some T') :
    Sound (T' f) ∧ (∀ i, i ≠ f → T' i = T i) ∧ (T' f).pages.length = (T f).pages.length ∧
      (T' f).data = (T f).data ∧ ∃ g e, (T f).pages[p]? = some g ∧ g.ents[r]? = some e ∧ live e = true ∧
      (T' f).pages = (setEnt (T f) p r { e with idtyp := 254 }).pages ∧ (T' f).nrec = (T f).nrec - 1 ∧
      (T' f).saved = (T f).saved ∧ (T' f).modified = true := by
  unfold del at hd
  cases hE : entry T f p r with
  | none => simp [hE] at hd
  | some le =>
    obtain ⟨l, e⟩ := le
    obtain ⟨rfl, g, hg, he⟩ := entry_own hp hE
    simp only [hE] at hd
    by_cases hl : live e = false
    · simp [hl] at hd
    · rw [if_neg hl] at hd
      simp only [Option.some.injEq] at hd
      have hl' : live e = true := by simpa using hl
      subst hd
      have hcnt := liveCount_setEnt (F := T f) { e with idtyp := 254 } hg he
      rw [hl', live_254] at hcnt
      refine ⟨?_, ?_, ?_, ?_, g, e, hg, he, hl', ?_, ?_, ?_, ?_⟩ <;> simp only [setFile, Function.update_self]
      · apply Sound.change h
        · show (T f).nrec - 1 = liveCount (setEnt (T f) p r { e with idtyp := 254 })
          rw [hcnt, h.count]; simp
        · rfl
        · rfl
        · intro i g' hg' hm
          rcases modify_get hg' with ⟨_, g0, _, rfl⟩ | ⟨_, h1⟩
          · simp at hm
          · exact h1
      · intro i hi; rw [Function.update_of_ne hi, Function.update_of_ne hi]
      · simp [setEnt]
      · rfl
      · rfl
      · rfl

theorem last_get {l : List Pg} (h : l ≠ []) : ∃ g, l[l.length - 1]? = some g ∧ l.getLast? = some g := by
  refine ⟨l.getLast h, ?_, List.getLast?_eq_some_getLast h⟩
  rw [← List.getLast?_eq_getElem?, List.getLast?_eq_some_getLast h]

/-- What making place leaves as it was. -/
theorem room_spec {F : Fil} (h : F.pages ≠ []) :
    liveCount (room F) = liveCount F ∧ (room F).nrec = F.nrec ∧ (room F).saved = F.saved ∧ (room F).pages ≠ [] ∧
      (∀ (i : Nat) (g : Pg), (room F).pages[i]? = some g → g.modified = false → F.pages[i]? = some g) ∧
      F.pages.length ≤ (room F).pages.length ∧
      (∀ (i r : Nat) (g : Pg) (e : Ent), F.pages[i]? = some g → g.ents[r]? = some e →
        ∃ g', (room F).pages[i]? = some g' ∧ g'.ents[r]? = some e) := by
  obtain ⟨g, hg, hl⟩ := last_get h
  unfold room
  rw [hl]
  simp only
  by_cases hc : g.ents.length < perPage
  · rw [if_pos hc]
    exact ⟨rfl, rfl, rfl, h, fun _ _ h _ => h, le_refl _, fun i r g e h1 h2 => ⟨g, h1, h2⟩⟩
  · rw [if_neg hc]
    unfold addPage
    refine ⟨?_, rfl, rfl, by simp, ?_, by simp, ?_⟩
    · unfold liveCount
      simp only [List.map_append, List.sum_append]
      rw [sum_set _ _ _ g hg]
      simp [liveIn]
    · intro i g' hg' hm
      rw [List.getElem?_append] at hg'
      split at hg'
      · rcases modify_get hg' with ⟨_, g0, _, rfl⟩ | ⟨_, h1⟩
        · simp at hm
        · exact h1
      · rw [List.getElem?_singleton] at hg'
        split at hg'
        · simp at hg'; subst hg'; simp at hm
        · simp at hg'
    · intro i r g0 e h1 h2
      have hi : i < F.pages.length := (List.getElem?_eq_some_iff.mp h1).1
      rw [List.getElem?_append_left (by simpa using hi), List.getElem?_modify, h1]
      by_cases hx : F.pages.length - 1 = i
      · exact ⟨{ g0 with modified := true }, by simp [hx], h2⟩
      · exact ⟨g0, by simp [hx], h2⟩

theorem append_own {F : Fil} {t n x : Nat} (h : Sound F) (hne : F.pages ≠ [])
    (ht : ∀ a, live ⟨t, a, n⟩ = true) : Sound (append F t n x) := by
  obtain ⟨h1, h2, h3, h4, h5, _⟩ := room_spec hne
  obtain ⟨g, hg, _⟩ := last_get h4
  apply Sound.change h
  · unfold append liveCount
    simp only
    rw [sum_set _ _ _ g hg, h2, h.count, ← h1]
    unfold liveCount
    simp only [liveIn]
    rw [List.countP_append]
    simp [ht]; ring
  · exact h3
  · rfl
  · intro i g' hg' hm
    simp only [append] at hg'
    rcases modify_get hg' with ⟨_, g0, _, rfl⟩ | ⟨_, h1⟩
    · simp at hm
    · exact h5 i g' h1 hm

/-- The pages of the file after an addition hold all that was there. -/
theorem append_keeps {F : Fil} {t n x : Nat} (hne : F.pages ≠ []) :
    F.pages.length ≤ (append F t n x).pages.length ∧
    ∀ (i r : Nat) (g : Pg) (e : Ent), F.pages[i]? = some g → g.ents[r]? = some e →
      ∃ g', (append F t n x).pages[i]? = some g' ∧ g'.ents[r]? = some e := by
  obtain ⟨_, _, _, _, _, h6, h7⟩ := room_spec hne
  refine ⟨by simpa [append] using h6, ?_⟩
  intro i r g e h1 h2
  obtain ⟨g', hg', he'⟩ := h7 i r g e h1 h2
  simp only [append, List.getElem?_modify, hg']
  by_cases hx : (room F).pages.length - 1 = i
  · refine ⟨{ ents := g'.ents ++ [⟨t, (room F).fsiz + 1, n⟩], modified := true }, by simp [hx], ?_⟩
    rw [List.getElem?_append_left (List.getElem?_eq_some_iff.mp he').1]
    exact he'
  · exact ⟨g', by simp [hx], he'⟩

theorem set_modify_get {F : Fil} {p r : Nat} {g : Pg} (e : Ent) (hg : F.pages[p]? = some g)
    (hr : r < g.ents.length) :
    ∃ g', (setEnt F p r e).pages[p]? = some g' ∧ g'.ents[r]? = some e := by
  refine ⟨{ ents := g.ents.set r e, modified := true }, by simp [setEnt, hg], ?_⟩
  simp [hr]

/-- A record written over the old one, by a handle to a page of the file itself. -/
theorem rewrite_own {T T' : Table} {f p r t n x : Nat} (hp : p < (T f).pages.length) (h : Sound (T f))
    (ht : ∀ a, live ⟨t, a, n⟩ = true) (hd : rewrite T f p r t n x = some T') :
    Sound (T' f) ∧ ∀ i, i ≠ f → T' i = T i := by
  unfold rewrite at hd
  cases hE : entry T f p r with
  | none => simp [hE] at hd
  | some le =>
    obtain ⟨l, e⟩ := le
    obtain ⟨rfl, g, hg, he⟩ := entry_own hp hE
    simp only [hE] at hd
    by_cases hl : live e = false
    · simp [hl] at hd
    rw [if_neg hl] at hd
    have hne : (T f).pages ≠ [] := by intro h0; simp [h0] at hp
    by_cases hn : e.lng ≠ n
    · rw [if_pos hn] at hd
      have hs : Sound (put T f t n x f) := by
        simpa [put, setFile] using append_own (x := x) h hne ht
      have hp' : p < (put T f t n x f).pages.length := by
        have := (append_keeps (t := t) (n := n) (x := x) hne).1
        simp only [put, setFile, Function.update_self]; omega
      obtain ⟨h1, h2, _⟩ := del_own hp' hs hd
      exact ⟨h1, fun i hi => by rw [h2 i hi]; simp [put, setFile, hi]⟩
    · rw [if_neg hn] at hd
      cases hD : del T f p r with
      | none => simp [hD] at hd
      | some T1 =>
        simp only [hD, Option.some.injEq] at hd
        obtain ⟨h1, h2, h3, _, g1, e1, hg1, he1, _, h5, _⟩ := del_own hp h hD
        rw [hg1] at hg
        obtain rfl := Option.some.inj hg
        rw [he1] at he
        obtain rfl := Option.some.inj he
        subst hd
        obtain ⟨g', hg', he'⟩ := set_modify_get (F := T f) { e1 with idtyp := 254 } hg1
          (List.getElem?_eq_some_iff.mp he1).1
        rw [← h5] at hg'
        have hcnt := liveCount_setEnt (F := T1 f) { e1 with idtyp := t } hg' he'
        have hn' : e1.lng = n := not_not.mp hn
        have hlt : live { e1 with idtyp := t } = true := by
          have := ht e1.addr
          simpa [live] using this
        rw [live_254, hlt] at hcnt
        refine ⟨?_, fun i hi => ?_⟩
        · simp only [setFile, Function.update_self]
          apply Sound.change h1
          · show (T1 f).nrec + 1 = liveCount (setEnt (T1 f) p r { e1 with idtyp := t })
            rw [hcnt, h1.count]; simp
          · rfl
          · show (T1 f).modified = true
            exact h1.mark g' (List.mem_of_getElem? hg') (by
              have : (setEnt (T f) p r { e1 with idtyp := 254 }).pages[p]? = some g' := by rw [← h5]; exact hg'
              rcases modify_get this with ⟨_, g0, _, rfl⟩ | ⟨h0, _⟩
              · rfl
              · exact absurd rfl h0)
          · intro i g0 hg0 hm
            rcases modify_get hg0 with ⟨_, g2, _, rfl⟩ | ⟨_, h0⟩
            · simp at hm
            · exact h0
        · simp only [setFile]
          rw [Function.update_of_ne hi, Function.update_of_ne hi, h2 i hi]

/-- Calls whose handles lead to pages of the file they name, with types of data that are not those of
deleted records. -/
def Own (T : Table) : Op → Prop
  | .put f t n _ => (T f).pages ≠ [] ∧ ∀ a, live ⟨t, a, n⟩ = true
  | .del f p _ => p < (T f).pages.length
  | .rewrite f p _ t n _ => p < (T f).pages.length ∧ ∀ a, live ⟨t, a, n⟩ = true

def OwnRun : Table → List Op → Prop
  | _, [] => True
  | T, o :: ops => Own T o ∧ OwnRun (step T o) ops

theorem step_sound {T : Table} {o : Op} (h : ∀ i, Sound (T i)) (ho : Own T o) (i : Nat) : Sound (step T o i) := by
  cases o with
  | put f t n x =>
    by_cases hi : i = f
    · subst hi; simpa [step, put, setFile] using append_own (x := x) (h i) ho.1 ho.2
    · simpa [step, put, setFile, hi] using h i
  | del f p r =>
    simp only [step]
    cases hD : del T f p r with
    | none => exact h i
    | some T1 =>
      obtain ⟨h1, h2, _⟩ := del_own ho (h f) hD
      by_cases hi : i = f
      · subst hi; exact h1
      · simp only [Option.getD_some]; rw [h2 i hi]; exact h i
  | rewrite f p r t n x =>
    simp only [step]
    cases hD : rewrite T f p r t n x with
    | none => exact h i
    | some T1 =>
      obtain ⟨h1, h2⟩ := rewrite_own ho.1 (h f) ho.2 hD
      by_cases hi : i = f
      · subst hi; exact h1
      · simp only [Option.getD_some]; rw [h2 i hi]; exact h i

theorem run_sound (ops : List Op) : ∀ (T : Table), (∀ i, Sound (T i)) → OwnRun T ops →
    ∀ i, Sound (ops.foldl step T i) := by
  induction ops with
  | nil => intro T h _; exact h
  | cons o ops ih => intro T h ho; exact ih _ (fun i => step_sound h ho.1 i) ho.2

theorem close_saves {F : Fil} (h : Sound F) :
    (close F).savedNrec = liveCount F ∧
    ∀ (i : Nat) (g : Pg), F.pages[i]? = some g → (close F).saved[i]? = some (g.ents.map closed) := by
  refine ⟨h.count, ?_⟩
  intro i g hg
  simp only [close]
  by_cases hm : F.modified
  · rw [if_pos hm, List.getElem?_mapIdx, hg]
    by_cases hgm : g.modified
    · simp [hgm]
    · simp [hgm, h.clean i g hg (by simpa using hgm)]
  · rw [if_neg hm]
    refine h.clean i g hg ?_
    by_contra hc
    exact hm (h.mark g (List.mem_of_getElem? hg) (by simpa using hc))

/-- C139, for handles to pages of the file itself.  After any additions, deletions and rewritings the
header saved at closing counts the records that are not deleted, and every page saved is that in memory. -/
theorem C139_partial (T : Table) (ops : List Op) (h : ∀ i, Sound (T i)) (ho : OwnRun T ops) (i : Nat) :
    (close (ops.foldl step T i)).savedNrec = liveCount (ops.foldl step T i) ∧
    ∀ (k : Nat) (g : Pg), (ops.foldl step T i).pages[k]? = some g →
      (close (ops.foldl step T i)).saved[k]? = some (g.ents.map closed) :=
  close_saves (run_sound ops T h ho i)

/-- Two files, each with a page and a record at the same address; the first is linked to the second. -/
def two : Table := fun i =>
  if i < 2 then
    { pages := [{ ents := [⟨1, 2311, 10⟩], modified := false }], link := i == 0,
      tail := if i = 0 then some 1 else none, nrec := 1, neff := 0, fsiz := 2320, modified := false,
      data := fun a => if a = 2311 then some (100 + i) else none, saved := [[⟨1, 2311, 10⟩]], savedNrec := 1 }
  else
    { pages := [], link := false, tail := none, nrec := 0, neff := 0, fsiz := 0, modified := false,
      data := fun _ => none, saved := [], savedNrec := 0 }

theorem two_sound (i : Nat) : Sound (two i) := by
  unfold two
  by_cases hi : i < 2
  · rw [if_pos hi]
    refine ⟨by simp [liveCount, liveIn, live], ?_, by simp⟩
    intro k g hg _
    cases k with
    | zero => simp at hg; subst hg; simp [closed]
    | succ k => simp at hg
  · rw [if_neg hi]
    exact ⟨by simp [liveCount], by simp, by simp⟩

example : OwnRun two [.put 0 1 5 7, .rewrite 0 0 0 1 10 8, .rewrite 0 0 1 2 6 9, .del 1 0 0] := by
  refine ⟨⟨by decide, fun a => by simp [live]⟩, ⟨by decide, fun a => by simp [live]⟩,
    ⟨by decide, fun a => by simp [live]⟩, ?_, trivial⟩
  show _ < _
  decide +kernel

theorem walk_congr {T T' : Table} (h : ∀ l, nextPage T' l = nextPage T l) (n : Nat) :
    ∀ l, walk T' n l = walk T n l := by
  induction n with
  | zero => intro l; rfl
  | succ n ih =>
    intro l
    have hf : nextPage T' = nextPage T := funext h
    simp only [walk, ih, hf]

theorem pageOf_congr {T T' : Table} (hp : ∀ i, (T' i).pages.length = (T i).pages.length)
    (hl : ∀ i, (T' i).link = (T i).link) (ht : ∀ i, (T' i).tail = (T i).tail) (f p : Nat) :
    pageOf T' f p = pageOf T f p := by
  unfold pageOf
  have he : ((T' f).pages = []) ↔ (T f).pages = [] := by
    rw [← List.length_eq_zero_iff, ← List.length_eq_zero_iff, hp]
  have hn : ∀ l, nextPage T' l = nextPage T l := fun l => by unfold nextPage; rw [hp, ht]
  simp only [hp f, hl f, he, walk_congr hn]

theorem entry_parts {T : Table} {f p r : Nat} {l : Nat × Nat} {e : Ent} (h : entry T f p r = some (l, e)) :
    pageOf T f p = some l ∧ ∃ g, (T l.1).pages[l.2]? = some g ∧ g.ents[r]? = some e := by
  unfold entry at h
  rw [Option.bind_eq_some_iff] at h
  obtain ⟨l', hl, h⟩ := h
  rw [Option.bind_eq_some_iff] at h
  obtain ⟨g, hg, h⟩ := h
  rw [Option.map_eq_some_iff] at h
  obtain ⟨e', he, h⟩ := h
  simp only [Prod.mk.injEq] at h
  obtain ⟨rfl, rfl⟩ := h
  exact ⟨hl, g, hg, he⟩

theorem entry_of {T : Table} {f p r : Nat} {l : Nat × Nat} {g : Pg} {e : Ent} (h1 : pageOf T f p = some l)
    (h2 : (T l.1).pages[l.2]? = some g) (h3 : g.ents[r]? = some e) : entry T f p r = some (l, e) := by
  simp [entry, h1, h2, h3]

/-- What rewriting in place does, for any handle. -/
theorem rewrite_same {T : Table} {f p r t n x : Nat} {l : Nat × Nat} {e : Ent}
    (hE : entry T f p r = some (l, e)) (hl : live e = true) (hn : e.lng = n) :
    ∃ T', rewrite T f p r t n x = some T' ∧ entry T' f p r = some (l, { e with idtyp := t }) ∧
      (∀ i, (T' i).data = if i = f then Function.update (T f).data e.addr (some x) else (T i).data) := by
  obtain ⟨h1, g, hg, he⟩ := entry_parts hE
  have hr : r < g.ents.length := (List.getElem?_eq_some_iff.mp he).1
  unfold rewrite
  simp only [hE]
  rw [if_neg (by simp [hl]), if_neg (by simp [hn])]
  unfold del
  simp only [hE]
  rw [if_neg (by simp [hl])]
  refine ⟨_, rfl, ?_, ?_⟩
  · refine entry_of (g := { ents := (g.ents.set r { e with idtyp := 254 }).set r { e with idtyp := t }, modified := true })
      ?_ ?_ (by simp [hr])
    · rw [pageOf_congr (T := T) _ _ _ f p]
      · exact h1
      all_goals
        intro i
        by_cases hf : i = f <;> by_cases hi : i = l.1 <;> by_cases hfl : f = l.1 <;>
          simp_all [setFile, setEnt, Function.update_apply]
    · by_cases hfl : l.1 = f
      · have hg' : (T f).pages[l.2]? = some g := hfl ▸ hg
        simp [setFile, setEnt, hfl, hg']
      · simp [setFile, setEnt, hfl, hg]
  · intro i
    by_cases hf : i = f <;> by_cases hi : i = l.1 <;> by_cases hfl : f = l.1 <;>
      simp_all [setFile, setEnt, Function.update_apply]

/-- C139, reading back: by a handle to a page of the file itself, a record rewritten with the same length
is read with its new data, and the data of other records is not touched. -/
theorem C139_read_partial (T : Table) (f p r t x : Nat) (l : Nat × Nat) (e : Ent)
    (hp : p < (T f).pages.length) (hE : entry T f p r = some (l, e)) (hl : live e = true)
    (ht : ∀ a, live ⟨t, a, e.lng⟩ = true) :
    ∃ T', rewrite T f p r t e.lng x = some T' ∧ get T' f p r = some x ∧
      ∀ i a, (i, a) ≠ (f, e.addr) → (T' i).data a = (T i).data a := by
  obtain ⟨T', h1, h2, h3⟩ := rewrite_same (t := t) (x := x) hE hl rfl
  obtain ⟨rfl, _⟩ := entry_own hp hE
  have hlt : live { e with idtyp := t } = true := by simpa [live] using ht e.addr
  refine ⟨T', h1, ?_, ?_⟩
  · unfold get
    simp only [h2]
    rw [if_neg (by simp [hlt]), h3]
    simp
  · intro i a hia
    rw [h3]
    by_cases hi : i = f
    · subst hi
      have : a ≠ e.addr := fun h => hia (by rw [h])
      simp [Function.update_of_ne this]
    · rw [if_neg hi]

example : ∃ T', rewrite two 0 0 0 1 10 8 = some T' ∧ get T' 0 0 0 = some 8 ∧
    ∀ i a, (i, a) ≠ (0, 2311) → (T' i).data a = (two i).data a :=
  C139_read_partial two 0 0 0 1 8 (0, 0) ⟨1, 2311, 10⟩ (by decide) (by decide) (by decide)
    (fun a => by simp [live])

/-- By a handle to a page of a linked file the same call writes into the file of the handle, at an address
of the other file; the record itself keeps its data. -/
theorem C139_overwrite (T : Table) (f p r t x : Nat) (l : Nat × Nat) (e : Ent) (hlf : l.1 ≠ f)
    (hE : entry T f p r = some (l, e)) (hl : live e = true) (ht : ∀ a, live ⟨t, a, e.lng⟩ = true) :
    ∃ T', rewrite T f p r t e.lng x = some T' ∧ get T' f p r = get T f p r ∧
      (T' f).data e.addr = some x := by
  obtain ⟨T', h1, h2, h3⟩ := rewrite_same (t := t) (x := x) hE hl rfl
  have hlt : live { e with idtyp := t } = true := by simpa [live] using ht e.addr
  refine ⟨T', h1, ?_, ?_⟩
  · unfold get
    simp only [h2, hE]
    rw [if_neg (by simp [hlt]), if_neg (by simp [hl]), h3, if_neg hlf]
  · rw [h3]; simp

/-- The record of the first file is lost, that of the second is not changed. -/
theorem C139_overwrite_witness : ∃ T', rewrite two 0 1 0 1 10 999 = some T' ∧ get two 0 0 0 = some 100 ∧
    get T' 0 0 0 = some 999 ∧ get T' 0 1 0 = some 101 := by
  obtain ⟨T', h1, h2, h3⟩ := rewrite_same (T := two) (f := 0) (p := 1) (r := 0) (t := 1) (n := 10) (x := 999)
    (l := (1, 0)) (e := ⟨1, 2311, 10⟩) (by decide +kernel) (by decide) rfl
  refine ⟨T', h1, by decide +kernel, ?_, ?_⟩
  · have h := (by decide +kernel : (rewrite two 0 1 0 1 10 999).bind (fun T => get T 0 0 0) = some 999)
    rw [h1] at h; exact h
  · have h := (by decide +kernel : (rewrite two 0 1 0 1 10 999).bind (fun T => get T 0 1 0) = some 101)
    rw [h1] at h; exact h

/-- Deletion by a handle to a page of a linked file: the count of each of the two files differs from its
records, and if the other file has no other change, closing it does not save the deletion. -/
theorem C139_delete (T : Table) (f p r : Nat) (l : Nat × Nat) (e : Ent) (hlf : l.1 ≠ f)
    (hE : entry T f p r = some (l, e)) (hl : live e = true) (hf : Sound (T f)) (hg : Sound (T l.1)) :
    ∃ T', del T f p r = some T' ∧ (T' f).nrec ≠ liveCount (T' f) ∧ (T' l.1).nrec ≠ liveCount (T' l.1) ∧
      get T' f p r = none ∧ ((T l.1).modified = false → (close (T' l.1)).saved = (T l.1).saved) := by
  obtain ⟨h1, g, hgp, he⟩ := entry_parts hE
  have hr : r < g.ents.length := (List.getElem?_eq_some_iff.mp he).1
  have hcnt := liveCount_setEnt (F := T l.1) { e with idtyp := 254 } hgp he
  rw [hl, live_254] at hcnt
  unfold del
  simp only [hE]
  rw [if_neg (by simp [hl])]
  refine ⟨_, rfl, ?_, ?_, ?_, ?_⟩
  · simp only [setFile, Function.update_self, Function.update_of_ne (Ne.symm hlf)]
    show (T f).nrec - 1 ≠ liveCount (T f)
    rw [hf.count]; omega
  · simp only [setFile, Function.update_of_ne hlf, Function.update_self]
    show (T l.1).nrec ≠ _
    rw [hcnt, hg.count]; simp; omega
  · have : entry (setFile (setFile T l.1 (setEnt (T l.1) l.2 r { e with idtyp := 254 })) f
        { (setFile T l.1 (setEnt (T l.1) l.2 r { e with idtyp := 254 })) f with
          neff := ((setFile T l.1 (setEnt (T l.1) l.2 r { e with idtyp := 254 })) f).neff + 1,
          nrec := ((setFile T l.1 (setEnt (T l.1) l.2 r { e with idtyp := 254 })) f).nrec - 1,
          modified := true }) f p r = some (l, { e with idtyp := 254 }) := by
      refine entry_of (g := { ents := g.ents.set r { e with idtyp := 254 }, modified := true }) ?_ ?_ (by simp [hr])
      · rw [pageOf_congr (T := T) _ _ _ f p]
        · exact h1
        all_goals
          intro i
          by_cases hf : i = f <;> by_cases hi : i = l.1 <;> by_cases hfl : f = l.1 <;>
            simp_all [setFile, setEnt, Function.update_apply]
      · simp [setFile, setEnt, hlf, hgp]
    simp [get, this, live_254]
  · intro hm
    simp only [setFile, Function.update_of_ne hlf, Function.update_self, close, setEnt]
    rw [if_neg (by simp [hm])]

example : ∃ T', del two 0 1 0 = some T' ∧ (T' 0).nrec ≠ liveCount (T' 0) ∧ (T' 1).nrec ≠ liveCount (T' 1) ∧
    get T' 0 1 0 = none ∧ ((two 1).modified = false → (close (T' 1)).saved = (two 1).saved) :=
  C139_delete two 0 1 0 (1, 0) ⟨1, 2311, 10⟩ (by decide) (by decide +kernel) (by decide) (two_sound 0)
    (two_sound 1)

theorem walk_none (T : Table) (n : Nat) : walk T n none = none := by
  induction n with
  | zero => rfl
  | succ n ih => simp [walk, ih]

/-- A page added to a linked file: no handle leads to the linked files any more. -/
theorem C139_growth (T : Table) (f t n x p : Nat) (g : Pg) (hg : (T f).pages.getLast? = some g)
    (hfull : perPage ≤ g.ents.length) (hp : (put T f t n x f).pages.length ≤ p) :
    pageOf (put T f t n x) f p = none := by
  have htail : (put T f t n x f).tail = none := by
    simp only [put, setFile, Function.update_self, append, room, hg]
    rw [if_neg (by omega)]
    rfl
  have hne : (put T f t n x f).pages ≠ [] := by
    simp only [put, setFile, Function.update_self, append, room, hg]
    rw [if_neg (by omega)]
    intro h0
    have := congrArg List.length h0
    simp [addPage] at this
  unfold pageOf
  rw [if_neg (by omega)]
  by_cases hc : (put T f t n x f).link = false ∨ (put T f t n x f).pages = []
  · rw [if_pos hc]
  · rw [if_neg hc]
    have hpos := List.length_pos_of_ne_nil hne
    simp only [walk, Option.bind_some, nextPage]
    rw [if_neg (by omega), htail]
    simp [walk_none]

/-- A full page linked to another file: before the addition handle (0, 1) leads to the second file. -/
def full : Table := fun i =>
  if i = 0 then { two 0 with pages := [{ ents := List.replicate 256 ⟨1, 2311, 10⟩, modified := false }] }
  else two i

example : pageOf full 0 1 = some (1, 0) ∧ pageOf (put full 0 1 5 7) 0 2 = none ∧
    pageOf (put full 0 1 5 7) 0 1 = some (0, 1) := by
  refine ⟨by decide +kernel, ?_, by decide +kernel⟩
  exact C139_growth full 0 1 5 7 2 { ents := List.replicate 256 ⟨1, 2311, 10⟩, modified := false }
    (by decide +kernel) (by decide +kernel) (by decide +kernel)

/-- C139.  Special records (type 0) and deleted records (type 126, 127, 254 or 255) are neither deleted nor read; every
other record can be deleted. -/
theorem C139_special (T : Table) (f p r : Nat) (l : Nat × Nat) (e : Ent) (h : entry T f p r = some (l, e)) (hb : e.idtyp < 256) :
    (del T f p r = none ↔ e.idtyp = 0 ∨ e.idtyp = 126 ∨ e.idtyp = 127 ∨ e.idtyp = 254 ∨ e.idtyp = 255) ∧
    (e.idtyp = 0 ∨ e.idtyp = 126 ∨ e.idtyp = 127 ∨ e.idtyp = 254 ∨ e.idtyp = 255 → get T f p r = none) := by
  have hl : live e = false ↔ e.idtyp = 0 ∨ e.idtyp = 126 ∨ e.idtyp = 127 ∨ e.idtyp = 254 ∨ e.idtyp = 255 := by
    have hall : ∀ k < 256, ((k != 0 && k &&& 0x7E != 0x7E) = false ↔ k = 0 ∨ k = 126 ∨ k = 127 ∨ k = 254 ∨ k = 255) := by
      decide +kernel
    exact hall _ hb
  rw [← hl]
  unfold del get
  rw [h]
  by_cases hv : live e = false <;> simp [hv]

end Verif.LinkEdit
