import Verif.XdfSearchLemmas
import Verif.Props.Xdf

/-! # Properties C19, C28 and the search part of C20

Handles are given by their page and record numbers (C15 relates them to the integers).  `fuel` bounds
the pages visited by one search and `n` the searches of a sweep; the theorems hold for all large
enough bounds, hence for the unbounded loops of the code. -/

namespace Verif.Xdf

/-- The file table with one file that is not linked. -/
def alone (m : Mem) : Table := [⟨m.pages, none, none⟩]

theorem alone_chain (m : Mem) (h : m.pages ≠ []) :
    Chain (alone m) (some (0, 0)) ((List.range m.pages.length).map fun p => (0, p)) := by
  have := chain_linked (T := alone m) (a := 0) (fs := []) ⟨_, rfl, h, rfl⟩
  simpa [ownPages, alone] using this

theorem rest_of_chain {T : Table} {t : Criteria} {l : Loc} {ls : List Loc} {fuel k : Nat}
    (h : Chain T (some l) ls) (hf : ls.length ≤ fuel) : Rest T t fuel ⟨some l, k, 0⟩ (hits T t k ls) := by
  cases h with
  | cons hp hc =>
    rename_i ls pg
    refine ⟨l, ls, pg, rfl, hp, hc, by simp only [List.length_cons] at hf; omega, ?_⟩
    rw [hits, hp]; rfl

theorem hits_length (T : Table) (t : Criteria) (k : Nat) (ls : List Loc)
    (hp : ∀ l ∈ ls, ∀ pg, pageAt T l = some pg → pg.nent ≤ 256) : (hits T t k ls).length ≤ 256 * ls.length := by
  induction ls generalizing k with
  | nil => simp [hits]
  | cons l ls ih =>
    have := ih (k + 1) (fun x hx => hp x (List.mem_cons_of_mem _ hx))
    rw [hits, List.length_append, List.length_cons]
    cases hpg : pageAt T l with
    | none => simp only [Option.elim_none, List.length_nil]; omega
    | some pg =>
      have hn := hp l (by simp) pg hpg
      have hle : (pageHits t k pg 0).length ≤ pg.nent := by
        simp only [pageHits, List.length_map]
        refine Nat.le_trans (List.length_filter_le _ _) ?_
        simp
      simp only [Option.elim_some]
      omega

/-- The records a search with target `tk` and mask `mk` on the keys should find. -/
def Selected (m : Mem) (d : Disk) (tk mk : List W) (filter : Nat → Nat → Bool) (p r : Nat) : Prop :=
  HasSlot m p r ∧ (∃ ty keys data, look m d p r = some (ty, keys, data) ∧
    FstKeys.wordsMatch keys tk mk = true) ∧ filter p r = true

theorem alone_mem {lprm : Nat} {ops : List Op} {m : Mem} {d : Disk} {cs : List Code}
    (h : History lprm ops m d cs) (t0 t1 : W) (tk mk : List W) (filter : Nat → Nat → Bool) (p r : Nat) :
    (p, r) ∈ hits (alone m) ⟨t0 :: t1 :: tk, 0#32 :: 0#32 :: mk, filter⟩ 0
        ((List.range m.pages.length).map fun p => (0, p)) ↔ Selected m d tk mk filter p r := by
  obtain ⟨-, -, hw, hnp, own, hi⟩ := h.inv
  rw [mem_hits]
  have hent : ∀ (pg : Page) (e : Entry), m.pages[p]? = some pg → pg.entries[r]? = some e → r < pg.nent →
      (accepts ⟨t0 :: t1 :: tk, 0#32 :: 0#32 :: mk, filter⟩ p r e = true ↔
        (∃ ty keys data, look m d p r = some (ty, keys, data) ∧ FstKeys.wordsMatch keys tk mk = true) ∧
          filter p r = true) := by
    intro pg e hp he hn
    have hne := hi.pnent p pg hp
    have hr : r < 256 := by omega
    have hlt : 256 * p + r < (expected ops).slots.length := by omega
    have hsl := hi.ents p r pg e _ hp he (List.getElem?_eq_getElem hlt)
    rw [hi.look hnp hr hlt]
    simp only [accepts, Entry.words, FstKeys.wordsMatch, Bool.and_eq_true, decide_eq_true_eq]
    cases hc : (expected ops).slots[256 * p + r] with
    | pending => exact absurd (by rw [List.getElem?_eq_getElem hlt, hc]) (hnp (256 * p + r))
    | dead =>
      rw [hc] at hsl
      have : ¬ e.idtyp < 127 := by rcases hsl.1 with h | h <;> omega
      simp [Slot.seen, this]
    | live ty pl =>
      rw [hc] at hsl
      obtain ⟨⟨h1, h2, h3, h4, h5, h6⟩, -⟩ := hsl
      have hty : e.idtyp < 127 := by omega
      have hex : ∀ (P : List W → Prop) (a : Nat) (b c : List W),
          (∃ ty keys data, some (a, b, c) = some (ty, keys, data) ∧ P keys) ↔ P b := by
        intro P a b c
        constructor
        · rintro ⟨_, _, _, h, hP⟩
          injection h with h; injection h with _ h; injection h with h _
          rw [h]; exact hP
        · exact fun hP => ⟨a, b, c, rfl, hP⟩
      simp only [Slot.seen]
      rw [hex (fun keys => FstKeys.wordsMatch keys tk mk = true)]
      simp [hty, h5]
  constructor
  · rintro ⟨i, l, pg, e, h1, h2, h3, h4, h5, h6⟩
    simp only [List.getElem?_map, Option.map_eq_some_iff] at h1
    obtain ⟨q, h1, rfl⟩ := h1
    have hq : q = i := by
      obtain ⟨hlt, h1⟩ := List.getElem?_eq_some_iff.1 h1
      simpa using h1.symm
    have hp : m.pages[p]? = some pg := by
      have : p = q := by simp only at h2; omega
      rw [this]; simpa [pageAt, alone] using h3
    have := (hent pg e hp h5 h4).1 h6
    have hne := hi.pnent p pg hp
    simp only at h4
    exact ⟨⟨by omega, by rw [hi.all.1]; omega⟩, this⟩
  · rintro ⟨⟨hr, hlt⟩, hs⟩
    rw [hi.all.1] at hlt
    obtain ⟨pg, e, hp, he, hn, -, -⟩ := hi.slot hr (List.getElem?_eq_getElem hlt)
    have hpl : p < m.pages.length := (List.getElem?_eq_some_iff.1 hp).1
    exact ⟨p, (0, p), pg, e, by simp [hpl], by simp, by simpa [pageAt, alone] using hp, hn, he,
      (hent pg e hp he hn).2 hs⟩

/-- **C19.** After any history of one file, `fstinf` and repeated `fstsui` return exactly the readable
records whose keys agree with the target under the mask (and pass the filter), in directory order,
each once, and then "not found".  `fstinl` stores the first `nmax` of them and returns 0 when that
is all of them, else minus their number. -/
theorem C19_sweep {lprm : Nat} {ops : List Op} {m : Mem} {d : Disk} {cs : List Code}
    (h : History lprm ops m d cs) (t0 t1 : W) (tk mk : List W) (filter : Nat → Nat → Bool)
    {fuel n : Nat} (hf : m.pages.length ≤ fuel) (hn : 256 * m.pages.length < n) :
    ∃ R, sweep (alone m) 0 ⟨t0 :: t1 :: tk, 0#32 :: 0#32 :: mk, filter⟩ fuel n = some (R, .notFound) ∧
      (R.Pairwise fun a b => a.1 < b.1 ∨ (a.1 = b.1 ∧ a.2 < b.2)) ∧
      (∀ p r, (p, r) ∈ R ↔ Selected m d tk mk filter p r) ∧
      ∀ nmax, 0 < nmax → fstinl (alone m) 0 ⟨t0 :: t1 :: tk, 0#32 :: 0#32 :: mk, filter⟩ fuel n nmax =
        some (R.take nmax, if R.length ≤ nmax then 0 else -(R.length : Int)) := by
  obtain ⟨-, -, hw, hnp, own, hi⟩ := h.inv
  have hne : m.pages ≠ [] := List.length_pos_iff.1 hi.np1
  have hrest := rest_of_chain (t := ⟨t0 :: t1 :: tk, 0#32 :: 0#32 :: mk, filter⟩) (k := 0) (fuel := fuel)
    (alone_chain m hne) (by simpa using hf)
  have hlen := hits_length (alone m) ⟨t0 :: t1 :: tk, 0#32 :: 0#32 :: mk, filter⟩ 0
    ((List.range m.pages.length).map fun p => (0, p)) (fun l hl pg hp => by
      obtain ⟨q, -, rfl⟩ := List.mem_map.1 hl
      have := hi.pnent q pg (by simpa [pageAt, alone] using hp)
      omega)
  simp only [List.length_map, List.length_range] at hlen
  exact ⟨_, sweep_spec hrest (by omega), hits_sorted _ _ _ _, alone_mem h t0 t1 tk mk filter,
    fun nmax hm => fstinl_spec hrest (by omega) hm⟩

theorem alone_hit {m : Mem} {t : Criteria} {fuel : Nat} {k r p j : Nat} {c : Cursor}
    (h : nextMatchLoop (alone m) t fuel (0, k) k r = some (.hit p j, c)) :
    c = ⟨some (0, p), p, j + 1⟩ ∧ p < m.pages.length := by
  induction fuel generalizing k r with
  | zero => simp [nextMatchLoop] at h
  | succ fuel ih =>
    rw [nextMatchLoop] at h
    cases hp : pageAt (alone m) (0, k) with
    | none => rw [hp] at h; simp at h
    | some pg =>
      rw [hp] at h
      simp only at h
      split at h
      · simp only [Option.some.injEq, Prod.mk.injEq, Found.hit.injEq] at h
        obtain ⟨⟨rfl, rfl⟩, rfl⟩ := h
        refine ⟨rfl, ?_⟩
        have : m.pages[k]? = some pg := by simpa [pageAt, alone] using hp
        exact (List.getElem?_eq_some_iff.1 this).1
      · split at h
        · simp at h
        · rename_i l hl
          have : l = (0, k + 1) := by
            simp only [nextPage, alone, List.getElem?_cons_zero, Option.map_none] at hl
            split at hl
            · simpa using hl.symm
            · simp at hl
          subst this
          exact ih h

/-- **C19 (resuming by handle).** On a file that is not linked, searching again from the handle of the
record just found (`fstinfx`) is the same as `fstsui`. -/
theorem C19_resume (m : Mem) (t : Criteria) (fuel : Nat) {k r p j : Nat} {c : Cursor} (curno : Option Nat)
    (h : nextMatch (alone m) t fuel ⟨some (0, k), k, r⟩ = some (.hit p j, c)) :
    locAfter (alone m) 0 t fuel curno p j = locNext (alone m) t fuel c := by
  obtain ⟨rfl, hp⟩ := alone_hit h
  unfold locAfter
  simp only [alone, List.getElem?_cons_zero]
  rw [if_pos hp]
  rfl

theorem History.del {lprm : Nat} {ops : List Op} {m m' : Mem} {d : Disk} {cs : List Code} {p r : Nat} {c : Code}
    (h : History lprm ops m d cs) (hs : HasSlot m p r) (hd : Xdf.del m p r = some (m', [], c)) :
    History lprm (ops ++ [.del p r]) m' d (cs ++ [c]) := by
  obtain ⟨-, -, -, -, own, hi⟩ := h.inv
  obtain ⟨sign, nprm, auxw, keys, res3, junk, m0, ws0, c0, hv, hc, hvr, hr⟩ := h.ex
  refine ⟨sign, nprm, auxw, keys, res3, junk, m0, ws0, c0, hv, hc, ?_, ?_⟩
  · rw [validRun_append]
    refine ⟨hvr, ⟨hs.1, ?_⟩, trivial⟩
    have := hs.2
    rw [hi.all.1] at this
    exact this
  · rw [runs_append, hr]
    simp [run, step, hd, apply]

/-- **C20 (search part).** After the deletion of record `(p, r)`, every search finds what it found
before except that record. -/
theorem C20_not_found {lprm : Nat} {ops : List Op} {m m' : Mem} {d : Disk} {cs : List Code} {p r : Nat}
    (h : History lprm ops m d cs) (hs : HasSlot m p r) (hl : look m d p r ≠ none)
    (hd : del m p r = some (m', [], .ok))
    (hm : m.hdr.rwflg ≠ RDMODE) (hm2 : m.hdr.rwflg ≠ APPEND) (t0 t1 : W) (tk mk : List W)
    (filter : Nat → Nat → Bool) {fuel n : Nat} (hf : m.pages.length ≤ fuel) (hn : 256 * m.pages.length < n)
    (hf' : m'.pages.length ≤ fuel) (hn' : 256 * m'.pages.length < n) :
    ∃ R R', sweep (alone m) 0 ⟨t0 :: t1 :: tk, 0#32 :: 0#32 :: mk, filter⟩ fuel n = some (R, .notFound) ∧
      sweep (alone m') 0 ⟨t0 :: t1 :: tk, 0#32 :: 0#32 :: mk, filter⟩ fuel n = some (R', .notFound) ∧
      ∀ x, x ∈ R' ↔ x ∈ R ∧ x ≠ (p, r) := by
  have h' := h.del hs hd
  obtain ⟨R, h1, -, h2, -⟩ := C19_sweep h t0 t1 tk mk filter hf hn
  obtain ⟨R', h1', -, h2', -⟩ := C19_sweep h' t0 t1 tk mk filter hf' hn'
  refine ⟨R, R', h1, h1', fun x => ?_⟩
  obtain ⟨p', r'⟩ := x
  rw [h2, h2']
  obtain ⟨m1, g1, g2, -, -, -, g3, g4⟩ := C20_delete h hs hl hm hm2
  rw [hd] at g1
  simp only [Option.some.injEq, Prod.mk.injEq, and_true] at g1
  subst g1
  have hsl : HasSlot m' p' r' ↔ HasSlot m p' r' := by simp [HasSlot, g3]
  unfold Selected
  rw [hsl]
  by_cases hc : p' = p ∧ r' = r
  · obtain ⟨rfl, rfl⟩ := hc
    constructor
    · rintro ⟨-, ⟨_, _, _, hx, -⟩, -⟩
      rw [g2] at hx; simp at hx
    · rintro ⟨-, hx⟩; simp at hx
  · constructor
    · rintro ⟨a, b, c⟩
      rw [g4 p' r' a (by have := a.1; have := hs.1; omega)] at b
      exact ⟨⟨a, b, c⟩, by simpa using hc⟩
    · rintro ⟨⟨a, b, c⟩, -⟩
      rw [← g4 p' r' a (by have := a.1; have := hs.1; omega)] at b
      exact ⟨a, b, c⟩

/-! ## C28 -/

/-- The page handles lead to is the one the search was at. -/
theorem pageOf_chain {T : Table} {a : Nat} {fs : List Nat} (h : Linked T (a :: fs)) (k : Nat) {l : Loc}
    (hk : ((a :: fs).flatMap (ownPages T))[k]? = some l) : pageOf T a k = some l := by
  have hc := chain_linked h
  obtain ⟨lf, h1, h2⟩ : ∃ lf, T[a]? = some lf ∧ (lf.link = none → fs = [] ∨ lf.link ≠ none) := by
    cases fs with
    | nil => obtain ⟨lf, h1, -, -⟩ := h; exact ⟨lf, h1, fun _ => Or.inl rfl⟩
    | cons b rest => obtain ⟨⟨lf, h1, _, _, h4⟩, -⟩ := h; exact ⟨lf, h1, fun _ => Or.inr (by simp [h4])⟩
  have hnil : lf.pages ≠ [] := by
    cases fs with
    | nil => obtain ⟨lf', h1', h2', -⟩ := h; rw [h1] at h1'; cases h1'; exact h2'
    | cons b rest => obtain ⟨⟨lf', h1', h2', _⟩, -⟩ := h; rw [h1] at h1'; cases h1'; exact h2'
  have hown : (a :: fs).flatMap (ownPages T) =
      (List.range lf.pages.length).map (fun p => (a, p)) ++ fs.flatMap (ownPages T) := by
    rw [List.flatMap_cons]; simp [ownPages, h1]
  have hget : ∀ q, q < lf.pages.length → ((a :: fs).flatMap (ownPages T))[q]? = some (a, q) := fun q hq => by
    rw [hown, List.getElem?_append_left (by simpa using hq)]; simp [hq]
  unfold pageOf
  rw [h1]
  simp only
  by_cases hlt : k < lf.pages.length
  · rw [if_pos hlt, ← hk, hget k hlt]
  · rw [if_neg hlt]
    have hlp : 0 < lf.pages.length := List.length_pos_iff.2 hnil
    have hlink : lf.link.isNone = false := by
      cases hl : lf.link with
      | some _ => rfl
      | none =>
        rcases h2 hl with rfl | h3
        · rw [hown] at hk
          have := (List.getElem?_eq_some_iff.1 hk).1
          simp at this; omega
        · exact absurd hl h3
    rw [hlink, if_neg (by simp), ← hk, ← chain_get hc k]
    have hw := chain_get hc (lf.pages.length - 1)
    rw [hget _ (by omega)] at hw
    rw [← hw, ← walk_add]
    congr 1; omega

theorem own_nodup {T : Table} {fs : List Nat} (h : fs.Nodup) : (fs.flatMap (ownPages T)).Nodup := by
  induction fs with
  | nil => simp
  | cons a fs ih =>
    obtain ⟨h1, h2⟩ := List.nodup_cons.1 h
    have hfst : ∀ b, ∀ x ∈ ownPages T b, x.1 = b := by
      intro b x hx
      unfold ownPages at hx
      cases hb : T[b]? with
      | none => rw [hb] at hx; simp at hx
      | some lf =>
        rw [hb] at hx
        simp only [Option.elim_some, List.mem_map] at hx
        obtain ⟨_, _, rfl⟩ := hx
        rfl
    rw [List.flatMap_cons, List.nodup_append]
    refine ⟨?_, ih h2, ?_⟩
    · unfold ownPages
      cases hb : T[a]? with
      | none => simp
      | some lf =>
        simp only [Option.elim_some, List.Nodup]
        rw [List.pairwise_map]
        exact (List.nodup_range (n := lf.pages.length)).imp (fun hab hc => hab (by injection hc))
    · intro x hx y hy hxy
      obtain ⟨b, hb, hy⟩ := List.mem_flatMap.1 hy
      apply h1
      rw [← hfst a x hx, hxy, hfst b y hy]
      exact hb

/-- **C28.** Distinct open files, the last of which is not linked further, are linked by `fstlnk`.  A
sweep over the first unit ends with "not found" and returns, each once, exactly the matching
records of all the files: the handle of a returned record leads `c_xdfprm` and `c_xdfget2` to the
page and entry it was found in, and two returned handles never lead to the same page unless their
page numbers are equal. -/
theorem C28_linked_sweep {T : Table} {a : Nat} {fs : List Nat} (hnd : (a :: fs).Nodup)
    (hp : ∀ x ∈ a :: fs, ∃ lf, T[x]? = some lf ∧ lf.pages ≠ [])
    (hlast : ∀ lf, T[(a :: fs).getLast (by simp)]? = some lf → lf.tail = none)
    (t : Criteria) (hfil : ∀ p r, t.filter p r = true) {fuel n : Nat}
    (h256 : ∀ lf ∈ T, ∀ pg ∈ lf.pages, pg.nent ≤ 256)
    (hf : ((a :: fs).flatMap (ownPages T)).length ≤ fuel)
    (hn : 256 * ((a :: fs).flatMap (ownPages T)).length ≤ n) :
    ∃ R, sweep (xdflnk T (a :: fs)) a t fuel n = some (R, .notFound) ∧ R.Nodup ∧
      (∀ k r, (k, r) ∈ R → ∃ f ∈ a :: fs, ∃ p, pageOf (xdflnk T (a :: fs)) a k = some (f, p)) ∧
      (∀ k k' r r' l, (k, r) ∈ R → (k', r') ∈ R → pageOf (xdflnk T (a :: fs)) a k = some l →
        pageOf (xdflnk T (a :: fs)) a k' = some l → k = k') ∧
      ∀ f ∈ a :: fs, ∀ lf p pg r, T[f]? = some lf → lf.pages[p]? = some pg →
        ((∃ k, (k, r) ∈ R ∧ pageOf (xdflnk T (a :: fs)) a k = some (f, p)) ↔
          r < pg.nent ∧ ∃ e, pg.entries[r]? = some e ∧ e.idtyp < 127 ∧
            FstKeys.wordsMatch e.words t.words t.mask = true) := by
  obtain ⟨hl, hpg⟩ := xdflnk_linked hnd hp hlast
  have hown : ∀ x, ownPages (xdflnk T (a :: fs)) x = ownPages T x := by
    intro x
    have := hpg x
    unfold ownPages
    cases h1 : (xdflnk T (a :: fs))[x]? <;> cases h2 : T[x]? <;> rw [h1, h2] at this
    · simp at this
    · simp at this
    · simp only [Option.map_some, Option.some.injEq] at this
      simp [this]
  have hownf : (a :: fs).flatMap (ownPages (xdflnk T (a :: fs))) = (a :: fs).flatMap (ownPages T) := by
    congr 1; funext x; exact hown x
  have hat : ∀ f lf p, T[f]? = some lf → pageAt (xdflnk T (a :: fs)) (f, p) = lf.pages[p]? := by
    intro f lf p h1
    have := hpg f
    rw [h1] at this
    cases h2 : (xdflnk T (a :: fs))[f]? with
    | none => rw [h2] at this; simp at this
    | some lf' =>
      rw [h2] at this
      simp only [Option.map_some, Option.some.injEq] at this
      simp [pageAt, h2, this]
  have hlen := hits_length (xdflnk T (a :: fs)) t 0 ((a :: fs).flatMap (ownPages T)) (fun l _ pg hpl => by
    obtain ⟨f, p⟩ := l
    cases h1 : T[f]? with
    | none =>
      have := hpg f
      rw [h1] at this
      simp only [Option.map_none, Option.map_eq_none_iff] at this
      simp [pageAt, this] at hpl
    | some lf =>
      rw [hat f lf p h1] at hpl
      exact h256 lf (List.mem_of_getElem? h1) pg (List.mem_of_getElem? hpl))
  have hc := chain_linked hl
  have hof : ∀ k l, ((a :: fs).flatMap (ownPages T))[k]? = some l →
      pageOf (xdflnk T (a :: fs)) a k = some l := fun k l hk =>
    pageOf_chain hl k (by rw [hownf]; exact hk)
  rw [hownf] at hc
  generalize hT : xdflnk T (a :: fs) = T' at *
  generalize hL : (a :: fs).flatMap (ownPages T) = L at *
  have hLnd : L.Nodup := by rw [← hL]; exact own_nodup hnd
  have hmemk : ∀ k r, (k, r) ∈ hits T' t 0 L → ∃ l, L[k]? = some l := by
    intro k r hk
    obtain ⟨i, l, pg, e, h1, h2, -⟩ := mem_hits.1 hk
    exact ⟨l, by rw [show k = i by simpa using h2]; exact h1⟩
  refine ⟨_, sweep_spec (rest_of_chain hc hf) (by omega), ?_, ?_, ?_, ?_⟩
  · refine (hits_sorted T' t 0 L).imp ?_
    rintro x y hxy rfl
    omega
  · intro k r hk
    obtain ⟨l, hl'⟩ := hmemk k r hk
    have hm : l ∈ L := List.mem_of_getElem? hl'
    rw [← hL] at hm
    obtain ⟨f, hf1, hf2⟩ := List.mem_flatMap.1 hm
    have : ∃ p, l = (f, p) := by
      unfold ownPages at hf2
      cases hb : T[f]? with
      | none => rw [hb] at hf2; simp at hf2
      | some lf =>
        rw [hb] at hf2
        simp only [Option.elim_some, List.mem_map] at hf2
        obtain ⟨p, -, rfl⟩ := hf2
        exact ⟨p, rfl⟩
    obtain ⟨p, rfl⟩ := this
    exact ⟨f, hf1, p, hof k _ hl'⟩
  · intro k k' r r' l hk hk' h1 h2
    obtain ⟨l1, g1⟩ := hmemk k r hk
    obtain ⟨l2, g2⟩ := hmemk k' r' hk'
    rw [hof k _ g1] at h1
    rw [hof k' _ g2] at h2
    obtain ⟨q1, e1⟩ := List.getElem?_eq_some_iff.1 g1
    obtain ⟨q2, e2⟩ := List.getElem?_eq_some_iff.1 g2
    have : L[k] = L[k'] := by
      rw [e1, e2]; exact Option.some.inj (h1.trans h2.symm)
    have hpw := List.pairwise_iff_getElem.1 hLnd
    rcases Nat.lt_trichotomy k k' with hlt | heq | hgt
    · exact absurd this (hpw k k' q1 q2 hlt)
    · exact heq
    · exact absurd this.symm (hpw k' k q2 q1 hgt)
  · intro f hfm lf p pg r h1 h2
    have hloc : (f, p) ∈ L := by
      rw [← hL]
      refine List.mem_flatMap.2 ⟨f, hfm, ?_⟩
      have : p < lf.pages.length := (List.getElem?_eq_some_iff.1 h2).1
      simp [ownPages, h1, this]
    have hpa := (hat f lf p h1).trans h2
    constructor
    · rintro ⟨k, hk, hko⟩
      obtain ⟨i, l, pg', e, g1, g2, g3, g4, g5, g6⟩ := mem_hits.1 hk
      have hki : k = i := by simpa using g2
      have : l = (f, p) := by
        rw [hof k l (by rw [hki]; exact g1)] at hko
        exact Option.some.inj hko
      subst this
      rw [hpa] at g3
      cases g3
      simp only [accepts, Bool.and_eq_true, decide_eq_true_eq] at g6
      exact ⟨g4, e, g5, g6.1.1, g6.1.2⟩
    · rintro ⟨hn, e, he, hty, hm⟩
      obtain ⟨k, hk, hkk⟩ := List.mem_iff_getElem.1 hloc
      have hg : L[k]? = some (f, p) := by rw [List.getElem?_eq_getElem hk, hkk]
      refine ⟨k, mem_hits.2 ⟨k, (f, p), pg, e, hg, by simp, hpa, hn, he, ?_⟩, hof k _ hg⟩
      simp [accepts, hty, hm, hfil]

/-! ## Concrete cases -/

namespace SearchExample

def entry (t : Nat) (x : W) : Entry := ⟨t, 2, 1, [x, 0#32]⟩

def page (es : List Entry) : Page :=
  { w0 := 0#32, addr := 1, res1 := 0#32, res2 := 0#32, nxtAddr := 0, nent := es.length, chksum := 0#32,
    res3 := 0#32, entries := es, modified := false }

/-- One file with one page, another with three. -/
def table : Table := [⟨[page [entry 1 5#32, entry 255 5#32, entry 1 5#32]], none, none⟩,
  ⟨[page [entry 1 6#32], page [entry 1 5#32], page [entry 1 5#32]], none, none⟩]

def crit : Criteria := ⟨[0#32, 0#32, 5#32, 0#32], [0#32, 0#32, 0xFFFFFFFF#32, 0#32], fun _ _ => true⟩

/-- The hypotheses of `C28_linked_sweep` are met, and the sweep finds four records. -/
example : ([0, 1] : List Nat).Nodup ∧ (∀ x ∈ [0, 1], ∃ lf, table[x]? = some lf ∧ lf.pages ≠ []) ∧
    (∀ lf, table[([0, 1] : List Nat).getLast (by simp)]? = some lf → lf.tail = none) ∧
    (∀ lf ∈ table, ∀ pg ∈ lf.pages, pg.nent ≤ 256) ∧
    sweep (xdflnk table [0, 1]) 0 crit 4 10 = some ([(0, 0), (0, 2), (2, 0), (3, 0)], .notFound) := by
  refine ⟨by decide, ?_, ?_, by decide, by decide⟩
  · intro x hx
    rcases List.mem_cons.1 hx with rfl | hx
    · exact ⟨_, rfl, by simp⟩
    · rw [List.mem_singleton] at hx
      subst hx
      exact ⟨_, rfl, by simp⟩
  · intro lf hlf
    simp [table] at hlf
    rw [← hlf]

/-- The hypotheses of `C19_resume`. -/
example : nextMatch (table.take 1) crit 3 ⟨some (0, 0), 0, 1⟩ = some (.hit 0 2, ⟨some (0, 0), 0, 3⟩) := rfl

/-- Resuming a search by handle does not work across linked files: from the third page of the linked
files on, the search goes back and finds the same record again and again; in the page of a linked
file that is the current one, it uses a pointer that is not set. -/
theorem C28_resume_witness :
    (∃ c, locAfter (xdflnk table [0, 1]) 0 crit 4 none 3 0 = some (.hit 3 0, c)) ∧
    locAfter (xdflnk table [0, 1]) 0 crit 4 (some 2) 2 0 = none := ⟨⟨_, rfl⟩, rfl⟩

/-- The hypotheses of `C19_sweep` on the history of the examples of C21: one record of key 8. -/
example : (Example.start (Example.base ++ Example.more)).any (fun x =>
    sweep (alone x.1) 0 ⟨[0#32, 0#32, 0#32, 8#32], [0#32, 0#32, 0#32, 0xFF#32], fun _ _ => true⟩ 1 257 ==
      some ([(0, 2)], .notFound)) = true := by decide +kernel

end SearchExample

end Verif.Xdf
