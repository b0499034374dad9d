import Verif.XdfSearch
/-! Lemmas on searches: what a sweep returns, and the chain of pages of linked files. -/

namespace Verif.Xdf

/-- Records of a page found by a search, from record `r` on. -/
def pageHits (t : Criteria) (k : Nat) (pg : Page) (r : Nat) : List (Nat × Nat) :=
  ((List.range' r (pg.nent - r)).filter fun j => (pg.entries[j]?).any (accepts t k j)).map fun j => (k, j)

/-- Records found in a list of pages, the first of which is known as page `k`. -/
def hits (T : Table) (t : Criteria) : Nat → List Loc → List (Nat × Nat)
  | _, [] => []
  | k, l :: ls => ((pageAt T l).elim [] fun pg => pageHits t k pg 0) ++ hits T t (k + 1) ls

/-- The pages met by following `next_page`. -/
inductive Chain (T : Table) : Option Loc → List Loc → Prop
  | nil : Chain T none []
  | cons {l : Loc} {ls : List Loc} {pg : Page} : pageAt T l = some pg → Chain T (nextPage T l) ls →
      Chain T (some l) (l :: ls)

theorem scan_none {t : Criteria} {k : Nat} {pg : Page} {r n : Nat} (h : scan t k pg r n = none) :
    (List.range' r n).filter (fun j => (pg.entries[j]?).any (accepts t k j)) = [] := by
  induction n generalizing r with
  | zero => rfl
  | succ n ih =>
    rw [scan] at h
    split at h
    · simp at h
    · rename_i hn
      rw [List.range'_succ, List.filter_cons, if_neg hn, ih h]

theorem scan_some {t : Criteria} {k : Nat} {pg : Page} {r n j : Nat} (h : scan t k pg r n = some j) :
    (List.range' r n).filter (fun j => (pg.entries[j]?).any (accepts t k j)) =
      j :: (List.range' (j + 1) (r + n - (j + 1))).filter (fun j => (pg.entries[j]?).any (accepts t k j)) ∧
    r ≤ j ∧ j < r + n := by
  induction n generalizing r with
  | zero => simp [scan] at h
  | succ n ih =>
    rw [scan] at h
    split at h
    · rename_i hn
      simp only [Option.some.injEq] at h
      subst h
      rw [List.range'_succ, List.filter_cons, if_pos hn, show r + (n + 1) - (r + 1) = n by omega]
      exact ⟨rfl, by omega, by omega⟩
    · rename_i hn
      obtain ⟨h1, h2, h3⟩ := ih h
      rw [List.range'_succ, List.filter_cons, if_neg hn, h1,
        show r + 1 + n - (j + 1) = r + (n + 1) - (j + 1) by omega]
      exact ⟨rfl, by omega, by omega⟩

/-- `R` is what is left to be found from the position `c`. -/
def Rest (T : Table) (t : Criteria) (fuel : Nat) (c : Cursor) (R : List (Nat × Nat)) : Prop :=
  ∃ l ls pg, c.page = some l ∧ pageAt T l = some pg ∧ Chain T (nextPage T l) ls ∧ ls.length < fuel ∧
    R = pageHits t c.pageno pg c.record ++ hits T t (c.pageno + 1) ls

theorem loop_spec {T : Table} {t : Criteria} {fuel : Nat} {l : Loc} {ls : List Loc} {pg : Page} {k r : Nat}
    (hp : pageAt T l = some pg) (hc : Chain T (nextPage T l) ls) (hf : ls.length < fuel) {fuel0 : Nat}
    (hf0 : fuel ≤ fuel0) :
    match pageHits t k pg r ++ hits T t (k + 1) ls with
    | [] => ∃ k', nextMatchLoop T t fuel l k r = some (.notFound, ⟨none, k', 0⟩)
    | x :: R => ∃ c', nextMatchLoop T t fuel l k r = some (.hit x.1 x.2, c') ∧ Rest T t fuel0 c' R := by
  induction ls generalizing fuel l pg k r with
  | nil =>
    obtain ⟨fuel, rfl⟩ : ∃ n, fuel = n + 1 := ⟨fuel - 1, by omega⟩
    rw [nextMatchLoop, hp]
    simp only
    cases hs : scan t k pg r (pg.nent - r) with
    | none =>
      rw [pageHits, scan_none hs]
      simp only [List.map_nil, hits, List.append_nil]
      generalize hnp : nextPage T l = nx at hc
      cases hc
      exact ⟨k, rfl⟩
    | some j =>
      obtain ⟨h1, h2, h3⟩ := scan_some hs
      rw [pageHits, h1]
      simp only [List.map_cons, List.cons_append]
      refine ⟨_, rfl, l, [], pg, rfl, hp, hc, by simpa using (by omega : 0 < fuel0), ?_⟩
      rw [pageHits, show pg.nent - (j + 1) = r + (pg.nent - r) - (j + 1) by omega]
  | cons l2 ls ih =>
    obtain ⟨fuel, rfl⟩ : ∃ n, fuel = n + 1 := ⟨fuel - 1, by omega⟩
    rw [nextMatchLoop, hp]
    simp only
    cases hs : scan t k pg r (pg.nent - r) with
    | none =>
      rw [pageHits, scan_none hs]
      simp only [List.map_nil, List.nil_append]
      generalize hnp : nextPage T l = nx at hc
      cases hc with
      | cons hp2 hc2 =>
        rw [hits, hp2]
        simp only [Option.elim_some]
        exact ih hp2 hc2 (by simpa using hf) (by omega)
    | some j =>
      obtain ⟨h1, h2, h3⟩ := scan_some hs
      rw [pageHits, h1]
      simp only [List.map_cons, List.cons_append]
      refine ⟨_, rfl, l, l2 :: ls, pg, rfl, hp, hc, by omega, ?_⟩
      rw [pageHits, show pg.nent - (j + 1) = r + (pg.nent - r) - (j + 1) by omega]

theorem next_nil {T : Table} {t : Criteria} {fuel : Nat} {c : Cursor} (h : Rest T t fuel c []) :
    ∃ k', nextMatch T t fuel c = some (.notFound, ⟨none, k', 0⟩) := by
  obtain ⟨l, ls, pg, h1, h2, h3, h4, h5⟩ := h
  have := loop_spec (t := t) (k := c.pageno) (r := c.record) h2 h3 h4 (Nat.le_refl _)
  rw [← h5] at this
  rw [nextMatch, h1]
  exact this

theorem next_cons {T : Table} {t : Criteria} {fuel : Nat} {c : Cursor} {x : Nat × Nat} {R : List (Nat × Nat)}
    (h : Rest T t fuel c (x :: R)) :
    ∃ c', nextMatch T t fuel c = some (.hit x.1 x.2, c') ∧ Rest T t fuel c' R := by
  obtain ⟨l, ls, pg, h1, h2, h3, h4, h5⟩ := h
  have := loop_spec (t := t) (k := c.pageno) (r := c.record) h2 h3 h4 (Nat.le_refl _)
  rw [← h5] at this
  rw [nextMatch, h1]
  exact this

theorem sweepFrom_spec {T : Table} {t : Criteria} {fuel n : Nat} {c : Cursor} {R : List (Nat × Nat)}
    (h : Rest T t fuel c R) (hn : R.length < n) : sweepFrom T t fuel n c = some (R, .notFound) := by
  induction R generalizing c n with
  | nil =>
    obtain ⟨n, rfl⟩ : ∃ k, n = k + 1 := ⟨n - 1, by omega⟩
    obtain ⟨k', hk⟩ := next_nil h
    simp [sweepFrom, locNext, hk]
  | cons x R ih =>
    obtain ⟨n, rfl⟩ : ∃ k, n = k + 1 := ⟨n - 1, by omega⟩
    obtain ⟨c', hc, hr⟩ := next_cons h
    simp only [List.length_cons] at hn
    have := ih (n := n) hr (by omega)
    simp [sweepFrom, locNext, hc, this]

theorem sweep_spec {T : Table} {t : Criteria} {f fuel n : Nat} {R : List (Nat × Nat)}
    (h : Rest T t fuel ⟨some (f, 0), 0, 0⟩ R) (hn : R.length ≤ n) :
    sweep T f t fuel n = some (R, .notFound) := by
  have : sweep T f t fuel n = sweepFrom T t fuel (n + 1) ⟨some (f, 0), 0, 0⟩ := rfl
  rw [this, sweepFrom_spec h (by omega)]

/-- After the end every further `fstsui` fails. -/
theorem count_end {T : Table} {t : Criteria} {fuel n k : Nat} (hn : 0 < n) :
    inlCount T t fuel n ⟨none, k, 0⟩ = some 0 := by
  obtain ⟨n, rfl⟩ : ∃ j, n = j + 1 := ⟨n - 1, by omega⟩
  rfl

theorem count_spec {T : Table} {t : Criteria} {fuel n : Nat} {c : Cursor} {R : List (Nat × Nat)}
    (h : Rest T t fuel c R) (hn : R.length < n) : inlCount T t fuel n c = some R.length := by
  induction R generalizing c n with
  | nil =>
    obtain ⟨n, rfl⟩ : ∃ k, n = k + 1 := ⟨n - 1, by omega⟩
    obtain ⟨k', hk⟩ := next_nil h
    simp [inlCount, locNext, hk]
  | cons x R ih =>
    obtain ⟨n, rfl⟩ : ∃ k, n = k + 1 := ⟨n - 1, by omega⟩
    obtain ⟨c', hc, hr⟩ := next_cons h
    simp only [List.length_cons] at hn
    have := ih (n := n) hr (by omega)
    simp [inlCount, locNext, hc, this]

/-- The storing loop, then the counting loop. -/
theorem store_spec {T : Table} {t : Criteria} {fuel n room : Nat} {c : Cursor} {x : Nat × Nat}
    {R : List (Nat × Nat)} (hroom : 0 < room) (h : Rest T t fuel c R) (hn : R.length < n) :
    ∃ c', inlStore T t fuel room (.hit x.1 x.2, c) = some ((x :: R).take room, c') ∧
      inlCount T t fuel n c' = some ((x :: R).length - room) := by
  induction R generalizing c x room with
  | nil =>
    obtain ⟨room, rfl⟩ : ∃ k, room = k + 1 := ⟨room - 1, by omega⟩
    by_cases h0 : room = 0
    · subst h0
      exact ⟨c, by simp [inlStore], by rw [count_spec h hn]; simp⟩
    · obtain ⟨k', hk⟩ := next_nil h
      refine ⟨⟨none, k', 0⟩, ?_, by rw [count_end (by omega)]; simp only [List.length_cons, List.length_nil]; congr 1; omega⟩
      obtain ⟨room, rfl⟩ : ∃ k, room = k + 1 := ⟨room - 1, by omega⟩
      simp [inlStore, locNext, hk]
  | cons y R ih =>
    obtain ⟨room, rfl⟩ : ∃ k, room = k + 1 := ⟨room - 1, by omega⟩
    by_cases h0 : room = 0
    · subst h0
      exact ⟨c, by simp [inlStore], by rw [count_spec h hn]; simp⟩
    · obtain ⟨c1, hc, hr⟩ := next_cons h
      simp only [List.length_cons] at hn
      obtain ⟨c', g1, g2⟩ := ih (room := room) (x := y) (by omega) hr (by omega)
      refine ⟨c', ?_, by rw [g2]; simp only [List.length_cons]; congr 1; omega⟩
      simp [inlStore, h0, locNext, hc, g1]

theorem fstinl_spec {T : Table} {t : Criteria} {f fuel n nmax : Nat} {R : List (Nat × Nat)}
    (h : Rest T t fuel ⟨some (f, 0), 0, 0⟩ R) (hn : R.length < n) (hm : 0 < nmax) :
    fstinl T f t fuel n nmax =
      some (R.take nmax, if R.length ≤ nmax then 0 else -(R.length : Int)) := by
  unfold fstinl locFirst
  cases R with
  | nil =>
    obtain ⟨k', hk⟩ := next_nil h
    rw [hk]
    simp only
    obtain ⟨nmax, rfl⟩ : ∃ j, nmax = j + 1 := ⟨nmax - 1, by omega⟩
    rw [show inlStore T t fuel (nmax + 1) (.notFound, ⟨none, k', 0⟩) = some ([], ⟨none, k', 0⟩) by rfl]
    simp only
    rw [count_end (by omega)]
    simp
  | cons x R =>
    obtain ⟨c1, hc, hr⟩ := next_cons h
    rw [hc]
    simp only [List.length_cons] at hn
    obtain ⟨c', g1, g2⟩ := store_spec (x := x) (n := n) hm hr (by omega)
    simp only
    rw [g1]
    simp only
    rw [g2]
    simp only [List.length_take, List.length_cons]
    congr 2
    by_cases hle : R.length + 1 ≤ nmax
    · rw [if_neg (by omega), if_pos hle]
    · rw [if_pos (by omega), if_neg hle]
      congr 2; omega

/-! ## Membership -/

theorem mem_pageHits {t : Criteria} {k : Nat} {pg : Page} {r : Nat} {x : Nat × Nat} :
    x ∈ pageHits t k pg r ↔ x.1 = k ∧ r ≤ x.2 ∧ x.2 < pg.nent ∧
      ∃ e, pg.entries[x.2]? = some e ∧ accepts t k x.2 e = true := by
  simp only [pageHits, List.mem_map, List.mem_filter, List.mem_range'_1, Option.any_eq_true]
  constructor
  · rintro ⟨j, ⟨⟨h1, h2⟩, h3⟩, rfl⟩
    exact ⟨rfl, h1, by simp only; omega, h3⟩
  · rintro ⟨h1, h2, h3, h4⟩
    exact ⟨x.2, ⟨⟨h2, by omega⟩, h4⟩, by rw [← h1]⟩

theorem mem_hits {T : Table} {t : Criteria} {k : Nat} {ls : List Loc} {x : Nat × Nat} :
    x ∈ hits T t k ls ↔ ∃ i l pg e, ls[i]? = some l ∧ x.1 = k + i ∧ pageAt T l = some pg ∧
      x.2 < pg.nent ∧ pg.entries[x.2]? = some e ∧ accepts t x.1 x.2 e = true := by
  induction ls generalizing k with
  | nil => simp [hits]
  | cons l ls ih =>
    rw [hits, List.mem_append, ih]
    constructor
    · rintro (h | ⟨i, l', pg, e, h1, h2, h3, h4⟩)
      · cases hp : pageAt T l with
        | none => rw [hp] at h; simp at h
        | some pg =>
          rw [hp] at h
          obtain ⟨h1, -, h3, e, h4, h5⟩ := mem_pageHits.1 h
          exact ⟨0, l, pg, e, rfl, h1, hp, h3, h4, by rw [h1]; exact h5⟩
      · exact ⟨i + 1, l', pg, e, by simpa using h1, by omega, h3, h4⟩
    · rintro ⟨i, l', pg, e, h1, h2, h3, h4, h5, h6⟩
      cases i with
      | zero =>
        simp only [List.getElem?_cons_zero, Option.some.injEq] at h1
        subst h1
        left
        rw [h3]
        exact mem_pageHits.2 ⟨h2, by omega, h4, e, h5, by rw [← show x.1 = k from h2]; exact h6⟩
      | succ i =>
        right
        exact ⟨i, l', pg, e, by simpa using h1, by omega, h3, h4, h5, h6⟩

/-- Found records come in increasing order of page and record. -/
theorem hits_sorted (T : Table) (t : Criteria) (k : Nat) (ls : List Loc) :
    (hits T t k ls).Pairwise fun a b => a.1 < b.1 ∨ (a.1 = b.1 ∧ a.2 < b.2) := by
  induction ls generalizing k with
  | nil => simp [hits]
  | cons l ls ih =>
    rw [hits, List.pairwise_append]
    refine ⟨?_, ih _, ?_⟩
    · cases pageAt T l with
      | none => simp
      | some pg =>
        simp only [Option.elim_some, pageHits]
        rw [List.pairwise_map]
        refine ((List.pairwise_lt_range' (s := 0) (n := pg.nent - 0) (step := 1)).filter _).imp ?_
        intro a b hab
        exact Or.inr ⟨rfl, hab⟩
    · intro a ha b hb
      left
      obtain ⟨i, _, _, _, _, h2, _⟩ := mem_hits.1 hb
      cases hp : pageAt T l with
      | none => rw [hp] at ha; simp at ha
      | some pg =>
        rw [hp] at ha
        have := (mem_pageHits.1 ha).1
        omega

/-! ## Chains -/

theorem chain_get {T : Table} {o : Option Loc} {ls : List Loc} (h : Chain T o ls) (i : Nat) :
    walk T i o = ls[i]? := by
  induction h generalizing i with
  | nil =>
    induction i with
    | zero => rfl
    | succ i ih => simpa [walk] using ih
  | cons hp _ ih =>
    cases i with
    | zero => rfl
    | succ i => simpa [walk] using ih i

theorem walk_add (T : Table) (a b : Nat) (o : Option Loc) : walk T (a + b) o = walk T b (walk T a o) := by
  induction a generalizing o with
  | zero => simp [walk]
  | succ a ih => rw [Nat.succ_add, walk, walk, ih]

/-- The pages of a file. -/
def ownPages (T : Table) (f : Nat) : List Loc :=
  (T[f]?).elim [] fun lf => (List.range lf.pages.length).map fun p => (f, p)

theorem chain_file {T : Table} {f : Nat} {lf : LFile} {rest : List Loc} (hf : T[f]? = some lf)
    (hr : Chain T (lf.tail.map fun g => (g, 0)) rest) (n p : Nat) (hn : p + n + 1 = lf.pages.length) :
    Chain T (some (f, p)) (((List.range' p (n + 1)).map fun p => (f, p)) ++ rest) := by
  have hpg : ∀ q, q < lf.pages.length → ∃ pg, pageAt T (f, q) = some pg := fun q hq =>
    ⟨lf.pages[q], by simp [pageAt, hf, hq]⟩
  induction n generalizing p with
  | zero =>
    obtain ⟨pg, hp⟩ := hpg p (by omega)
    refine Chain.cons hp ?_
    have : nextPage T (f, p) = lf.tail.map fun g => (g, 0) := by
      simp only [nextPage, hf]; rw [if_neg (by omega)]
    rw [this]
    simpa using hr
  | succ n ih =>
    obtain ⟨pg, hp⟩ := hpg p (by omega)
    rw [List.range'_succ, List.map_cons, List.cons_append]
    refine Chain.cons hp ?_
    have : nextPage T (f, p) = some (f, p + 1) := by
      simp only [nextPage, hf]; rw [if_pos (by omega)]
    rw [this]
    exact ih (p + 1) (by omega)

/-- Files follow each other as in the list. -/
def Linked (T : Table) : List Nat → Prop
  | [] => True
  | [a] => ∃ lf, T[a]? = some lf ∧ lf.pages ≠ [] ∧ lf.tail = none
  | a :: b :: rest => (∃ lf, T[a]? = some lf ∧ lf.pages ≠ [] ∧ lf.tail = some b ∧ lf.link = some b) ∧
      Linked T (b :: rest)

theorem chain_linked {T : Table} {a : Nat} {fs : List Nat} (h : Linked T (a :: fs)) :
    Chain T (some (a, 0)) ((a :: fs).flatMap (ownPages T)) := by
  induction fs generalizing a with
  | nil =>
    obtain ⟨lf, h1, h2, h3⟩ := h
    have hl : 0 < lf.pages.length := List.length_pos_iff.2 h2
    have := chain_file h1 (rest := []) (by rw [h3]; exact Chain.nil) (lf.pages.length - 1) 0 (by omega)
    rw [show lf.pages.length - 1 + 1 = lf.pages.length by omega] at this
    simpa [ownPages, h1, List.range_eq_range'] using this
  | cons b fs ih =>
    obtain ⟨⟨lf, h1, h2, h3, h4⟩, h5⟩ := h
    have hl : 0 < lf.pages.length := List.length_pos_iff.2 h2
    have := chain_file h1 (rest := (b :: fs).flatMap (ownPages T)) (by rw [h3]; exact ih h5)
      (lf.pages.length - 1) 0 (by omega)
    rw [show lf.pages.length - 1 + 1 = lf.pages.length by omega] at this
    rw [List.flatMap_cons]
    simpa [ownPages, h1, List.range_eq_range'] using this

theorem linkTo_get (T : Table) (a b x : Nat) : (linkTo T a b)[x]? =
    if x = a then (T[a]?).map fun f => { f with link := some b, tail := some b } else T[x]? := by
  unfold linkTo
  cases h : T[a]? with
  | none =>
    simp only
    split
    · rename_i hx; subst hx; simp [h]
    · rfl
  | some f =>
    have ha : a < T.length := (List.getElem?_eq_some_iff.1 h).1
    simp only [List.getElem?_set]
    by_cases hx : a = x
    · subst hx; simp [ha]
    · simp [hx, Ne.symm hx]

theorem xdflnk_other (T : Table) (fs : List Nat) (x : Nat) (hx : x ∉ fs) : (xdflnk T fs)[x]? = T[x]? := by
  induction fs generalizing T with
  | nil => rfl
  | cons a fs ih =>
    cases fs with
    | nil => rfl
    | cons b rest =>
      rw [xdflnk, ih _ (fun h => hx (by simp [h])), linkTo_get, if_neg (fun h => hx (by simp [h]))]

theorem linked_congr {T T' : Table} {fs : List Nat} (h : ∀ x ∈ fs, T'[x]? = T[x]?) (hl : Linked T fs) :
    Linked T' fs := by
  induction fs with
  | nil => trivial
  | cons a fs ih =>
    cases fs with
    | nil => simp only [Linked] at *; rw [h a (by simp)]; exact hl
    | cons b rest =>
      simp only [Linked] at *
      rw [h a (by simp)]
      exact ⟨hl.1, ih (fun x hx => h x (List.mem_cons_of_mem _ hx)) hl.2⟩

/-- `c_xdflnk` links distinct files, the last of which leads nowhere. -/
theorem xdflnk_linked {T : Table} {a : Nat} {fs : List Nat} (hnd : (a :: fs).Nodup)
    (hp : ∀ x ∈ a :: fs, ∃ lf, T[x]? = some lf ∧ lf.pages ≠ [])
    (hlast : ∀ lf, T[(a :: fs).getLast (by simp)]? = some lf → lf.tail = none) :
    Linked (xdflnk T (a :: fs)) (a :: fs) ∧ ∀ x : Nat, (xdflnk T (a :: fs))[x]?.map LFile.pages = T[x]?.map LFile.pages := by
  induction fs generalizing T a with
  | nil =>
    obtain ⟨lf, h1, h2⟩ := hp a (by simp)
    exact ⟨⟨lf, h1, h2, hlast lf h1⟩, fun _ => rfl⟩
  | cons b rest ih =>
    obtain ⟨ha, hnd'⟩ := List.nodup_cons.1 hnd
    have hne : ∀ x ∈ b :: rest, x ≠ a := fun x hx hc => ha (hc ▸ hx)
    have hT : ∀ x ∈ b :: rest, (linkTo T a b)[x]? = T[x]? := fun x hx => by
      rw [linkTo_get, if_neg (hne x hx)]
    obtain ⟨g1, g2⟩ := ih (T := linkTo T a b) hnd' (fun x hx => by rw [hT x hx]; exact hp x (List.mem_cons_of_mem _ hx))
      (fun lf hl => by
        rw [hT _ (List.getLast_mem _)] at hl
        exact hlast lf (by rw [List.getLast_cons (by simp)]; exact hl))
    obtain ⟨lf, h1, h2⟩ := hp a (by simp)
    refine ⟨⟨⟨{ lf with link := some b, tail := some b }, ?_, h2, rfl, rfl⟩, g1⟩, fun x => ?_⟩
    · rw [xdflnk, xdflnk_other _ _ _ ha, linkTo_get, if_pos rfl, h1]; rfl
    · rw [xdflnk, g2, linkTo_get]
      split
      · rename_i hx; subst hx; simp [Option.map_map, Function.comp_def]
      · rfl

end Verif.Xdf
