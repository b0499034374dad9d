import Mathlib.Data.List.DropRight
import Verif.WhiteBoardHist

/-!
Properties C35 to C38: the whiteboard.

A history starts with an empty whiteboard and consists of puts, locks and restarts from a
checkpoint.  `Fair` asks of the caller: sources that hold the values, sizes that fit in an
`int`, names without null characters, no contradictory options on a variable of more than 31
lines, and no array put over a string or over a scalar of eight bytes.  The last two are not
demanded by the interface: the witnesses below show what happens otherwise.
-/
namespace Props.WhiteBoard
open _root_.WhiteBoard

/-- Two names differ by case of letters and trailing blanks only. -/
def SameName (a b : List Byte) : Prop :=
  (a.rdropWhile (· == 32#8)).map up = (b.rdropWhile (· == 32#8)).map up

/-- The text in a character variable. -/
def text (s : List Byte) : List Byte := (s.takeWhile (· != 0#8)).rdropWhile (· == 32#8)

/-- Element `i` of the source of a put. -/
def source (r : Req) (i : Nat) : List Byte := (r.src.drop (i * r.len.toNat)).take r.len.toNat

/-- What a get of element `i` has to deliver after put `r`, in `room` bytes: numbers as they
are, logical values as 0 or 1, texts padded with blanks. -/
def delivered (r : Req) (room i : Nat) : List Byte :=
  if r.type = WB_CHAR then
    text (source r i) ++ List.replicate (room - (text (source r i)).length) 32#8
  else if r.type = WB_BOOL then
    if (source r i).all (· == 0#8) then [0#8, 0#8, 0#8, 0#8] else [1#8, 0#8, 0#8, 0#8]
  else source r i

/-- A query for what put `r` stored: same name, same type, no more elements, and enough room for
every text. -/
structure Asks (q : Query) (r : Req) : Prop where
  name : SameName q.name r.name
  nonul : 0#8 ∉ q.name
  type : q.type = r.type
  size : r.type ≠ WB_CHAR → q.len = r.len
  room : r.type = WB_CHAR → 0 < q.size ∧ ∀ i < q.count, (text (source r i)).length ≤ q.size
  scalar : q.nbelem = 0 ↔ r.nbelem = 0
  count : q.nbelem ≤ r.nbelem
  pos : 0 ≤ q.nbelem

theorem sameName_iff {a b : List Byte} (ha : (trim a).length ≤ 27) (hb : (trim b).length ≤ 27) :
    SameName a b ↔ keyOf a = keyOf b := (keyOf_inj ha hb).symm

theorem sameName_length {a b : List Byte} (h : SameName a b) (hb : (trim b).length ≤ 27) :
    (trim a).length ≤ 27 := by
  have := congrArg List.length h
  rw [List.length_map, List.length_map] at this
  have h2 : (trim a).length = (trim b).length := this
  omega

theorem asks_passed {q : Query} {r : Req} (h : Asks q r) (hp : r.passed) : q.passed := by
  obtain ⟨h1, h2, h3⟩ := hp
  refine ⟨?_, h.pos, sameName_length h.name h3⟩
  by_cases hc : r.type = WB_CHAR
  · have hr := (h.room hc).1
    have hq := h.type.trans hc
    unfold typeOk Query.len
    simp only [hq]
    simp [WB_CHAR, WB_REAL, WB_INT, WB_BOOL, hr]
  · have hs := h.size hc
    rw [hs, h.type]
    unfold typeOk at h1 ⊢
    simp only [Bool.or_eq_true, decide_eq_true_eq] at h1 ⊢
    rcases h1 with (h1 | h1) | h1
    · exact .inl (.inl h1)
    · exact .inl (.inr h1)
    · exact absurd h1.1 hc

theorem get_holds {e : Ent} {q : Query} {r : Req} (ha : Asks q r) (hp : r.passed)
    (hh : Holds e r r.len.toNat r.count) :
    (getE e q q.len.toNat q.count (decide (q.nbelem > 0))).2 =
        (List.range q.count).flatMap (delivered r q.len.toNat) ∧
      (getE e q q.len.toNat q.count (decide (q.nbelem > 0))).1 = if r.nbelem = 0 then 0 else e.max := by
  have hpos := ha.pos
  have hcnt := ha.count
  have hsc := ha.scalar
  have hlen : 0 ≤ r.len := by
    have := hp.1
    unfold typeOk at this
    simp only [Bool.or_eq_true, decide_eq_true_eq] at this
    omega
  have harr : decide (q.nbelem > 0) = e.fl.array := by
    rw [hh.arr]
    congr 1
    simp only [eq_iff_iff]
    omega
  have hle : q.count ≤ r.count := by
    unfold Query.count Req.count
    split <;> split <;> omega
  have hnomax : ¬ ((e.fl.array && decide ((q.count : Int) > e.max)) = true) := by
    simp only [Bool.and_eq_true, decide_eq_true_eq, not_and]
    intro hx
    have := hh.room hx
    omega
  have hres : (if e.fl.array = true then e.max else 0) = if r.nbelem = 0 then 0 else e.max := by
    rw [hh.arr]
    by_cases hz : r.nbelem = 0
    · simp [hz]
    · have : r.nbelem > 0 := by omega
      simp [hz, this]
  unfold getE
  rw [harr]
  simp only [if_neg hnomax]
  rw [if_neg (by simp [hh.good]), if_neg (by simp [hh.init]), if_neg (by simp [hh.type, ha.type]),
    if_neg (by
      rintro ⟨hx, hy⟩
      rw [hh.type] at hx
      apply hy
      rw [(hh.plain hx).1, ha.size hx]),
    if_neg (by simp), hres]
  have hval : (if e.fl.array = true then e.area.drop 8 else e.area) = e.value := rfl
  rw [hval, hh.type]
  by_cases hc : r.type = WB_CHAR
  · rw [if_pos hc]
    have hst := hh.string hc
    have hg := getStrings_stored (m := e.value) (off := 0) (size := q.len.toNat) (n := q.count)
      (element := e.fl.elementsize) (src := r.src) (elt := r.len.toNat)
      (fun i hi => hst i (by omega))
      (fun i hi => by
        have := (ha.room hc).2 i hi
        have hql : q.len = q.size := by
          unfold Query.len
          rw [if_neg]
          rw [ha.type, hc]
          simp [WB_CHAR, WB_BOOL]
        rw [hql]
        show (text (source r i)).length ≤ q.size.toNat
        omega)
    rw [List.drop_zero] at hg
    simp only [hg, if_true, and_true]
    refine flat_congr fun i _ => ?_
    unfold delivered
    rw [if_pos hc]
    rfl
  · rw [if_neg hc]
    obtain ⟨_, hpl⟩ := hh.plain hc
    by_cases hb : r.type = WB_BOOL
    · rw [if_pos hb]
      refine ⟨?_, rfl⟩
      unfold plain at hpl
      rw [if_pos hb, logicals_flat] at hpl
      show logicals q.count e.value = flat q.count _
      rw [logicals_flat]
      refine flat_congr fun i hi => ?_
      have h4 : r.len.toNat = 4 := by
        have := hp.1
        unfold typeOk at this
        simp only [Bool.or_eq_true, decide_eq_true_eq] at this
        rw [hb] at this
        simp only [WB_BOOL, WB_REAL, WB_INT, WB_CHAR] at this
        omega
      rw [← List.take_append_drop (r.count * r.len.toNat) e.value, hpl]
      rw [elem_flat (f := fun i => logical (elem r.src 4 i)) (fun _ _ => le32_length _) (by omega), logical_logical]
      unfold delivered source logical elem
      rw [if_neg hc, if_pos hb, h4]
      split <;> rfl
    · rw [if_neg hb]
      refine ⟨?_, rfl⟩
      unfold plain at hpl
      rw [if_neg hb] at hpl
      have hql := ha.size hc
      show e.value.take (q.count * q.len.toNat) = flat q.count _
      rw [hql]
      have hm : q.count * r.len.toNat ≤ r.count * r.len.toNat := Nat.mul_le_mul_right _ hle
      have h1 : e.value.take (q.count * r.len.toNat) =
          (e.value.take (r.count * r.len.toNat)).take (q.count * r.len.toNat) := by
        rw [List.take_take, Nat.min_eq_left hm]
      rw [h1, hpl, List.take_take, Nat.min_eq_left hm, take_flat]
      refine flat_congr fun i _ => ?_
      unfold delivered
      rw [if_neg hc, if_neg hb]
      rfl

theorem find_ok {w : List Page} {ess : List (List Ent)} (h : R w ess) {k : List Byte} {e : Ent}
    (he : findEnt ess.flatten k = some e) : EntOk e ∧ e.key = k := by
  obtain ⟨hm, hk⟩ := (find_mem h.nodup).1 he
  refine ⟨?_, hk⟩
  obtain ⟨es, hes, hmem⟩ := List.mem_flatten.1 hm
  have hp := h.pages
  clear he h hm
  induction hp with
  | nil => simp at hes
  | cons h1 _ ih =>
    rcases List.mem_cons.1 hes with rfl | hes
    · exact h1.ok e hmem
    · exact ih hes

theorem kept_holds {e e' : Ent} {r : Req} {size n : Nat} (hk : Kept e e') (h : Holds e r size n) :
    Holds e' r size n := by
  have hv : e'.value = e.value := by
    unfold Ent.value
    rw [hk.arr, hk.area]
  have hm : e'.max = e.max := by
    unfold Ent.max
    rw [hk.area]
  exact ⟨by rw [hk.type]; exact h.type, by rw [hk.arr]; exact h.arr, by rw [hk.init]; exact h.init,
    by rw [hk.bad]; exact h.good, by rw [hk.arr, hm]; exact h.room,
    by rw [hk.size, hv]; exact h.plain, by rw [hk.size, hv]; exact h.string⟩

/-! ### C35 -/

/-- No history leads outside of the pages of the whiteboard. -/
theorem C35_no_corruption (ops : List Op) (h : Fair [] ops) : ∃ w, run [] ops = some w := by
  obtain ⟨w, _, h1, _⟩ := run_keeps R_nil h
  exact ⟨w, h1⟩

/-- Whatever happened before, and whatever is put under other names, locked or restarted
afterwards, a get delivers what the last successful put to that name stored. -/
theorem C35_partial (before after : List Op) (r : Req) (w w' w'' : List Page) (c : Int)
    (hfair : Fair [] (before ++ .put r :: after))
    (hbefore : run [] before = some w)
    (hput : put w r = some (w', c)) (hc : 0 ≤ c) (hvalue : r.createOnly = false)
    (hafter : run w' after = some w'')
    (hlast : ∀ r', .put r' ∈ after → ¬ SameName r'.name r.name)
    (hglobal : (∃ t, .restart t ∈ after) → ∀ f, flagsOf w' r.name = some f → f.islocal = false)
    (q : Query) (hq : Asks q r) :
    (get w'' q).2 = (List.range q.count).flatMap (delivered r q.len.toNat) ∧
    (r.nbelem = 0 → (get w'' q).1 = 0) ∧ (0 < r.nbelem → r.nbelem ≤ (get w'' q).1) := by
  obtain ⟨f1, f2⟩ := hfair.append
  obtain ⟨ess, hR⟩ := reached f1 hbefore
  obtain ⟨hok, f3⟩ := f2 w hbefore
  obtain ⟨w1, c1, ess1, g1, g2, g3, g4⟩ := put_ok hR hok
  rw [hput] at g1
  injection g1 with g1
  injection g1 with ga gb
  subst ga gb
  have f4 := f3 w' (by show (put w r).map _ = _; rw [hput]; rfl)
  obtain ⟨w2, ess2, k1, k2, k3⟩ := run_keeps g2 f4
  rw [hafter] at k1
  cases k1
  have hmain : r.passed ∧ ∃ e, findEnt ess1.flatten (keyOf r.name) = some e ∧
      Holds e r r.len.toNat r.count := by
    generalize findEnt ess.flatten (keyOf r.name) = o at g4
    generalize findEnt ess1.flatten (keyOf r.name) = o1 at g4
    cases g4 with
    | early _ hcc => omega
    | kept _ hcc => omega
    | spoilt _ hcc => omega
    | replaced hp _ _ _ _ _ hh => exact ⟨hp, _, rfl, hh⟩
    | refused => omega
    | created _ _ hk => rw [hvalue] at hk; cases hk
    | new hp _ _ _ _ hh => exact ⟨hp, _, rfl, hh⟩
  obtain ⟨hp, e, he, hh⟩ := hmain
  have hnn : 0#8 ∉ r.name := hok.1.nonul
  obtain ⟨e2, he2, hk2⟩ := k3 (keyOf r.name) e he
    (fun r' hr' hp' => .inl fun hkk =>
      hlast r' hr' ((sameName_iff hp'.2.2 hp.2.2).2 hkk))
    (fun t ht => hglobal ⟨t, ht⟩ e.fl (by rw [flagsOf_R g2 hnn, he]; rfl))
  have hqp := asks_passed hq hp
  have hkq : keyOf q.name = keyOf r.name := (sameName_iff hqp.2.2 hp.2.2).1 hq.name
  have hh2 := kept_holds hk2 hh
  obtain ⟨v1, v2⟩ := get_holds hq hp hh2
  rw [get_R k2 hqp hq.nonul, hkq, he2]
  refine ⟨v1, fun h0 => ?_, fun h0 => ?_⟩
  · rw [v2, if_pos h0]
  · simp only [v2]
    rw [if_neg (by omega)]
    have ha : e2.fl.array = true := by
      rw [hh2.arr]
      simpa using h0
    have := hh2.room ha
    unfold Req.count at this
    split at this <;> omega

/-! ### C36 -/

/-- A variable that is read-only and has a value: whatever is attempted afterwards, the value
stays, and every attempt to put it reports an error. -/
theorem C36_partial (before after : List Op) (w w' : List Page) (name : List Byte) (f : Flags)
    (hfair : Fair [] (before ++ after))
    (hbefore : run [] before = some w) (hafter : run w after = some w')
    (hname : 0#8 ∉ name) (hshort : (trim name).length ≤ 27)
    (hflags : flagsOf w name = some f) (hro : f.readonly = true) (hinit : f.initialized = true)
    (hglobal : (∃ t, .restart t ∈ after) → f.islocal = false) :
    (∀ q, SameName q.name name → 0#8 ∉ q.name → get w' q = get w q) ∧
    (∀ r, SameName r.name name → r.Wf → ∃ w'' c, put w' r = some (w'', c) ∧ c < 0 ∧
      ∀ q, SameName q.name name → 0#8 ∉ q.name → get w'' q = get w q) := by
  obtain ⟨f1, f2⟩ := hfair.append
  obtain ⟨ess, hR⟩ := reached f1 hbefore
  have f3 := f2 w hbefore
  obtain ⟨w1, ess1, k1, k2, k3⟩ := run_keeps hR f3
  rw [hafter] at k1
  cases k1
  rw [flagsOf_R hR hname] at hflags
  obtain ⟨e, he, rfl⟩ := Option.map_eq_some_iff.1 hflags
  obtain ⟨e1, he1, hk⟩ := k3 (keyOf name) e he (fun _ _ _ => .inr ⟨hro, hinit⟩)
    (fun t ht => hglobal ⟨t, ht⟩)
  have hget : ∀ (v : List Page) (es : List (List Ent)) (x : Ent), R v es →
      findEnt es.flatten (keyOf name) = some x → Kept e x →
      ∀ q, SameName q.name name → 0#8 ∉ q.name → get v q = get w q := by
    intro v es x hv hx hkx q hq h0
    by_cases hp : q.passed
    · have hkq : keyOf q.name = keyOf name := (sameName_iff hp.2.2 hshort).1 hq
      rw [get_R hv hp h0, get_R hR hp h0, hkq, he, hx]
      exact hkx.getE q _ _ _
    · rw [get_early hp, get_early hp]
  refine ⟨hget w' ess1 e1 k2 he1 hk, fun r hr hwf => ?_⟩
  have hlen := sameName_length hr hshort
  have hkr : keyOf r.name = keyOf name := (sameName_iff hlen hshort).1 hr
  have hro1 : e1.fl.readonly = true ∧ e1.fl.initialized = true :=
    ⟨hk.readonly hro, by rw [hk.init]; exact hinit⟩
  have hok : OkOp w' (.put r) := by
    refine ⟨hwf, fun g hg _ hcl => ?_⟩
    rw [flagsOf_R k2 hwf.nonul, hkr, he1] at hg
    cases hg
    have := hcl.2.2.2.2.1
    rw [hro1.1, hro1.2] at this
    cases this
  obtain ⟨w2, c, ess2, p1, p2, _, p4⟩ := put_ok k2 hok
  rw [hkr, he1] at p4
  have hboth : (e1.fl.readonly && e1.fl.initialized) = true := by rw [hro1.1, hro1.2]; rfl
  have hsame : c < 0 ∧ findEnt ess2.flatten (keyOf name) = some e1 := by
    generalize findEnt ess2.flatten (keyOf name) = o at p4
    cases p4 with
    | early _ hc => exact ⟨hc, rfl⟩
    | kept _ hc => exact ⟨hc, rfl⟩
    | spoilt _ _ _ hw => rw [hboth] at hw; cases hw
    | replaced _ _ _ hw => rw [hboth] at hw; cases hw
  exact ⟨w2, c, p1, hsame.1, hget w2 ess2 e1 p2 hsame.2 hk⟩

/-- A variable created with a value and `WB_REWRITE_NONE` is read-only. -/
theorem C36_by_option (before : List Op) (w w' : List Page) (r : Req) (c : Int)
    (hfair : Fair [] (before ++ [.put r])) (hbefore : run [] before = some w)
    (hnew : flagsOf w r.name = none) (hput : put w r = some (w', c)) (hc : 0 ≤ c)
    (hvalue : r.createOnly = false) (hro : r.rewriteNone = true) :
    ∃ f, flagsOf w' r.name = some f ∧ f.readonly = true ∧ f.initialized = true := by
  obtain ⟨f1, f2⟩ := hfair.append
  obtain ⟨ess, hR⟩ := reached f1 hbefore
  obtain ⟨hok, _⟩ := f2 w hbefore
  obtain ⟨w1, c1, ess1, g1, g2, _, g4⟩ := put_ok hR hok
  rw [hput] at g1
  injection g1 with g1
  injection g1 with ga gb
  subst ga gb
  rw [flagsOf_R hR hok.1.nonul] at hnew
  rw [Option.map_eq_none_iff.1 hnew] at g4
  rw [flagsOf_R g2 hok.1.nonul]
  generalize findEnt ess1.flatten (keyOf r.name) = o at g4
  cases g4 with
  | early _ hcc => omega
  | refused => omega
  | created _ _ hk => rw [hvalue] at hk; cases hk
  | new _ _ _ hf =>
    refine ⟨_, rfl, ?_, ?_⟩
    · rw [hf]
      exact hro
    · rw [hf]

theorem matchName_prefix {t a b : List Byte} (h : a.map up = t.map up) :
    matchName (a ++ b) t t.length = true := by
  induction t generalizing a with
  | nil => cases (a ++ b) <;> rfl
  | cons y t ih =>
    cases a with
    | nil => cases h
    | cons x a =>
      rw [List.map_cons, List.map_cons] at h
      injection h with h1 h2
      rw [List.cons_append, List.length_cons]
      unfold matchName
      split
      · rfl
      · rw [if_neg (by simp [h1])]
        exact ih h2

/-- A lock that reports no error makes read-only every variable it is for: created with
`WB_REWRITE_UNTIL`, and with a name that begins with the name given, whatever the case of
the letters.  All of them have a value. -/
theorem C36_by_lock (before : List Op) (w w' : List Page) (lockname : List Byte) (c : Int)
    (hfair : Fair [] (before ++ [.lock lockname])) (hbefore : run [] before = some w)
    (hlock : lock w lockname = some (w', c)) (hc : 0 ≤ c)
    (name : List Byte) (hname : 0#8 ∉ name) (hshort : (trim name).length ≤ 27) (f : Flags)
    (hflags : flagsOf w name = some f) (huntil : f.resetuntil = true)
    (hprefix : (text lockname).map up <+: (name.rdropWhile (· == 32#8)).map up) :
    ∃ f', flagsOf w' name = some f' ∧ f'.readonly = true ∧ f'.initialized = true := by
  obtain ⟨f1, f2⟩ := hfair.append
  obtain ⟨ess, hR⟩ := reached f1 hbefore
  obtain ⟨hok, _⟩ := f2 w hbefore
  obtain ⟨w1, c1, ess1, g1, g2, g3⟩ := lock_ok hR hok
  rw [hlock] at g1
  injection g1 with g1
  injection g1 with ga gb
  subst ga gb
  rw [flagsOf_R hR hname] at hflags
  obtain ⟨e, he, rfl⟩ := Option.map_eq_some_iff.1 hflags
  rw [flagsOf_R g2 hname]
  rcases g3 (keyOf name) with ⟨hn, _⟩ | ⟨x, x', hx, hx', hu⟩
  · rw [he] at hn; cases hn
  rw [he] at hx
  cases hx
  have hkey := (find_ok hR he).2
  have hhit : hit .rewriteUntil (significant lockname) e = true := by
    unfold hit
    rw [hkey]
    simp only [Mask.test, huntil, Bool.true_and]
    obtain ⟨rest, hrest⟩ := hprefix
    have hk : keyOf name = (trim name).map up ++ List.replicate (27 - (trim name).length) blank := by
      unfold keyOf
      rw [List.take_of_length_le hshort, List.map_append, List.map_replicate]
      rfl
    have hr2 : (trim name).map up = (significant lockname).map up ++ rest := hrest.symm
    rw [hk, hr2, List.append_assoc, List.append_assoc]
    refine matchName_prefix ?_
    rw [List.map_map]
    refine List.map_congr_left fun a _ => ?_
    exact up_up a
  rcases hu with ⟨_, hw⟩ | ⟨_, g, hg, hxe⟩
  · rw [hw hc] at hhit
    cases hhit
  · rw [hx']
    refine ⟨x'.fl, rfl, ?_⟩
    unfold cbReadOnly at hg
    split at hg
    · rename_i hi
      cases hg
      rw [hxe]
      exact ⟨rfl, hi⟩
    · cases hg

/-! ### C37 -/

/-- A put that reports an error never touches other variables, and for its own it has one of two
effects: none at all, or every later get reports `WB_ERR_BADVAL`. -/
theorem C37_partial (before : List Op) (w w' : List Page) (r : Req) (c : Int)
    (hfair : Fair [] (before ++ [.put r])) (hbefore : run [] before = some w)
    (hput : put w r = some (w', c)) (hc : c < 0) :
    (∀ q, 0#8 ∉ q.name → ¬ SameName q.name r.name → get w' q = get w q) ∧
    ((∀ q, 0#8 ∉ q.name → get w' q = get w q) ∨
      (r.createOnly = false ∧ (∀ f, flagsOf w r.name = some f →
          (f.readonly && f.initialized) = false) ∧
        ∀ q, 0#8 ∉ q.name → q.passed → SameName q.name r.name → get w' q = (-1009, []))) := by
  obtain ⟨f1, f2⟩ := hfair.append
  obtain ⟨ess, hR⟩ := reached f1 hbefore
  obtain ⟨hok, _⟩ := f2 w hbefore
  obtain ⟨w1, c1, ess1, g1, g2, g3, g4⟩ := put_ok hR hok
  rw [hput] at g1
  injection g1 with g1
  injection g1 with ga gb
  subst ga gb
  refine ⟨fun q h0 hs => ?_, ?_⟩
  · by_cases hq : q.passed
    · rw [get_R g2 hq h0, get_R hR hq h0, g3 (keyOf q.name)]
      by_cases hp : r.passed
      · exact .inl fun hk => hs ((sameName_iff hq.2.2 hp.2.2).2 hk)
      · exact .inr hp
    · rw [get_early hq, get_early hq]
  · have hall : findEnt ess1.flatten (keyOf r.name) = findEnt ess.flatten (keyOf r.name) →
        ∀ q, 0#8 ∉ q.name → get w' q = get w q := by
      intro hsame q h0
      by_cases hq : q.passed
      · rw [get_R g2 hq h0, get_R hR hq h0]
        by_cases hk : keyOf q.name = keyOf r.name
        · rw [hk, hsame]
        · rw [g3 _ (.inl hk)]
      · rw [get_early hq, get_early hq]
    rw [flagsOf_R hR hok.1.nonul]
    generalize ho : findEnt ess.flatten (keyOf r.name) = o at g4 hall ⊢
    generalize ho1 : findEnt ess1.flatten (keyOf r.name) = o1 at g4 hall
    cases g4 with
    | early => exact .inl (hall rfl)
    | kept => exact .inl (hall rfl)
    | refused => exact .inl (hall rfl)
    | replaced _ hcc => omega
    | created _ hcc => omega
    | new _ hcc => omega
    | spoilt hp hcc hs hw hcr hf =>
      rename_i e'
      refine .inr ⟨hcr, fun f hf' => by cases hf'; exact hw, fun q h0 hq hsn => ?_⟩
      have hk := (sameName_iff hq.2.2 hp.2.2).1 hsn
      rw [get_R g2 hq h0, hk, ho1]
      show getE e' q _ _ _ = _
      unfold getE
      rw [if_pos (by rw [hf])]

/-! ### C38 -/

/-- A checkpoint reloaded by a fresh process: every variable that is not local reads the same,
and every local one has no value. -/
theorem C38 (history : List Op) (w : List Page) (tail : List Byte)
    (hfair : Fair [] history) (hrun : run [] history = some w) :
    ∃ w', reload [] (checkpoint w ++ tail) = some (w', 0) ∧
      ∀ q, 0#8 ∉ q.name →
        (∀ f, flagsOf w q.name = some f → f.islocal = false → get w' q = get w q) ∧
        (∀ f, flagsOf w q.name = some f → f.islocal = true → q.passed → get w' q = (-1008, [])) ∧
        (flagsOf w q.name = none → get w' q = get w q) := by
  obtain ⟨ess, hR⟩ := reached hfair hrun
  obtain ⟨w', ess', h1, h2, h3⟩ := reload_R hR tail
  refine ⟨w', h1, fun q h0 => ?_⟩
  rw [flagsOf_R hR h0]
  by_cases hq : q.passed
  · rw [get_R hR hq h0, get_R h2 hq h0]
    rcases h3 (keyOf q.name) with ⟨a, b⟩ | ⟨e, e', a, b, hr, _⟩
    · rw [a, b]
      exact ⟨fun _ h => (by cases h), fun _ h => (by cases h), fun _ => rfl⟩
    · rw [a, b]
      refine ⟨fun f hf hl => ?_, fun f hf hl _ => ?_, fun h => by cases h⟩
      · cases hf
        exact (kept_restart hr hl).getE q _ _ _
      · cases hf
        have := hr.loc hl
        show getE e' q _ _ _ = _
        unfold getE
        rw [if_neg (by rw [this.2]; decide), if_pos (by rw [this.1]; rfl)]
  · rw [get_early hq, get_early hq]
    exact ⟨fun _ _ _ => rfl, fun _ _ _ hp => absurd hp hq, fun _ => rfl⟩

/-! ### Witnesses and examples -/

/-- Bytes of an ASCII string. -/
def bytes (s : String) : List Byte := s.toList.map fun c => BitVec.ofNat 8 c.toNat

def wfB (r : Req) : Bool :=
  decide (0#8 ∉ r.name) && decide (r.count * r.len.toNat ≤ r.src.length) &&
  decide (r.count * r.len.toNat < 2147483648) &&
  (!r.conflict || decide (r.count * r.len.toNat ≤ 1240))

theorem wfB_iff {r : Req} (h : wfB r = true) : r.Wf := by
  unfold wfB at h
  simp only [Bool.and_eq_true, decide_eq_true_eq, Bool.or_eq_true, Bool.not_eq_true'] at h
  exact ⟨h.1.1.1, h.1.1.2, h.1.2, fun hc => h.2.resolve_left (by simp [hc])⟩

def okB (w : List Page) : Op → Bool
  | .put r => wfB r && match flagsOf w r.name with
    | none => true
    | some f => !decide (Clashes r f)
  | .lock name => decide ((significant name).length < 520)
  | .restart _ => true

def fairB (w : List Page) : List Op → Bool
  | [] => true
  | op :: ops => okB w op && match step w op with
    | none => false
    | some w' => fairB w' ops

theorem okB_ok {w : List Page} {op : Op} (h : okB w op = true) : OkOp w op := by
  cases op with
  | put r =>
    unfold okB at h
    rw [Bool.and_eq_true] at h
    refine ⟨wfB_iff h.1, fun f hf _ hc => ?_⟩
    have h2 := h.2
    rw [hf] at h2
    simp [hc] at h2
  | lock n =>
    show (significant n).length < 520
    exact of_decide_eq_true h
  | restart t => trivial

theorem fairB_fair {w : List Page} {ops : List Op} (h : fairB w ops = true) : Fair w ops := by
  induction ops generalizing w with
  | nil => trivial
  | cons op ops ih =>
    unfold fairB at h
    rw [Bool.and_eq_true] at h
    refine ⟨okB_ok h.1, fun w' hw => ?_⟩
    have h2 := h.2
    rw [hw] at h2
    exact ih h2

def putX : Req := { name := bytes "x", type := WB_REAL, size := 8, nbelem := 0, src := [0, 0, 0, 0, 0, 0, 0xf0, 0x3f] }
def putY : Req := { name := bytes "y", type := WB_INT, size := 4, nbelem := 0, src := [7, 0, 0, 0], rewriteNone := true }
def putXs : Req := { name := bytes "x", type := WB_REAL, size := 8, nbelem := 10, src := List.replicate 80 1#8 }
def askY : Query := { name := bytes "y", type := WB_INT, size := 4, nbelem := 0 }

theorem any_some {α : Type} {o : Option α} {p : α → Bool} (h : o.any p = true) :
    ∃ a, o = some a ∧ p a = true := by
  cases o with
  | none => cases h
  | some a => exact ⟨a, rfl, h⟩

/-- An array of ten put over the scalar `x`, whose value is 1.0: accepted, and the read-only
variable `y` on the next line is destroyed. -/
theorem C36_array_on_scalar_witness :
    ∃ w w' c, run [] [.put putX, .put putY] = some w ∧ get w askY = (0, [7, 0, 0, 0]) ∧
      put w putXs = some (w', c) ∧ 0 ≤ c ∧ get w' askY ≠ (0, [7, 0, 0, 0]) := by
  have h : ((run [] [.put putX, .put putY]).any fun w =>
      decide (get w askY = (0, [7, 0, 0, 0])) && (put w putXs).any fun wc =>
        decide (0 ≤ wc.2) && decide (get wc.1 askY ≠ (0, [7, 0, 0, 0]))) = true := by
    decide +kernel
  obtain ⟨w, h1, h2⟩ := any_some h
  rw [Bool.and_eq_true] at h2
  obtain ⟨⟨w', c⟩, h3, h4⟩ := any_some h2.2
  rw [Bool.and_eq_true] at h4
  exact ⟨w, w', c, h1, of_decide_eq_true h2.1, h3, of_decide_eq_true h4.1, of_decide_eq_true h4.2⟩

def putBig : Req := { name := bytes "big", type := WB_INT, size := 4, nbelem := 1000, src := List.replicate 4000 0#8, rewriteNone := true, rewriteMany := true }
def putA : Req := { name := bytes "a", type := WB_INT, size := 4, nbelem := 0, src := [1, 0, 0, 0] }
def putB : Req := { name := bytes "b", type := WB_INT, size := 4, nbelem := 500, src := List.replicate 2000 2#8 }
def putC : Req := { name := bytes "c", type := WB_INT, size := 4, nbelem := 0, src := [3, 0, 0, 0] }
def askC : Query := { name := bytes "c", type := WB_INT, size := 4, nbelem := 0 }

/-- A put of a large array refused for contradictory options leaves an empty page of its size;
the variables put there behind another large array cannot be found any more. -/
theorem C35_lost_witness :
    ∃ w w' c, run [] [.put putBig, .put putA, .put putB] = some w ∧ put w putC = some (w', c) ∧
      c = 0 ∧ get w' askC = (-1001, []) := by
  have h : ((run [] [.put putBig, .put putA, .put putB]).any fun w => (put w putC).any fun wc =>
        decide (wc.2 = 0) && decide (get wc.1 askC = (-1001, []))) = true := by
    decide +kernel
  obtain ⟨w, h1, h2⟩ := any_some h
  obtain ⟨⟨w', c⟩, h3, h4⟩ := any_some h2
  rw [Bool.and_eq_true] at h4
  exact ⟨w, w', c, h1, h3, of_decide_eq_true h4.1, of_decide_eq_true h4.2⟩

def putS : Req := { name := bytes "S", type := WB_CHAR, size := 5, nbelem := 0, src := bytes "hello" }
def putS3 : Req := { name := bytes "s", type := WB_INT, size := 4, nbelem := 0, src := [1, 0, 0, 0] }
def askS : Query := { name := bytes "s", type := WB_CHAR, size := 8, nbelem := 0 }

/-- C37 does not hold: a put refused because of its type makes the old value unreadable. -/
theorem C37_witness :
    ∃ w w' c, Fair [] [.put putS, .put putS3] ∧ run [] [.put putS] = some w ∧
      get w askS = (0, bytes "hello   ") ∧
      put w putS3 = some (w', c) ∧ c < 0 ∧ get w' askS = (-1009, []) := by
  have hf : fairB [] [.put putS, .put putS3] = true := by decide +kernel
  have h : ((run [] [.put putS]).any fun w => decide (get w askS = (0, bytes "hello   ")) &&
      (put w putS3).any fun wc => decide (wc.2 < 0) && decide (get wc.1 askS = (-1009, []))) =
      true := by
    decide +kernel
  obtain ⟨w, h1, h2⟩ := any_some h
  rw [Bool.and_eq_true] at h2
  obtain ⟨⟨w', c⟩, h3, h4⟩ := any_some h2.2
  rw [Bool.and_eq_true] at h4
  exact ⟨w, w', c, fairB_fair hf, h1, of_decide_eq_true h2.1, h3, of_decide_eq_true h4.1,
    of_decide_eq_true h4.2⟩

def putNames : Req := { name := bytes "Names ", type := WB_CHAR, size := 4, nbelem := 3, src := bytes "ab  cd  efgh", rewriteUntil := true }
def putLocal : Req := { name := bytes "flag", type := WB_BOOL, size := 4, nbelem := 0, src := [0, 0, 9, 0], isLocal := true }
def askNames : Query := { name := bytes "NAMES", type := WB_CHAR, size := 6, nbelem := 2 }
def askFlag : Query := { name := bytes "flag", type := WB_BOOL, size := 4, nbelem := 0 }

def ex1 : List Op := [.put putX, .put putY, .put putS]
def ex2 : List Op := [.put putLocal, .lock (bytes "na"), .put putS3, .restart [1, 2, 3], .put putS3, .put putY]

/-- A history of puts, a lock and a restart that meets the hypotheses of C35; the two names come
back with other letter case and other lengths. -/
example : fairB [] (ex1 ++ .put putNames :: ex2) = true ∧
    ((run [] ex1).any fun w => (put w putNames).any fun wc => decide (wc.2 = 4) &&
      decide ((flagsOf wc.1 putNames.name).map (·.islocal) = some false) &&
      (run wc.1 ex2).any fun w2 => decide (get w2 askNames = (3, bytes "ab    cd    "))) = true := by
  decide +kernel

example : Asks askNames putNames :=
  ⟨by unfold SameName; decide, by decide, rfl, by decide, fun _ => ⟨by decide, by decide⟩, by decide, by decide,
    by decide⟩

example : ∀ r', Op.put r' ∈ ex2 → ¬ SameName r'.name putNames.name := by
  intro r' hr
  simp only [ex2, List.mem_cons, List.not_mem_nil, or_false, Op.put.injEq, reduceCtorEq,
    false_or] at hr
  unfold SameName
  rcases hr with rfl | rfl | rfl | rfl <;> decide

/-- A case for C36: `names` locked through a prefix of its name. -/
example : ((run [] (ex1 ++ [.put putNames])).any fun w => (lock w (bytes "NA ")).any fun wc =>
    decide (wc.2 = 1) && decide ((flagsOf w putNames.name).map (·.resetuntil) = some true) &&
    decide ((flagsOf wc.1 putNames.name).map (fun f => (f.readonly, f.initialized)) =
      some (true, true)) &&
    (put wc.1 putNames).any fun wd => decide (wd.2 = -1002)) = true := by
  decide +kernel

/-- A case for C38: three variables that come back, a local one that does not. -/
example : ((run [] (ex1 ++ [.put putLocal])).any fun w =>
    decide (get w askFlag = (0, [1, 0, 0, 0])) &&
    (reload [] (checkpoint w ++ [5, 5])).any fun wc => decide (wc.2 = 0) &&
      decide (get wc.1 askS = (0, bytes "hello   ")) && decide (get wc.1 askY = (0, [7, 0, 0, 0])) &&
      decide (get wc.1 askFlag = (-1008, []))) = true := by
  decide +kernel

end Props.WhiteBoard
