import Verif.XdfSeqSkip
import Mathlib.Data.List.Forall2
/-! # Properties of sequential XDF files

What was written is told by a list of `Log` entries, one for each record and each end-of-file mark,
and what a reader must be told is computed from that list alone. -/

namespace Verif.XdfSeq

open Verif.Xdf (W Has has_lt has_append has_read readAt RDMODE APPEND CREATE)

/-- What a program wrote: the buffer of a record, or a mark of logical end of file. -/
inductive Log
  | data (ws : List W)
  | mark (level : Nat)
deriving DecidableEq, Repr

/-- The entry is a record. -/
def Log.isData : Log → Bool
  | .data _ => true
  | .mark _ => false

/-- The history of a list of calls.  Level 15 is the physical end and leaves nothing behind. -/
def log : List Op → List Log
  | [] => []
  | .put data _ :: r => .data data :: log r
  | .weo l _ :: r => if l = 15 then log r else .mark l :: log r

/-- A query: target and mask of the keys after the record header. -/
abbrev Query := List W × List W

/-- The record agrees with the query wherever the mask has a one. -/
def Wanted (q : Query) (ws : List W) : Prop :=
  ∀ i < q.1.length, (ws.getD (i + 2) 0#32 ^^^ q.1.getD i 0#32) &&& q.2.getD i 0#32 = 0#32

instance (q : Query) (ws : List W) : Decidable (Wanted q ws) := by unfold Wanted; infer_instance

/-- The next record that is wanted, or the level of the first end met before it; and what comes
after.  `last` is the level of the physical end, which is never passed. -/
def next (last : Nat) (q : Query) : List Log → Except Nat (List W) × List Log
  | [] => (.error last, [])
  | .mark l :: r => (.error l, r)
  | .data ws :: r => if Wanted q ws then (.ok ws, r) else next last q r

/-- The answers to a list of queries. -/
def expect (last : Nat) : List Log → List Query → List (Except Nat (List W))
  | _, [] => []
  | l, q :: qs => (next last q l).1 :: expect last (next last q l).2 qs

/-- Search from the current position, then read the record or ask for the level of the end. -/
def read1 (s : St) (q : Query) : Option (St × Except Nat (List W)) :=
  match loc s .here q.1 q.2 with
  | none => none
  | some (s', none) => some (s', .error (eof s'))
  | some (s', some a) =>
    match get s' a with
    | .ok ws => some (s', .ok ws)
    | .error _ => none

def reads : St → List Query → Option (List (Except Nat (List W)))
  | _, [] => some []
  | s, q :: qs =>
    match read1 s q with
    | none => none
    | some (s', a) => (reads s' qs).map (a :: ·)

/-- What is read (left) is what was written (right): the same type, a length that says how much there
is, and the words after the header, followed by less than 128 words of padding; without padding if
`small`. -/
def Agree (small : Prop) : Except Nat (List W) → Except Nat (List W) → Prop
  | .error a, .error b => a = b
  | .ok got, .ok ws =>
    idtyp (got.getD 0 0#32) = idtyp (ws.getD 0 0#32) ∧ 2 * lng (got.getD 0 0#32) = got.length ∧
      ws.drop 2 <+: got.drop 2 ∧ got.length < ws.length + 128 ∧ (small → got.length = ws.length)
  | _, _ => False

/-! ## The items of a file and its history -/

def Same (small : Prop) (width : Nat) : Item → Log → Prop
  | .record id body, .data ws =>
    id = idtyp (ws.getD 0 0#32) ∧ ws.drop 2 <+: body ∧ body.length + 2 < ws.length + 128 ∧
      (small → body.length + 2 = ws.length) ∧ width ≤ ws.length
  | .mark l, .mark l' => l = l'
  | _, _ => False

theorem items_log (small : Prop) (width : Nat) (h2 : 2 ≤ width) (ops : List Op) : ∀ (cur : Nat),
    cur % 2 = 0 → (∀ op ∈ ops, op.Ok width) → (∀ data junk, Op.put data junk ∈ ops → data.length % 2 = 0) →
    (small → cur + sizes (itemsOf cur ops) < 2 ^ 23) →
    List.Forall₂ (Same small width) (itemsOf cur ops) (log ops) := by
  induction ops with
  | nil => intros; exact .nil
  | cons op ops ih =>
    intro cur hc hok hev hsm
    have ho := hok op (by simp)
    cases op with
    | put data junk =>
      obtain ⟨o1, o2, o3, o4⟩ := ho
      have he := hev data junk (by simp)
      obtain ⟨c1, c2, c3, c4⟩ := nextCluster_props (cur + data.length + 4) (by omega)
      have hpl : (padded cur data junk).length + 2 = nextCluster (cur + data.length + 4) - cur - 4 := by
        simp only [padded, List.length_append, List.length_drop, List.length_map, List.length_range]
        omega
      have hit : (Op.put data junk).items cur =
        [.record (idtyp (data.getD 0 0#32)) (padded cur data junk)] := rfl
      simp only [itemsOf, hit, sizes, Item.size, List.singleton_append, Nat.add_zero] at hsm ⊢
      refine .cons ⟨rfl, ⟨_, rfl⟩, by omega, fun hs => ?_, o3⟩ ?_
      · have := hsm hs
        have := c4 (by omega)
        omega
      · exact ih _ (by omega) (fun o h => hok o (by simp [h])) (fun d j h => hev d j (by simp [h]))
          (fun hs => by have := hsm hs; omega)
    | weo level junk =>
      obtain ⟨o1, o2⟩ := ho
      by_cases hl : level < 15
      · have hit : (Op.weo level junk).items cur = [.mark level] := by simp [Op.items, hl]
        simp only [itemsOf, hit, sizes, Item.size, List.singleton_append, Nat.add_zero, log,
          if_neg (show ¬ level = 15 by omega)] at hsm ⊢
        exact .cons rfl (ih _ (by omega) (fun o h => hok o (by simp [h]))
          (fun d j h => hev d j (by simp [h])) (fun hs => by have := hsm hs; omega))
      · have hit : (Op.weo level junk).items cur = [] := by simp [Op.items, hl]
        simp only [itemsOf, hit, sizes, List.nil_append, Nat.add_zero, log,
          if_pos (show level = 15 by omega)] at hsm ⊢
        exact ih _ hc (fun o h => hok o (by simp [h])) (fun d j h => hev d j (by simp [h])) hsm

theorem wordsMatch_iff (e t m : List W) (h1 : e.length = t.length) (h2 : m.length = t.length) :
    FstKeys.wordsMatch e t m = true ↔
      ∀ i < t.length, (e.getD i 0#32 ^^^ t.getD i 0#32) &&& m.getD i 0#32 = 0#32 := by
  induction t generalizing e m with
  | nil => cases e <;> simp [FstKeys.wordsMatch]
  | cons b t ih =>
    cases e with
    | nil => simp at h1
    | cons a e =>
      cases m with
      | nil => simp at h2
      | cons c m =>
        simp only [List.length_cons, Nat.add_right_cancel_iff] at h1 h2
        rw [FstKeys.wordsMatch, Bool.and_eq_true, decide_eq_true_iff, ih e m h1 h2]
        constructor
        · rintro ⟨h, h'⟩ i hi
          cases i with
          | zero => simpa using h
          | succ i => simpa using h' i (by simpa using hi)
        · intro h
          exact ⟨by simpa using h 0 (by simp), fun i hi => by simpa using h (i + 1) (by simpa using hi)⟩

theorem hits_wanted {small : Prop} {width id : Nat} {body ws : List W} {q : Query}
    (hs : Same small width (.record id body) (.data ws)) (h2 : 2 ≤ width)
    (hq : q.1.length = width - 2 ∧ q.2.length = width - 2) :
    hits width q.1 q.2 body = true ↔ Wanted q ws := by
  obtain ⟨-, ⟨r, hr⟩, -, -, hw⟩ := hs
  unfold hits
  have hlen : (body.take (width - 2)).length = q.1.length := by
    rw [← hr, List.length_take, List.length_append, List.length_drop, hq.1]; omega
  rw [wordsMatch_iff _ _ _ hlen (by rw [hq.1, hq.2])]
  unfold Wanted
  refine forall_congr' fun i => forall_congr' fun hi => ?_
  have : (body.take (width - 2)).getD i 0#32 = ws.getD (i + 2) 0#32 := by
    rw [List.getD_eq_getElem?_getD, List.getElem?_take_of_lt (by omega), ← hr,
      List.getElem?_append_left (by rw [List.length_drop]; omega), List.getElem?_drop,
      List.getD_eq_getElem?_getD, Nat.add_comm]
  rw [this]

/-- A search over the items against a search over the history. -/
theorem look_next {small : Prop} {width : Nat} {q : Query} (last : Nat) (h2 : 2 ≤ width)
    (hq : q.1.length = width - 2 ∧ q.2.length = width - 2) :
    ∀ {items : List Item} {l : List Log}, List.Forall₂ (Same small width) items l → ∀ a,
    List.Forall₂ (Same small width) (look (hits width q.1 q.2) a items).2.2 (next last q l).2 ∧
    (∃ k, k ≤ items.length ∧ (look (hits width q.1 q.2) a items).2.2 = items.drop k ∧
      (look (hits width q.1 q.2) a items).2.1 = a + sizes (items.take k)) ∧
    match (look (hits width q.1 q.2) a items).1 with
    | none => (next last q l).1 = .error (level last (hits width q.1 q.2) items)
    | some (_, id, body) => ∃ ws, (next last q l).1 = .ok ws ∧ Same small width (.record id body) (.data ws) ∧
        ∃ k : Nat, items[k]? = some (Item.record id body) := by
  intro items l h
  induction h with
  | nil =>
    intro a
    simp only [look, next, level, and_true]
    exact ⟨.nil, 0, by simp, rfl, by simp [sizes]⟩
  | @cons i e items l hie hrest ih =>
    intro a
    cases i with
    | mark lv =>
      cases e with
      | data ws => exact absurd hie (by simp [Same])
      | mark lv' =>
        have : lv = lv' := hie
        subst this
        simp only [look, next, level, and_true]
        exact ⟨hrest, 1, by simp, by simp, by simp [sizes, Item.size]⟩
    | record id body =>
      cases e with
      | mark lv => exact absurd hie (by simp [Same])
      | data ws =>
        have hw := hits_wanted hie h2 hq
        by_cases hh : hits width q.1 q.2 body = true
        · have hw' := hw.1 hh
          simp only [look, next, hh, if_true, if_pos hw']
          exact ⟨hrest, ⟨1, by simp, by simp, by simp [sizes, Item.size]⟩, ws, rfl, hie, 0, rfl⟩
        · have hw' : ¬ Wanted q ws := fun h => hh (hw.2 h)
          have hf : hits width q.1 q.2 body = false := by simpa using hh
          simp only [look, next, level, hf, if_neg hw', Bool.false_eq_true, if_false]
          obtain ⟨j1, ⟨k, k1, k2, k3⟩, j3⟩ := ih (a + (body.length + 6))
          refine ⟨j1, ⟨k + 1, by simpa using k1, by simpa using k2, ?_⟩, ?_⟩
          · rw [k3]; simp [sizes, Item.size, Nat.add_assoc]
          · split
            · rename_i he; rw [he] at j3; exact j3
            · rename_i he
              rw [he] at j3
              obtain ⟨ws, e1, e2, k, e3⟩ := j3
              exact ⟨ws, e1, e2, k + 1, by simpa using e3⟩

theorem length_le_sizes (items : List Item) : items.length ≤ sizes items := by
  induction items with
  | nil => simp
  | cons i r ih =>
    have : 1 ≤ i.size := by cases i <;> simp [Item.size]
    simp only [List.length_cons, sizes]; omega

theorem View.fuel {d : List W} {a : Nat} {items : List Item} {width stop : Nat}
    (v : View d a items width stop) : items.length < d.length + 1 := by
  have h1 := length_le_sizes items
  have h2 : lay a items ≠ [] → sizes items ≤ d.length := by
    intro h
    have := has_lt v.has h
    rw [lay_length] at this; omega
  by_cases h : lay a items = []
  · have := lay_length a items
    rw [h] at this
    simp only [List.length_nil] at this; omega
  · have := h2 h; omega

/-- The queries fit the width of the keys. -/
def Fits (width : Nat) (q : Query) : Prop := q.1.length = width - 2 ∧ q.2.length = width - 2

/-- One search of `next_match`, from the start of a view. -/
theorem loop_read {small : Prop} {items : List Item} {l : List Log} {s : St} {width stop fuel : Nat} {q : Query}
    (hsw : s.width = width) (hh : s.head.length = width) (v : View s.d s.cur items width stop)
    (hf : items.length < fuel) (hv : s.valid = false) (hl : List.Forall₂ (Same small width) items l)
    (hq : Fits width q) :
    ∃ s' r, nextMatchLoop q.1 q.2 fuel s = some (s', r) ∧ s'.d = s.d ∧ s'.width = width ∧
      s'.head.length = width ∧ s'.bof = s.bof ∧
      (∃ items', View s'.d s'.cur items' width stop ∧
        List.Forall₂ (Same small width) items' (next (if stop = 127 then 15 else 0) q l).2 ∧
        ∃ k, k ≤ items.length ∧ items' = items.drop k ∧ s'.cur = s.cur + sizes (items.take k)) ∧
      match r with
      | none => Agree small (.error (eof s')) (next (if stop = 127 then 15 else 0) q l).1
      | some a => ∃ ws, get s' a = .ok ws ∧ Agree small (.ok ws) (next (if stop = 127 then 15 else 0) q l).1 := by
  obtain ⟨s', e1, e2, e3, e4, e5⟩ := loop_view q.1 q.2 stop items fuel s width hsw hh v hf hv
  obtain ⟨n1, n2, n3⟩ := look_next (q := q) (if stop = 127 then 15 else 0) v.width hq hl s.cur
  have hsw' : s'.width = width := by simp only [St.width, e2.hdr]; exact hsw
  refine ⟨s', _, e1, e2.d, hsw', by rw [e2.head, hsw'], e2.bof,
    ⟨_, by rw [e2.d]; exact e3, n1, by rw [e2.cur]; exact n2⟩, ?_⟩
  cases hlk : (look (hits width q.1 q.2) s.cur items).1 with
  | none =>
    rw [hlk] at n3
    simp only [Option.map_none]
    rw [n3, e5 hlk]
    rfl
  | some r =>
    obtain ⟨a, id, body⟩ := r
    rw [hlk] at n3
    simp only [Option.map_some]
    obtain ⟨ws, m1, ⟨m2, m3, m4, m5, m6⟩, k, hk⟩ := n3
    obtain ⟨g1, g2, g3⟩ := e4 a id body hlk
    obtain ⟨o1, o2, o3, o4, o5⟩ := v.ok _ (List.mem_iff_getElem?.2 ⟨k, hk⟩)
    refine ⟨_, g1, ?_⟩
    rw [m1]
    refine ⟨?_, ?_, m3, by simpa using m4, fun hs => by simpa using m5 hs⟩
    · simp only [List.getD_cons_zero]; rw [idtyp_word0 (by omega), m2]
    · simp only [List.getD_cons_zero, List.length_cons]; rw [lng_word0 (by omega)]; omega

theorem read1_view {small : Prop} {items : List Item} {l : List Log} {s : St} {width stop : Nat} {q : Query}
    (hsw : s.width = width) (hh : s.head.length = width) (v : View s.d s.cur items width stop)
    (hl : List.Forall₂ (Same small width) items l) (hq : Fits width q) :
    ∃ s' r, read1 s q = some (s', r) ∧ Agree small r (next (if stop = 127 then 15 else 0) q l).1 ∧
      s'.d = s.d ∧ s'.width = width ∧ s'.head.length = width ∧ s'.bof = s.bof ∧
      (∃ items', View s'.d s'.cur items' width stop ∧
        List.Forall₂ (Same small width) items' (next (if stop = 127 then 15 else 0) q l).2 ∧
        ∃ k, k ≤ items.length ∧ items' = items.drop k ∧ s'.cur = s.cur + sizes (items.take k)) := by
  obtain ⟨s', r, e1, e2, e3, e4, e5, e6, e7⟩ := loop_read (s := { s with valid := false })
    (fuel := s.d.length + 2) hsw hh v (by have := v.fuel; omega) rfl hl hq
  unfold read1 loc
  dsimp only
  rw [e1]
  cases r with
  | none => exact ⟨s', _, rfl, e7, e2, e3, e4, e5, e6⟩
  | some a =>
    obtain ⟨ws, g1, g2⟩ := e7
    dsimp only
    rw [g1]
    exact ⟨s', _, rfl, g2, e2, e3, e4, e5, e6⟩

theorem reads_view {small : Prop} {width stop : Nat} (qs : List Query) : ∀ {items : List Item} {l : List Log} {s : St},
    s.width = width → s.head.length = width → View s.d s.cur items width stop →
    List.Forall₂ (Same small width) items l → (∀ q ∈ qs, Fits width q) →
    ∃ out, reads s qs = some out ∧
      List.Forall₂ (Agree small) out (expect (if stop = 127 then 15 else 0) l qs) := by
  induction qs with
  | nil => intros; exact ⟨[], rfl, .nil⟩
  | cons q qs ih =>
    intro items l s hsw hh v hl hq
    obtain ⟨s', r, e1, e2, e3, e4, e5, e6, items', v', hl', -⟩ :=
      read1_view hsw hh v hl (hq q (by simp))
    obtain ⟨out, o1, o2⟩ := ih e4 e5 v' hl' fun p hp => hq p (by simp [hp])
    refine ⟨r :: out, ?_, .cons e2 o2⟩
    rw [reads, e1]
    dsimp only
    rw [o1]
    rfl

/-- A run that succeeds has written records of even length only. -/
theorem run_even (ops : List Op) : ∀ (s s' : St), run s ops = some s' →
    ∀ data junk, Op.put data junk ∈ ops → data.length % 2 = 0 := by
  induction ops with
  | nil => intro s s' _ d j h; simp at h
  | cons op ops ih =>
    intro s s' h d j hm
    simp only [run] at h
    split at h
    · exact absurd h (by simp)
    case h_2 s1 hs =>
    rcases List.mem_cons.1 hm with hm | hm
    · subst hm
      simp only [step] at hs
      split at hs
      case h_2 => exact absurd hs (by simp)
      case h_1 s2 hp =>
      unfold put at hp
      by_contra hc
      rw [if_pos (by omega)] at hp
      simp at hp
    · exact ih s1 s' h d j hm

/-- The parameters of a file that can be created: keys of at least one 64 bit word, a signature other
than that of random files. -/
structure Fine (sign : W) (lprm : Nat) (keys : List W) : Prop where
  one : 1 ≤ lprm
  lprm : lprm < 2 ^ 16
  even : keys.length % 2 = 0
  keys : keys.length < 2 ^ 20
  sign : sign ≠ 0x53544452#32 ∧ sign ≠ 0x73746472#32

/-- What is known of a file created, written, closed and opened again. -/
theorem reopened {sign : W} {nprm : BitVec 16} {lprm : Nat} {auxw : W} {keys : List W}
    (hf : Fine sign lprm keys) {ops : List Op} (hne : ops ≠ []) (hok : ∀ op ∈ ops, op.Ok (2 * lprm)) {s : St}
    (hr : run (create sign nprm lprm auxw keys) ops = some s) (mode : Nat) :
    Done s (keys.length + 16) (itemsOf (keys.length + 16) ops) ∧ s.width = 2 * lprm ∧
    2 * s.hdr.fsiz ≤ s.cur ∧
    List.Forall₂ (Same ((close s).length < 2 ^ 23) (2 * lprm)) (itemsOf (keys.length + 16) ops) (log ops) ∧
    ∃ s0, openFile (close s) mode = some (.ok s0) ∧
      At s0 (keys.length + 16) (itemsOf (keys.length + 16) ops) (2 * lprm) 127 0 ∧
      s0.hdr = { s.hdr with rwflg := mode } ∧ s0.d = close s ∧ s0.fsize = s0.d.length ∧ s0.valid = false := by
  have hinv := create_inv sign nprm lprm auxw keys hf.one hf.lprm hf.even hf.keys hf.sign
  have hw : (create sign nprm lprm auxw keys).width = 2 * lprm := rfl
  have hcur : (create sign nprm lprm auxw keys).cur = keys.length + 16 := by
    have := hf.even
    simp only [create]; omega
  obtain ⟨-, r2, r3, -⟩ := Inv.run ops _ s [] hinv (by rw [hw]; exact hok) hr
  have hfz := run_fsiz ops _ s hr
  have hfz0 : 2 * (create sign nprm lprm auxw keys).hdr.fsiz = (create sign nprm lprm auxw keys).cur := rfl
  rw [hw] at r3
  rw [hcur, List.nil_append] at r2
  have hd := r2 hne
  obtain ⟨s0, e1, e2, e3, e4, e5, e6, e7, e8, e9, e10⟩ := hd.reopen mode
  obtain ⟨-, -, n, x, ce⟩ := hd.close
  have hce := has_lt ce (by simp)
  simp only [List.length_cons, List.length_nil] at hce
  have hev := hf.even
  refine ⟨hd, r3, by omega, ?_, s0, e1, ⟨by rw [← r3]; exact e10, by simp [e4, sizes], e5, by simp,
    by rw [e6, r3], by rw [e7, List.length_replicate, r3]⟩, e2, e3, e9, e8⟩
  refine items_log _ _ (by have := hf.one; omega) ops _ (by omega) hok (run_even ops _ s hr) ?_
  intro hs
  have := hd.cur
  omega

/-- A bound on the words a call adds. -/
def Op.cost : Op → Nat
  | .put data _ => data.length + 131
  | .weo _ _ => 2

theorem run_some (ops : List Op) : ∀ (s : St) (H : Nat) (items : List Item), Inv s H items →
    (∀ op ∈ ops, op.Ok s.width) → (∀ data junk, Op.put data junk ∈ ops → data.length % 2 = 0) →
    s.cur + (ops.map Op.cost).sum + 200 < 2 ^ 31 → ∃ s', run s ops = some s' := by
  induction ops with
  | nil => intro s _ _ _ _ _ _; exact ⟨s, rfl⟩
  | cons op ops ih =>
    intro s H items h hok hev hb
    simp only [List.map_cons, List.sum_cons] at hb
    have ho := hok op (by simp)
    have hs : ∃ s1, step s op = some s1 := by
      cases op with
      | put data junk =>
        have hw := h.width
        have := hev data junk (by simp)
        obtain ⟨o1, o2, o3, o4⟩ := ho
        simp only [Op.cost] at hb
        simp only [step, put]
        rw [if_neg (by omega), if_neg h.rw, if_neg (by omega)]
        exact ⟨_, rfl⟩
      | weo level junk =>
        simp only [step, weo]
        rw [if_neg (by omega)]
        split <;> exact ⟨_, rfl⟩
    obtain ⟨s1, h1⟩ := hs
    obtain ⟨a, b, -, -, -, g, -, -⟩ := h.step op ho h1
    have hcost : sizes (op.items s.cur) ≤ op.cost := by
      cases op with
      | put data junk =>
        have hw := h.width
        obtain ⟨o1, o2, o3, o4⟩ := ho
        have he := h.even
        have := hev data junk (by simp)
        obtain ⟨c1, c2, c3, -⟩ := nextCluster_props (s.cur + data.length + 4) (by omega)
        simp only [Op.items, sizes, Item.size, Op.cost, padded, List.length_append, List.length_drop,
          List.length_map, List.length_range]
        omega
      | weo level junk =>
        simp only [Op.items, Op.cost]
        split <;> simp [sizes, Item.size]
    obtain ⟨s', h'⟩ := ih s1 H _ a.toInv (fun o m => by rw [b]; exact hok o (by simp [m]))
      (fun d j m => hev d j (by simp [m])) (by omega)
    exact ⟨s', by rw [run, h1]; exact h'⟩

/-- C101.  The calls succeed: records of even length that fit in addresses of 31 bits. -/
theorem C101_written {sign : W} {nprm : BitVec 16} {lprm : Nat} {auxw : W} {keys : List W}
    (hf : Fine sign lprm keys) {ops : List Op} (hok : ∀ op ∈ ops, op.Ok (2 * lprm))
    (hev : ∀ data junk, Op.put data junk ∈ ops → data.length % 2 = 0)
    (hb : keys.length + (ops.map Op.cost).sum + 216 < 2 ^ 31) :
    ∃ s, run (create sign nprm lprm auxw keys) ops = some s := by
  have hinv := create_inv sign nprm lprm auxw keys hf.one hf.lprm hf.even hf.keys hf.sign
  refine run_some ops _ _ _ hinv hok hev ?_
  have hcur : (create sign nprm lprm auxw keys).cur = keys.length + 16 := by
    have := hf.even
    simp only [create]; omega
  omega

/-- C101.  Records and marks written to a new file are read back in order, whatever the queries, after
the file is closed and opened in any mode. -/
theorem C101_read_back {sign : W} {nprm : BitVec 16} {lprm : Nat} {auxw : W} {keys : List W}
    (hf : Fine sign lprm keys) {ops : List Op} (hne : ops ≠ []) (hok : ∀ op ∈ ops, op.Ok (2 * lprm)) {s : St}
    (hr : run (create sign nprm lprm auxw keys) ops = some s) (mode : Nat) (qs : List Query)
    (hq : ∀ q ∈ qs, Fits (2 * lprm) q) :
    ∃ s0 out, openFile (close s) mode = some (.ok s0) ∧ reads s0 qs = some out ∧
      List.Forall₂ (Agree ((close s).length < 2 ^ 23)) out (expect 15 (log ops) qs) := by
  obtain ⟨-, -, -, hl, s0, e1, hat, -, -, -, -⟩ := reopened hf hne hok hr mode
  obtain ⟨out, o1, o2⟩ := reads_view qs hat.swidth hat.head
    (by rw [hat.cur]; simpa [sizes] using hat.view) hl hq
  exact ⟨s0, out, e1, o1, by simpa using o2⟩

/-- C101.  The same without closing: the program that wrote the file rewinds it and reads. -/
theorem C101_rewound {sign : W} {nprm : BitVec 16} {lprm : Nat} {auxw : W} {keys : List W}
    (hf : Fine sign lprm keys) (hwid : 2 * lprm ≤ keys.length + 16) {ops : List Op} (hne : ops ≠ [])
    (hok : ∀ op ∈ ops, op.Ok (2 * lprm)) {s : St}
    (hr : run (create sign nprm lprm auxw keys) ops = some s) (qs : List Query)
    (hq : ∀ q ∈ qs, Fits (2 * lprm) q) :
    ∃ out, reads (rwd s) qs = some out ∧
      List.Forall₂ (Agree ((close s).length < 2 ^ 23)) out (expect 15 (log ops) qs) := by
  cases qs with
  | nil => exact ⟨[], rfl, .nil⟩
  | cons q qs =>
  obtain ⟨hd, hw, -, hl, -⟩ := reopened hf hne hok hr 0
  have hinv := create_inv sign nprm lprm auxw keys hf.one hf.lprm hf.even hf.keys hf.sign
  have hcw : (create sign nprm lprm auxw keys).width = 2 * lprm := rfl
  have hcur : (create sign nprm lprm auxw keys).cur = keys.length + 16 := by
    have := hf.even
    simp only [create]; omega
  obtain ⟨-, -, -, r4, r5, -, r7, -, -⟩ := Inv.run ops _ s [] hinv (by rw [hcw]; exact hok) hr
  have hbof : s.bof = 0 := r4
  have hhead : s.head.length = 2 * lprm := by rw [r5]; simp [create]
  have hev := hf.even
  have hk := hf.keys
  have hone := hf.one
  -- the header of the file, skipped by the search
  have hcd : (create sign nprm lprm auxw keys).d.length = keys.length + 16 := by
    simp [create, Xdf.Header.words]
  have hhdr : Has s.d 0 (create sign nprm lprm auxw keys).d :=
    r7 0 _ (fun i hi => by rw [Nat.zero_add]) (by rw [hcd, hcur]; omega)
  have h0 : (create sign nprm lprm auxw keys).d.getD 0 0#32 = word0 0 (keys.length / 2 + 8) := rfl
  have v : View s.d (keys.length + 16) (itemsOf (keys.length + 16) ops) (2 * lprm) 127 := by
    refine ⟨hd.has, by rw [← hd.cur]; exact hd.eof, Or.inl rfl, by rw [← hw]; exact hd.ok, by omega,
      by rw [← hd.cur]; exact hd.small, by omega⟩
  have hwr : waread2 s.d 0 (2 * lprm) = (create sign nprm lprm auxw keys).d.take (2 * lprm) :=
    waread2_has hhdr (by omega) (by intro h; rw [h] at hcd; simp at hcd)
  have hstep : ∃ h : List W, h.length = 2 * lprm ∧
      loc (rwd s) .here q.1 q.2 = nextMatchLoop q.1 q.2 (s.d.length + 1)
        { s with head := h, cur := keys.length + 16, valid := false } := by
    obtain ⟨e1, e2, e3, e4⟩ := readHead_props { s with cur := s.bof, valid := false }
      (by exact hhead.trans hw.symm)
    refine ⟨_, e2.trans hw, ?_⟩
    simp only [loc, rwd]
    rw [nextMatchLoop]
    dsimp only
    have hwd : ({ s with cur := s.bof, valid := false } : St).width = 2 * lprm := hw
    rw [hwd] at e3 e4
    dsimp only at e3 e4
    rw [hbof, hwr] at e3 e4
    have hg : ({ s with cur := s.bof, valid := false } : St).readHead.1.head.getD 0 0#32 =
        word0 0 (keys.length / 2 + 8) := by
      rw [hbof, e4, ← h0]
      refine getD_append0 (by rw [List.length_take, hcd]; omega) ?_
      rw [List.getD_eq_getElem?_getD, List.getElem?_take_of_lt (by omega), ← List.getD_eq_getElem?_getD]
    rw [hg, idtyp_word0 (by omega), lng_word0 (by omega), if_neg, if_pos (Or.inl (by omega))]
    · congr 1
      rw [e1]
      simp only [hbof]
      congr 1
      omega
    · intro h
      rcases h with h | h
      · omega
      · have : ({ s with cur := s.bof, valid := false } : St).readHead.1.width = 2 * lprm := hw
        rw [this, hbof, e3, List.length_take, hcd] at h
        omega
  obtain ⟨h, hh, he⟩ := hstep
  obtain ⟨s', r, e1, e2, e3, e4, e5, ⟨items', v', hl', -⟩, e7⟩ :=
    loop_read (s := { s with head := h, cur := keys.length + 16, valid := false })
      (fuel := s.d.length + 1) (q := q) hw hh v v.fuel rfl hl (hq q (by simp))
  obtain ⟨out, o1, o2⟩ := reads_view qs e3 e4 v' hl' fun p hp => hq p (by simp [hp])
  rw [e1] at he
  cases r with
  | none =>
    refine ⟨.error (eof s') :: out, ?_, .cons e7 (by simpa using o2)⟩
    rw [reads, read1, he]
    dsimp only
    rw [o1]
    rfl
  | some a =>
    obtain ⟨ws, g1, g2⟩ := e7
    refine ⟨.ok ws :: out, ?_, .cons g2 (by simpa using o2)⟩
    rw [reads, read1, he]
    dsimp only
    rw [g1]
    dsimp only
    rw [o1]
    rfl

/-! ## Moving in a file -/

inductive Move
  | skip (n : Int)
  | rewind
  | read (q : Query)
  | first (q : Query)

/-- The query of a search. -/
def Move.query : Move → Option Query
  | .read q | .first q => some q
  | _ => none

/-- A search of the whole file (handle 0) followed by the reading of the record. -/
def first1 (s : St) (q : Query) : Option (St × Except Nat (List W)) :=
  match loc s .bof q.1 q.2 with
  | none => none
  | some (s', none) => some (s', .error (eof s'))
  | some (s', some a) =>
    match get s' a with
    | .ok ws => some (s', .ok ws)
    | .error _ => none

/-- What the caller is told. -/
inductive Told
  | skipped (ok : Bool)
  | rewound
  | seen (r : Except Nat (List W))

/-- `c_fstskp`, `c_fstrwd`, or a search, from here or from the start, followed by the reading of the record. -/
def act (s : St) : Move → Option (St × Told)
  | .skip n =>
    match skp s n with
    | none => none
    | some (s', c) => some (s', .skipped (c == .ok))
  | .rewind => some (rwd s, .rewound)
  | .read q => (read1 s q).map fun r => (r.1, .seen r.2)
  | .first q => (first1 s q).map fun r => (r.1, .seen r.2)

def acts : St → List Move → Option (List Told)
  | _, [] => some []
  | s, m :: ms =>
    match act s m with
    | none => none
    | some (s', t) => (acts s' ms).map (t :: ·)

/-- Forward by up to `n` records, from entry `i` of the history: not past a mark or the end. -/
def fwd (l : List Log) : Nat → Nat → Nat
  | 0, i => i
  | n + 1, i =>
    match l[i]? with
    | some (.data _) => fwd l n (i + 1)
    | _ => i

/-- Back by `n` records: not past a mark, which is an error unless only one or two marks come before. -/
def back (l : List Log) : Nat → Nat → Nat × Bool
  | 0, i => (i, true)
  | _ + 1, 0 => (0, true)
  | n + 1, i + 1 =>
    match l[i]? with
    | some (.data _) => back l n i
    | _ => (i + 1, i == 0 || (i == 1 && l[0]?.map Log.isData == some false))

/-- The entry reached and the answer. -/
def go (l : List Log) (i : Nat) : Move → Nat × Told
  | .skip n =>
    if n > 0 then (fwd l n.toNat i, .skipped true)
    else ((back l (-n).toNat i).1, .skipped (back l (-n).toNat i).2)
  | .rewind => (0, .rewound)
  | .read q => (l.length - (next 15 q (l.drop i)).2.length, .seen (next 15 q (l.drop i)).1)
  | .first q => (l.length - (next 15 q l).2.length, .seen (next 15 q l).1)

def plan (l : List Log) : Nat → List Move → List Told
  | _, [] => []
  | i, m :: ms => (go l i m).2 :: plan l (go l i m).1 ms

def AgreeT (small : Prop) : Told → Told → Prop
  | .skipped a, .skipped b => a = b
  | .rewound, .rewound => True
  | .seen a, .seen b => Agree small a b
  | _, _ => False

theorem same_get {small : Prop} {width : Nat} {items : List Item} {l : List Log}
    (h : List.Forall₂ (Same small width) items l) : ∀ k : Nat,
    (items[k]? = none ∧ l[k]? = none) ∨
    (∃ id body ws, items[k]? = some (Item.record id body) ∧ l[k]? = some (Log.data ws)) ∨
    (∃ lv, items[k]? = some (Item.mark lv) ∧ l[k]? = some (Log.mark lv)) := by
  induction h with
  | nil => intro k; exact Or.inl ⟨by simp, by simp⟩
  | @cons i e items l hie _ ih =>
    intro k
    cases k with
    | zero =>
      right
      cases i with
      | record id body =>
        cases e with
        | data ws => exact Or.inl ⟨id, body, ws, rfl, rfl⟩
        | mark lv => exact absurd hie (by simp [Same])
      | mark lv =>
        cases e with
        | data ws => exact absurd hie (by simp [Same])
        | mark lv' => obtain rfl : lv = lv' := hie; exact Or.inr ⟨lv, rfl, rfl⟩
    | succ k => simpa using ih k

theorem skpFwd_at {small : Prop} {H width : Nat} {items : List Item} {l : List Log}
    (hl : List.Forall₂ (Same small width) items l) : ∀ (n k : Nat) (s : St), At s H items width 127 k →
    ∃ s', skpFwd n s = some (s', .ok) ∧ At s' H items width 127 (fwd l n k) := by
  intro n
  induction n with
  | zero => intro k s h; exact ⟨s, rfl, h⟩
  | succ n ih =>
    intro k s h
    rw [skpFwd_step n h, fwd]
    rcases same_get hl k with ⟨e1, e2⟩ | ⟨id, body, ws, e1, e2⟩ | ⟨lv, e1, e2⟩
    · rw [e1, e2]; exact ⟨s, rfl, h⟩
    · rw [e1, e2]
      exact ih (k + 1) _ (h.set (List.getElem?_eq_some_iff.1 e1).1)
    · rw [e1, e2]; exact ⟨s, rfl, h⟩

theorem skpBack_at {small : Prop} {H width : Nat} {items : List Item} {l : List Log}
    (hl : List.Forall₂ (Same small width) items l) : ∀ (n k : Nat) (s : St), At s H items width 127 k →
    ∃ s' c, skpBack n s = some (s', c) ∧ (c == .ok) = (back l n k).2 ∧
      At s' H items width 127 (back l n k).1 := by
  intro n
  induction n with
  | zero => intro k s h; exact ⟨s, .ok, rfl, by simp [back], h⟩
  | succ n ih =>
    intro k s h
    have hcur := h.cur
    have hbof := h.bof
    cases k with
    | zero =>
      simp only [List.take_zero, sizes] at hcur
      exact ⟨s, .ok, skpBack_stay _ _ (by omega), by simp [back], by simpa [back] using h⟩
    | succ k =>
      rcases same_get hl k with ⟨e1, e2⟩ | ⟨id, body, ws, e1, e2⟩ | ⟨lv, e1, e2⟩
      · have := h.le
        have := List.getElem?_eq_none_iff.1 e1
        omega
      · rw [skpBack_record n h e1, back, e2]
        exact ih k _ (h.set (by have := h.le; omega))
      · obtain ⟨a1, a2, a3, a4, a5⟩ := h.view.at e1
        simp only [Item.size] at a3
        have hb : back l (n + 1) (k + 1) =
            (k + 1, k == 0 || (k == 1 && l[0]?.map Log.isData == some false)) := by
          rw [back, e2]
        rw [hb]
        by_cases h4 : 4 < sizes (items.take (k + 1))
        · refine ⟨s, .noPostfix, skpBack_mark n h e1 h4, ?_, h⟩
          have hk0 : k ≠ 0 := by rintro rfl; simp only [List.take_zero, sizes] at a3; omega
          by_cases hk1 : k = 1
          · subst hk1
            rcases same_get hl 0 with ⟨f1, f2⟩ | ⟨id, body, ws, f1, f2⟩ | ⟨lv', f1, f2⟩
            · rw [f2]; rfl
            · rw [f2]; rfl
            · obtain ⟨-, -, b3, -, -⟩ := h.view.at f1
              simp only [List.take_zero, sizes, Item.size, Nat.zero_add] at b3
              omega
          · have : (k == 0) = false := by simpa using hk0
            have h1 : (k == 1) = false := by simpa using hk1
            rw [this, h1]; rfl
        · refine ⟨s, .ok, skpBack_stay _ _ (by omega), ?_, h⟩
          by_cases hk0 : k = 0
          · subst hk0; rfl
          · obtain ⟨j, rfl⟩ : ∃ j, k = j + 1 := ⟨k - 1, by omega⟩
            have hlt := (List.getElem?_eq_some_iff.1 e1).1
            have h0 : items[0]? = some items[0] := List.getElem?_eq_getElem _
            obtain ⟨b1, b2, b3, b4, b5⟩ := h.view.at h0
            simp only [List.take_zero, sizes] at b3
            have hmono : j = 0 ∨ sizes (items.take (0 + 1)) + 2 ≤ sizes (items.take (j + 1)) := by
              cases j with
              | zero => exact Or.inl rfl
              | succ j =>
                right
                have hj : items[j + 1]? = some items[j + 1] := List.getElem?_eq_getElem _
                obtain ⟨-, -, c3, -, -⟩ := h.view.at hj
                have hsz : 2 ≤ items[j + 1].size := by cases items[j + 1] <;> simp [Item.size]
                have : sizes (items.take (0 + 1)) ≤ sizes (items.take (j + 1)) := by
                  have := congrArg sizes (List.take_append_drop (0 + 1) (items.take (j + 1)))
                  rw [sizes_append, List.take_take, Nat.min_eq_left (by omega)] at this
                  omega
                omega
            have h2 : 2 ≤ items[0].size := by cases items[0] <;> simp [Item.size]
            rcases same_get hl 0 with ⟨f1, f2⟩ | ⟨id, body, ws, f1, f2⟩ | ⟨lv', f1, f2⟩
            · rw [h0] at f1; simp at f1
            · rw [h0] at f1
              simp only [Option.some.injEq] at f1
              have hsz : 6 ≤ items[0].size := by rw [f1]; simp [Item.size]
              rcases hmono with hm | hm
              · subst hm; omega
              · omega
            · rcases hmono with hm | hm
              · subst hm; rw [f2]; rfl
              · omega

theorem sizes_take_add (items : List Item) (i k : Nat) :
    sizes (items.take (i + k)) = sizes (items.take i) + sizes ((items.drop i).take k) := by
  rw [List.take_add, sizes_append]

theorem read_at {small : Prop} {H width k : Nat} {items : List Item} {l : List Log} {s : St}
    (hl : List.Forall₂ (Same small width) items l) (h : At s H items width 127 k) {q : Query} (hq : Fits width q) :
    ∃ s' t, act s (.read q) = some (s', t) ∧ AgreeT small t (go l k (.read q)).2 ∧
      At s' H items width 127 (go l k (.read q)).1 := by
  have v := h.view.drop k
  rw [← h.cur] at v
  obtain ⟨s', r, e1, e2, e3, e4, e5, e6, items', v', hl', j, j1, j2, j3⟩ :=
    read1_view h.swidth h.head v (List.forall₂_drop k hl) hq
  simp only [if_true] at e2 hl'
  simp only [act, e1, go, Option.map_some]
  refine ⟨s', _, rfl, e2, ?_⟩
  have hlen := hl.length_eq
  have hlen' := hl'.length_eq
  have hle := h.le
  rw [j2, List.length_drop, List.length_drop] at hlen'
  rw [List.length_drop] at j1
  have hidx : l.length - (next 15 q (l.drop k)).2.length = k + j := by omega
  rw [hidx]
  refine ⟨by rw [e3]; exact h.view, ?_, by rw [e6]; exact h.bof, by omega, e4, e5⟩
  rw [j3, h.cur, sizes_take_add, Nat.add_assoc]

theorem rwd_at {H width k : Nat} {items : List Item} {s : St} (h : At s H items width 127 k) :
    At (rwd s) H items width 127 0 := by
  refine ⟨h.view, ?_, h.bof, by simp, h.swidth, h.head⟩
  simp [rwd, sizes, h.bof]

theorem act_at {small : Prop} {H width k : Nat} {items : List Item} {l : List Log} {s : St}
    (hl : List.Forall₂ (Same small width) items l) (h : At s H items width 127 k) (m : Move)
    (hm : ∀ q, m.query = some q → Fits width q) :
    ∃ s' t, act s m = some (s', t) ∧ AgreeT small t (go l k m).2 ∧ At s' H items width 127 (go l k m).1 := by
  cases m with
  | skip n =>
    simp only [act, skp, go]
    by_cases hn : n > 0
    · rw [if_pos hn, if_pos hn]
      obtain ⟨s', e1, e2⟩ := skpFwd_at hl n.toNat k s h
      rw [e1]
      exact ⟨s', _, rfl, by simp [AgreeT], e2⟩
    · rw [if_neg hn, if_neg hn]
      obtain ⟨s', c, e1, e2, e3⟩ := skpBack_at hl (-n).toNat k s h
      rw [e1]
      exact ⟨s', _, rfl, e2, e3⟩
  | rewind =>
    refine ⟨rwd s, .rewound, rfl, trivial, h.view, ?_, h.bof, by simp [go], h.swidth, h.head⟩
    simp [rwd, go, sizes, h.bof]
  | read q => exact read_at hl h (hm q rfl)
  | first q =>
    have e : act s (.first q) = act (rwd s) (.read q) := rfl
    rw [e]
    have := read_at hl (rwd_at h) (hm q rfl)
    simpa only [go, List.drop_zero] using this

theorem acts_at {small : Prop} {H width : Nat} {items : List Item} {l : List Log}
    (hl : List.Forall₂ (Same small width) items l) (ms : List Move) : ∀ (k : Nat) (s : St),
    At s H items width 127 k → (∀ m ∈ ms, ∀ q, m.query = some q → Fits width q) →
    ∃ out, acts s ms = some out ∧ List.Forall₂ (AgreeT small) out (plan l k ms) := by
  induction ms with
  | nil => intros; exact ⟨[], rfl, .nil⟩
  | cons m ms ih =>
    intro k s h hm
    obtain ⟨s', t, e1, e2, e3⟩ := act_at hl h m (hm m (by simp))
    obtain ⟨out, o1, o2⟩ := ih _ s' e3 fun m' hm' => hm m' (by simp [hm'])
    refine ⟨t :: out, ?_, .cons e2 o2⟩
    rw [acts, e1]
    dsimp only
    rw [o1]
    rfl

/-- C102.  In a file opened again, any sequence of skips, rewinds and searches does what the history of
the file says, position by position.  Missing: the session that created the file, and files of
1989 (see the witnesses). -/
theorem C102_moves_partial {sign : W} {nprm : BitVec 16} {lprm : Nat} {auxw : W} {keys : List W}
    (hf : Fine sign lprm keys) {ops : List Op} (hne : ops ≠ []) (hok : ∀ op ∈ ops, op.Ok (2 * lprm)) {s : St}
    (hr : run (create sign nprm lprm auxw keys) ops = some s) (mode : Nat) (ms : List Move)
    (hm : ∀ m ∈ ms, ∀ q, m.query = some q → Fits (2 * lprm) q) :
    ∃ s0 out, openFile (close s) mode = some (.ok s0) ∧ acts s0 ms = some out ∧
      List.Forall₂ (AgreeT ((close s).length < 2 ^ 23)) out (plan (log ops) 0 ms) := by
  obtain ⟨-, -, -, hl, s0, e1, hat, -, -, -, -⟩ := reopened hf hne hok hr mode
  obtain ⟨out, o1, o2⟩ := acts_at hl ms 0 s0 hat hm
  exact ⟨s0, out, e1, o1, o2⟩

theorem fwd_records (l : List Log) (m : Nat) (hm : m = (l.takeWhile Log.isData).length) :
    ∀ n i, i ≤ m → fwd l n i = min m (i + n) := by
  have hlt : ∀ i, i < m → ∃ ws, l[i]? = some (Log.data ws) := by
    intro i hi
    have h1 : (l.takeWhile Log.isData)[i]? = some (l.takeWhile Log.isData)[i] :=
      List.getElem?_eq_getElem (by omega)
    have h2 := List.all_eq_true.1 (List.all_takeWhile (p := Log.isData) (l := l)) _
      (List.getElem_mem (show i < (l.takeWhile Log.isData).length by omega))
    have h3 : l[i]? = (l.takeWhile Log.isData)[i]? := by
      conv_lhs => rw [← List.takeWhile_append_dropWhile (p := Log.isData) (l := l)]
      rw [List.getElem?_append_left (by omega)]
    rw [h3, h1]
    generalize (l.takeWhile Log.isData)[i] = e at h2
    cases e with
    | data ws => exact ⟨ws, rfl⟩
    | mark lv => simp [Log.isData] at h2
  have hend : ∀ ws, l[m]? ≠ some (Log.data ws) := by
    intro ws h
    rw [← List.takeWhile_append_dropWhile (p := Log.isData) (l := l), List.getElem?_append_right (by omega),
      ← hm, Nat.sub_self, ← List.head?_eq_getElem?] at h
    have := List.head?_dropWhile_not (p := Log.isData) (l := l)
    rw [h] at this
    simp [Log.isData] at this
  intro n
  induction n with
  | zero => intro i hi; simp only [fwd]; omega
  | succ n ih =>
    intro i hi
    rw [fwd]
    by_cases h : i < m
    · obtain ⟨ws, hw⟩ := hlt i h
      rw [hw]
      dsimp only
      rw [ih (i + 1) (by omega)]; omega
    · obtain rfl : i = m := by omega
      split
      · rename_i ws h; exact absurd h (hend ws)
      · omega

theorem back_records (l : List Log) (m : Nat) (hm : m = (l.takeWhile Log.isData).length) :
    ∀ n i, i ≤ m → back l n i = (i - n, true) := by
  intro n
  induction n with
  | zero => intro i hi; rfl
  | succ n ih =>
    intro i hi
    cases i with
    | zero => simp [back]
    | succ i =>
      have h1 : fwd l 1 i = i + 1 := by rw [fwd_records l m hm 1 i (by omega)]; omega
      rw [back]
      have : ∃ ws, l[i]? = some (Log.data ws) := by
        rw [fwd] at h1
        split at h1
        · exact ⟨_, by assumption⟩
        · omega
      obtain ⟨ws, hw⟩ := this
      rw [hw]
      dsimp only
      rw [ih i (by omega)]; simp

/-- C102.  What the plan says of skips in the first logical file: the position is the sum of the skips,
kept after each between 0 and the number of records. -/
theorem C102_clamp (l : List Log) (m : Nat) (hm : m = (l.takeWhile Log.isData).length) (i : Nat) (hi : i ≤ m)
    (n : Int) :
    go l i (.skip n) = ((max 0 (min (m : Int) (i + n))).toNat, .skipped true) := by
  rw [go]
  by_cases hn : n > 0
  · rw [if_pos hn, fwd_records l m hm _ i hi]
    congr 1; omega
  · rw [if_neg hn, back_records l m hm _ i hi]
    congr 1; dsimp only; omega

/-- C102.  On a file of 1989 `c_fstskp` goes nowhere: the loop for each direction runs up to a bound of
the other sign. -/
theorem C102_1989_witness (fwd back : Nat → Nat) (cur : Nat) (n : Int) : skp89 fwd back cur n = cur := by
  unfold skp89
  split
  · rw [show n.toNat = 0 by omega]; rfl
  · rw [show (-n).toNat = 0 by omega]; rfl

/-! ## Appending -/

theorem takeWhile_same {small : Prop} {width : Nat} {items : List Item} {l : List Log}
    (h : List.Forall₂ (Same small width) items l) :
    List.Forall₂ (Same small width) (items.takeWhile Item.isRecord) (l.takeWhile Log.isData) := by
  induction h with
  | nil => exact .nil
  | @cons i e items l hie _ ih =>
    cases i with
    | record id body =>
      cases e with
      | data ws => simp only [List.takeWhile_cons, Item.isRecord, Log.isData, if_true]; exact .cons hie ih
      | mark lv => exact absurd hie (by simp [Same])
    | mark lv =>
      cases e with
      | data ws => exact absurd hie (by simp [Same])
      | mark lv' => simp [Item.isRecord, Log.isData]

theorem Same.mono {a b : Prop} (hab : b → a) {width : Nat} {i : Item} {e : Log} (h : Same a width i e) :
    Same b width i e := by
  cases i <;> cases e
  · obtain ⟨h1, h2, h3, h4, h5⟩ := h; exact ⟨h1, h2, h3, fun hb => h4 (hab hb), h5⟩
  · exact h
  · exact h
  · exact h

theorem double_le_sizes (items : List Item) : 2 * items.length ≤ sizes items := by
  induction items with
  | nil => simp
  | cons i r ih =>
    have : 2 ≤ i.size := by cases i <;> simp [Item.size]
    simp only [List.length_cons, sizes]; omega

/-- C103.  A file opened again for writing and positioned by `c_fstapp` keeps the records before its first
mark, and what is then written follows them.  Missing: what comes after a mark (see the witness). -/
theorem C103_append_partial {sign : W} {nprm : BitVec 16} {lprm : Nat} {auxw : W} {keys : List W}
    (hf : Fine sign lprm keys) {ops : List Op} (hne : ops ≠ []) (hok : ∀ op ∈ ops, op.Ok (2 * lprm)) {s : St}
    (hr : run (create sign nprm lprm auxw keys) ops = some s) (mode : Nat) (hmode : mode ≠ RDMODE)
    (hmode' : mode < 2 ^ 32) :
    ∃ s0 s1, openFile (close s) mode = some (.ok s0) ∧ app s0 = some s1 ∧
      ∀ (ops' : List Op) (s2 : St) (mode' : Nat) (qs : List Query), ops' ≠ [] →
        (∀ op ∈ ops', op.Ok (2 * lprm)) → run s1 ops' = some s2 → (∀ q ∈ qs, Fits (2 * lprm) q) →
        ∃ s3 out, openFile (close s2) mode' = some (.ok s3) ∧ reads s3 qs = some out ∧
          List.Forall₂ (Agree ((close s).length < 2 ^ 23 ∧ (close s2).length < 2 ^ 23)) out
            (expect 15 ((log ops).takeWhile Log.isData ++ log ops') qs) := by
  obtain ⟨hd, hw, hfz, hl, s0, e1, hat, hhdr, hsd, hfs, -⟩ := reopened hf hne hok hr mode
  generalize itemsOf (keys.length + 16) ops = items at hd hl hat
  have hev := hf.even
  have v := hat.view
  have hc0 : s0.cur = keys.length + 16 := by rw [hat.cur]; simp [sizes]
  have hsz : sizes items + 2 ≤ s0.d.length := by
    obtain ⟨n, x, he⟩ := v.eof
    have := has_lt he (by simp)
    simp only [List.length_cons, List.length_nil] at this
    omega
  have hsz' : keys.length + 16 + sizes items + 2 ≤ s0.d.length := by
    obtain ⟨n, x, he⟩ := v.eof
    have := has_lt he (by simp)
    simpa using this
  have hdbl := double_le_sizes items
  obtain ⟨h, a1, a2⟩ := appLoop_view items (s0.d.length + 2) s0 _ hat.swidth hat.head
    (by rw [hc0]; exact v) (by omega)
  rw [hc0] at a1
  refine ⟨s0, _, e1, a1, ?_⟩
  have htw : ∃ r, items = items.takeWhile Item.isRecord ++ r :=
    ⟨_, (List.takeWhile_append_dropWhile (p := Item.isRecord)).symm⟩
  obtain ⟨r, hr'⟩ := htw
  have hszs : sizes (items.takeWhile Item.isRecord) ≤ sizes items := by
    have := congrArg sizes hr'
    rw [sizes_append] at this; omega
  have hsm := v.small
  have hinv : Inv { s0 with head := h, cur := keys.length + 16 + sizes (items.takeWhile Item.isRecord) }
      (keys.length + 16) (items.takeWhile Item.isRecord) := by
    have ho := hd.hok
    have hlg := hd.hlng
    have hnb := hd.nbig
    have hscur := hd.small
    have hdw := hd.width
    refine ⟨?_, ?_, ?_, ?_, ?_, ?_, ?_, rfl, ?_, ?_, ?_, ?_, ?_, ?_, ?_⟩
    · simp only [hhdr]
      exact ⟨ho.idtyp, ho.lng, ho.fsiz, ho.nbd, ho.nbig, ho.lprm, ho.nrec, hmode', ho.keys⟩
    · simp only [hhdr]; exact hlg
    · simp only [hhdr]; exact hmode
    · simp only [hhdr]; exact hd.vrsn
    · simp only [hhdr]; exact hd.nbd
    · simp only [hhdr]; exact hd.sign
    · have := v.has
      rw [hr', lay_append, has_append] at this
      exact this.1
    · dsimp only; rw [hfs]; omega
    · dsimp only; rw [hfs]; exact Nat.le_refl _
    · intro i hi
      have : St.width { s0 with head := h, cur := keys.length + 16 + sizes (items.takeWhile Item.isRecord) } =
        2 * lprm := hat.swidth
      rw [this]
      exact v.ok i (by rw [hr']; exact List.mem_append_left _ hi)
    · dsimp only; rw [hhdr]; dsimp only; omega
    · dsimp only; rw [hhdr]; exact hnb
    · dsimp only; omega
    · have : St.width { s0 with head := h, cur := keys.length + 16 + sizes (items.takeWhile Item.isRecord) } =
        2 * lprm := hat.swidth
      rw [this, ← hw]; exact hdw
  intro ops' s2 mode' qs hne' hok' hrun hq
  have hw1 : St.width { s0 with head := h, cur := keys.length + 16 + sizes (items.takeWhile Item.isRecord) } =
        2 * lprm := hat.swidth
  obtain ⟨-, r2, r3, -⟩ := Inv.run ops' _ s2 _ hinv (by rw [hw1]; exact hok') hrun
  have hd2 := r2 hne'
  rw [hw1] at r3
  dsimp only at hd2
  obtain ⟨s3, f1, f2, f3, f4, f5, f6, f7, f8, f9, f10⟩ := hd2.reopen mode'
  obtain ⟨-, -, n, x, ce⟩ := hd2.close
  have hce := has_lt ce (by simp)
  simp only [List.length_cons, List.length_nil] at hce
  have hcur2 := hd2.cur
  rw [sizes_append] at hcur2
  have hl2 := items_log ((close s).length < 2 ^ 23 ∧ (close s2).length < 2 ^ 23) (2 * lprm)
    (by have := hf.one; omega) ops' (keys.length + 16 + sizes (items.takeWhile Item.isRecord))
    (by have := hinv.even; exact this) hok' (run_even ops' _ s2 hrun) (fun hs => by omega)
  have hl1 := (takeWhile_same hl).imp (fun _ _ h => Same.mono
    (b := (close s).length < 2 ^ 23 ∧ (close s2).length < 2 ^ 23) (fun h => h.1) h)
  obtain ⟨out, o1, o2⟩ := reads_view (s := s3) qs (f6.trans r3) (by rw [f7, List.length_replicate, r3])
    (by rw [f4, ← r3]; exact f10) (List.rel_append hl1 hl2) hq
  exact ⟨s3, out, f1, o1, by simpa using o2⟩

/-! ## Deleting -/

/-- C104.  After the deletion of the first record that a query finds, the records before it are found as
before, and every search from the start ends at the deleted record, with level 0: what comes after
is not found.  Missing: the records after it. -/
theorem C104_delete_partial {sign : W} {nprm : BitVec 16} {lprm : Nat} {auxw : W} {keys : List W}
    (hf : Fine sign lprm keys) {ops : List Op} (hok : ∀ op ∈ ops, op.Ok (2 * lprm)) {s : St}
    (hr : run (create sign nprm lprm auxw keys) ops = some s) (mode : Nat) (hmode : mode ≠ RDMODE ∧ mode ≠ APPEND)
    (q : Query) (hq : Fits (2 * lprm) q) (k : Nat) (hk : ∃ ws, (log ops)[k]? = some (.data ws) ∧ Wanted q ws)
    (hbefore : ∀ j < k, ∃ ws, (log ops)[j]? = some (.data ws) ∧ ¬ Wanted q ws)
    (qs : List Query) (hqs : ∀ q ∈ qs, Fits (2 * lprm) q) :
    ∃ s0 s1 a s2 out, openFile (close s) mode = some (.ok s0) ∧ loc s0 .here q.1 q.2 = some (s1, some a) ∧
      del s1 a = some (s2, .ok) ∧ reads (rwd s2) qs = some out ∧
      List.Forall₂ (Agree ((close s).length < 2 ^ 23)) out (expect 0 ((log ops).take k) qs) := by
  have hne : ops ≠ [] := by rintro rfl; obtain ⟨ws, h, -⟩ := hk; simp [log] at h
  obtain ⟨hd, hw, hfz, hl, s0, e1, hat, hhdr, hsd, hfs, hv⟩ := reopened hf hne hok hr mode
  generalize itemsOf (keys.length + 16) ops = items at hd hl hat
  have v := hat.view
  have hc0 : s0.cur = keys.length + 16 := by rw [hat.cur]; simp [sizes]
  -- what the search finds
  have hlook : ∀ (items : List Item) (l : List Log) (k a : Nat),
      List.Forall₂ (Same ((close s).length < 2 ^ 23) (2 * lprm)) items l →
      (∃ ws, l[k]? = some (.data ws) ∧ Wanted q ws) →
      (∀ j < k, ∃ ws, l[j]? = some (.data ws) ∧ ¬ Wanted q ws) →
      ∃ id body, items[k]? = some (Item.record id body) ∧
        (look (hits (2 * lprm) q.1 q.2) a items).1 = some (a + sizes (items.take k), id, body) := by
    intro items l k a h
    induction h generalizing k a with
    | nil => rintro ⟨ws, h, -⟩; simp at h
    | @cons i e items l hie _ ih =>
      intro h1 h2
      cases k with
      | zero =>
        obtain ⟨ws, hw, hwant⟩ := h1
        simp only [List.getElem?_cons_zero, Option.some.injEq] at hw
        subst hw
        cases i with
        | mark lv => exact absurd hie (by simp [Same])
        | record id body =>
          refine ⟨id, body, rfl, ?_⟩
          rw [look, if_pos ((hits_wanted hie v.width hq).2 hwant)]
          simp [sizes]
      | succ k =>
        obtain ⟨ws, hw, hwant⟩ := h2 0 (by omega)
        simp only [List.getElem?_cons_zero, Option.some.injEq] at hw
        subst hw
        cases i with
        | mark lv => exact absurd hie (by simp [Same])
        | record id body =>
          obtain ⟨id', body', g1, g2⟩ := ih k (a + (body.length + 6)) (by simpa using h1)
            (fun j hj => by simpa using h2 (j + 1) (by omega))
          refine ⟨id', body', by simpa using g1, ?_⟩
          rw [look, if_neg (fun h => hwant ((hits_wanted hie v.width hq).1 h)), g2]
          simp [sizes, Item.size, Nat.add_assoc]
  obtain ⟨id, body, g1, g2⟩ := hlook items (log ops) k s0.cur hl hk hbefore
  obtain ⟨s1, l1, l2, l3, l4, l5⟩ := loop_view q.1 q.2 127 items (s0.d.length + 2)
    { s0 with valid := false } _ hat.swidth hat.head (by rw [hc0]; exact v) (by have := v.fuel; omega) rfl
  dsimp only at l1
  rw [g2] at l1
  simp only [Option.map_some] at l1
  have hs1d : s1.d = s0.d := l2.d
  have hs1h : s1.hdr = s0.hdr := l2.hdr
  have hrw : s1.hdr.rwflg = mode := by rw [hs1h, hhdr]
  have hs1f : s1.fsize = s1.d.length := by rw [hs1d, ← hfs]; exact l2.fsize
  obtain ⟨s2, d1, d2, d3, d4, -, d6⟩ := del_view (s := s1) (by rw [hs1d]; exact v) hs1f
    (by rw [hrw]; exact hmode) g1
  have hw1 : s1.width = 2 * lprm := by simp only [St.width, hs1h]; exact hat.swidth
  have hbof : (rwd s2).cur = keys.length + 16 := by
    simp only [rwd]; rw [d2]; exact l2.bof.trans hat.bof
  obtain ⟨out, o1, o2⟩ := reads_view (s := rwd s2) qs (by exact d3.trans hw1)
    (by simp only [rwd]; rw [d4, l2.head, hw1]) (by rw [hbof]; exact d6) (List.forall₂_take k hl) hqs
  refine ⟨s0, s1, _, s2, out, e1, ?_, d1, o1, by simpa using o2⟩
  rw [← hc0]
  exact l1

/-! ## Examples and witnesses -/

section Examples

deriving instance DecidableEq for Except

/-- A file with two 64 bit words of keys. -/
def e0 : St := create 0x53544453#32 0x1234#16 2 0#32 [7#32, 8#32]

def r1 : List W := [word0 1 0, 0#32, 10#32, 20#32, 101#32, 102#32]
def r2 : List W := [word0 1 0, 0#32, 11#32, 20#32, 201#32, 202#32]
def r3 : List W := [word0 5 0, 0#32, 12#32, 21#32]

def eops : List Op := [.put r1 fun _ => 0#32, .put r2 fun _ => 0#32, .weo 1 0, .put r3 fun _ => 0#32]

theorem fine0 : Fine 0x53544453#32 2 [7#32, 8#32] := by
  constructor <;> decide

theorem eops_ok : ∀ op ∈ eops, op.Ok (2 * 2) := by
  intro op h
  simp only [eops, List.mem_cons, List.not_mem_nil, or_false] at h
  rcases h with rfl | rfl | rfl | rfl
  · show _ ∧ _ ∧ _ ∧ _; decide
  · show _ ∧ _ ∧ _ ∧ _; decide
  · show _ ∧ _; decide
  · show _ ∧ _ ∧ _ ∧ _; decide

/-- The state after the calls, the default if one fails. -/
def after (s : St) (ops : List Op) : St := (run s ops).getD s

theorem eops_run : run e0 eops = some (after e0 eops) := by decide +kernel

def any : Query := ([0#32, 0#32], [0#32, 0#32])
def second : Query := ([0#32, 20#32], [0#32, 0xFFFFFFFF#32])

/-- The hypotheses of `C101_read_back` can be met; the answers are those written. -/
example : ∃ s0 out, openFile (close (after e0 eops)) 0 = some (.ok s0) ∧
    reads s0 [any, second, any, any, any] = some out ∧
    List.Forall₂ (Agree ((close (after e0 eops)).length < 2 ^ 23)) out
      [.ok r1, .ok r2, .error 1, .ok r3, .error 15] :=
  C101_read_back fine0 (by simp [eops]) eops_ok eops_run 0 _
    (by intro q h; simp only [List.mem_cons, List.not_mem_nil, or_false] at h
        rcases h with rfl | rfl | rfl | rfl | rfl <;> exact ⟨rfl, rfl⟩)

example : expect 15 (log eops) [any, second, any, any, any] =
    [.ok r1, .ok r2, .error 1, .ok r3, .error 15] := by decide +kernel

example : (close (after e0 eops)).length = 50 := by decide +kernel

/-- The hypotheses of `C101_rewound`. -/
example : ∃ out, reads (rwd (after e0 eops)) [second, any] = some out ∧
    List.Forall₂ (Agree ((close (after e0 eops)).length < 2 ^ 23)) out [.ok r1, .ok r2] :=
  C101_rewound fine0 (by decide) (by simp [eops]) eops_ok eops_run _
    (by intro q h; simp only [List.mem_cons, List.not_mem_nil, or_false] at h
        rcases h with rfl | rfl <;> exact ⟨rfl, rfl⟩)

/-- C101.  A file in which nothing was written has no end: the level of the end is 0. -/
theorem C101_empty_witness :
    (match openFile (close e0) 0 with | some (.ok s0) => reads s0 [any] | _ => none) =
      some [.error 0] ∧ expect 15 (log []) [any] = [.error 15] := by decide +kernel

/-- The hypotheses of `C102_moves_partial`. -/
example : ∃ s0 out, openFile (close (after e0 eops)) 0 = some (.ok s0) ∧
    acts s0 [.skip 5, .skip (-1), .read any, .read any, .skip (-1), .rewind, .read any, .read any, .first any] = some out ∧
    List.Forall₂ (AgreeT ((close (after e0 eops)).length < 2 ^ 23)) out
      [.skipped true, .skipped true, .seen (.ok r2), .seen (.error 1), .skipped false, .rewound,
       .seen (.ok r1), .seen (.ok r2), .seen (.ok r1)] :=
  C102_moves_partial fine0 (by simp [eops]) eops_ok eops_run 0 _
    (by intro m h q hq
        have : q = any := by
          simp only [List.mem_cons, List.not_mem_nil, or_false] at h
          rcases h with h | h | h | h | h | h | h | h | h <;> subst h <;>
            first | exact (Option.some.inj hq).symm | exact absurd hq (by simp [Move.query])
        subst this; exact ⟨rfl, rfl⟩)

/-- C102.  In the session that created the file, a skip after a rewind fails: the start is taken to be the
header of the file, which has no postfix.  So does a skip back from the first record. -/
theorem C102_created_witness :
    (skp (rwd (after e0 eops)) 1).map (·.2) = some .noPostfix ∧
    (skp e0 (-1)).map (·.2) = some .noPostfix ∧
    (match openFile (close (after e0 eops)) 0 with
      | some (.ok s0) => (skp s0 1).map (·.2) | _ => none) = some .ok := by decide +kernel

/-- Type 5, appended. -/
def aops : List Op := [.put r2 fun _ => 0#32]

/-- C103.  `c_fstapp` goes to the first mark, not to the end: what is written there replaces the logical
files that follow. -/
theorem C103_mark_witness :
    (match openFile (close (after e0 eops)) 1 with
      | some (.ok s0) =>
        match app s0 with
        | some s1 =>
          match openFile (close (after s1 aops)) 0 with
          | some (.ok s3) => (reads s3 [any, any, any, any]).map fun l => l.map fun
              | .ok w => .ok (w.drop 2)
              | .error n => .error n
          | _ => none
        | none => none
      | _ => none) =
      some [.ok (r1.drop 2), .ok (r2.drop 2), .ok (r2.drop 2), Except.error 15] := by decide +kernel

/-- The hypotheses of `C103_append_partial`. -/
example : ∃ s0 s1, openFile (close (after e0 eops)) 1 = some (.ok s0) ∧ app s0 = some s1 ∧
    ∀ (ops' : List Op) (s2 : St) (mode' : Nat) (qs : List Query), ops' ≠ [] →
      (∀ op ∈ ops', op.Ok (2 * 2)) → run s1 ops' = some s2 → (∀ q ∈ qs, Fits (2 * 2) q) →
      ∃ s3 out, openFile (close s2) mode' = some (.ok s3) ∧ reads s3 qs = some out ∧
        List.Forall₂ (Agree ((close (after e0 eops)).length < 2 ^ 23 ∧ (close s2).length < 2 ^ 23)) out
          (expect 15 ([.data r1, .data r2] ++ log ops') qs) :=
  C103_append_partial fine0 (by simp [eops]) eops_ok eops_run 1 (by decide) (by decide)

/-- C104.  What follows a deleted record is not found any more. -/
theorem C104_lost_witness :
    (match openFile (close (after e0 eops)) 1 with
      | some (.ok s0) =>
        match loc s0 .here any.1 any.2 with
        | some (s1, some a) =>
          match del s1 a with
          | some (s2, .ok) => reads (rwd s2) [second, any, any]
          | _ => none
        | _ => none
      | _ => none) = some [.error 0, .error 0, .error 0] ∧
    expect 15 [.data r2, .mark 1, .data r3] [second, any, any] = [.ok r2, .error 1, .ok r3] := by
  decide +kernel

/-- The hypotheses of `C104_delete_partial`, for the second record. -/
example : ∃ s0 s1 a s2 out, openFile (close (after e0 eops)) 1 = some (.ok s0) ∧
    loc s0 .here [11#32, 20#32] [0xFF#32, 0#32] = some (s1, some a) ∧ del s1 a = some (s2, .ok) ∧
    reads (rwd s2) [any, any] = some out ∧
    List.Forall₂ (Agree ((close (after e0 eops)).length < 2 ^ 23)) out [.ok r1, .error 0] :=
  C104_delete_partial fine0 eops_ok eops_run 1 (by decide) ([11#32, 20#32], [0xFF#32, 0#32]) ⟨rfl, rfl⟩ 1
    ⟨r2, rfl, by decide⟩ (by intro j hj; obtain rfl : j = 0 := by omega
                             exact ⟨r1, rfl, by decide⟩) _
    (by intro q h; simp only [List.mem_cons, List.not_mem_nil, or_false] at h
        rcases h with rfl | rfl <;> exact ⟨rfl, rfl⟩)

end Examples

end Verif.XdfSeq
