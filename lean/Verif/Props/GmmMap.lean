/-
The memory manager of named arrays behaves as a map from names to arrays
(model: `Verif/Gmm.lean`, specification: `Verif/Props/Gmm.lean`).
-/
import Verif.Props.Gmm

namespace Props.NamedArrays
open Gmm

theorem nonempty_of {s : S} {i : Nat} {e : Entry} (hi : s.dir[i]? = some e) (c : Nat) :
    s.dir = [] → c = 0 := by
  intro h
  rw [h] at hi
  simp at hi

theorem bit1 (x : BitVec 32) : (x &&& 2 ≠ 0) ↔ x.getLsbD 1 = true := by
  have h : (2 : BitVec 32) = BitVec.twoPow 32 1 := by decide
  rw [h, BitVec.and_twoPow]
  cases x.getLsbD 1 <;> simp
  decide

theorem bit2 (x : BitVec 32) : (x &&& 4 ≠ 0) ↔ x.getLsbD 2 = true := by
  have h : (4 : BitVec 32) = BitVec.twoPow 32 2 := by decide
  rw [h, BitVec.and_twoPow]
  cases x.getLsbD 2 <;> simp
  decide

theorem bit5 (x : BitVec 32) : (x &&& 32 ≠ 0) ↔ x.getLsbD 5 = true := by
  have h : (32 : BitVec 32) = BitVec.twoPow 32 5 := by decide
  rw [h, BitVec.and_twoPow]
  cases x.getLsbD 5 <;> simp
  decide

theorem fill_eq (x : BitVec 32) (nan : Nat) (d : List Nat) :
    fill ((x &&& 7) ||| 32) nan d = d.map (start x nan id) := by
  have h1 : ((x &&& 7) ||| 32).getLsbD 1 = x.getLsbD 1 := by
    rw [BitVec.getLsbD_or, BitVec.getLsbD_and]
    have a : (7 : BitVec 32).getLsbD 1 = true := by decide
    have b : (32 : BitVec 32).getLsbD 1 = false := by decide
    rw [a, b]; simp
  have h2 : ((x &&& 7) ||| 32).getLsbD 2 = x.getLsbD 2 := by
    rw [BitVec.getLsbD_or, BitVec.getLsbD_and]
    have a : (7 : BitVec 32).getLsbD 2 = true := by decide
    have b : (32 : BitVec 32).getLsbD 2 = false := by decide
    rw [a, b]; simp
  have e1 := bit1 ((x &&& 7) ||| 32)
  have e2 := bit2 ((x &&& 7) ||| 32)
  rw [h1] at e1
  rw [h2] at e2
  unfold fill start
  simp only [e1, e2]
  cases x.getLsbD 1 <;> cases x.getLsbD 2 <;> simp

theorem rank_iff {l : List Dim} (hl : l.length = 4) (hx : ∃ d ∈ l, d.n ≠ 0) (junk : Nat) {t : Nat}
    (ht : t ∈ exts) : (rankOf junk l = rank t) ↔ lastUsed l (t % 10) = true := by
  obtain ⟨-, -, h1, h4⟩ := exts_pos ht
  have hr : rank t = t % 10 := rfl
  rw [← hr]
  generalize rank t = r at *
  match l, hl with
  | [a, b, c, d], _ =>
    simp only [List.mem_cons, List.not_mem_nil, or_false, exists_eq_or_imp, exists_eq_left] at hx
    have hr : r = 1 ∨ r = 2 ∨ r = 3 ∨ r = 4 := by omega
    by_cases ha : a.n = 0 <;> by_cases hb : b.n = 0 <;> by_cases hc : c.n = 0 <;>
      by_cases hd : d.n = 0 <;> rcases hr with rfl | rfl | rfl | rfl <;>
      simp [rankOf, lastUsed, ha, hb, hc, hd] <;> simp_all

theorem Rel.congr {s : S} {sp sp' : Spec} (h : Rel s sp') (e : sp = sp') : Rel s sp := e ▸ h

/-- What one call does is what the specification says. -/
def Simulates (s : S) (sp : Spec) (op : Op) : Prop :=
  ∃ s', step s op = some (s', (sstep sp op).2) ∧ Rel s' (sstep sp op).1

theorem sim_alloc {s : S} {sp : Spec} (h : Rel s sp) (arr : Arr) : Simulates s sp (.alloc arr) := by
  refine ⟨{ s with heap := s.heap ++ [some arr] }, ?_, ?_⟩
  · simp only [step, sstep, h.heap]
  · refine ⟨⟨h.inv.cur0, h.inv.len4, h.inv.uniq, ?_, h.inv.sep, h.inv.key, h.inv.dead⟩, ?_, h.cnt,
      fun n hn f => h.map n hn f⟩
    · intro i e hi hn
      obtain ⟨h1, ad, arr', hp, ha⟩ := h.inv.own i e hi hn
      refine ⟨h1, ad, arr', hp, ?_⟩
      have hlt := (List.getElem?_eq_some_iff.1 ha).1
      show (s.heap ++ [some arr])[ad]? = _
      rw [List.getElem?_append_left hlt]
      exact ha
    · simp only [sstep, h.heap]

theorem sim_store {s : S} {sp : Spec} (h : Rel s sp) (ad : Nat) (data : List Nat) :
    Simulates s sp (.store ad data) := by
  refine ⟨{ s with heap := s.heap.modify ad (·.map fun arr => { arr with data := data }) }, ?_, ?_⟩
  · simp only [step, sstep]
  · refine ⟨⟨h.inv.cur0, h.inv.len4, h.inv.uniq, ?_, h.inv.sep, h.inv.key, h.inv.dead⟩, ?_, h.cnt,
      fun n hn f => h.map n hn f⟩
    · intro i e hi hn
      obtain ⟨h1, a, arr', hp, ha⟩ := h.inv.own i e hi hn
      refine ⟨h1, a, if ad = a then { arr' with data := data } else arr', hp, ?_⟩
      show (s.heap.modify ad _)[a]? = _
      rw [List.getElem?_modify, ha]
      by_cases had : ad = a <;> simp [had]
    · simp only [sstep, h.heap]

theorem sim_get {s : S} {sp : Spec} (h : Rel s sp) {ext : Nat} {name : Name} {junk : Nat}
    (hpre : Pre sp (.get ext name junk)) : Simulates s sp (.get ext name junk) := by
  obtain ⟨ht, hext, hf⟩ := hpre
  rcases lookup h ht with ⟨hm, hfind, -⟩ | ⟨i, e, ad, arr, hi, hn, hp, ha, hm, hfind⟩
  · refine ⟨{ s with cur := 0 }, ?_, ?_⟩
    · simp [step, sstep, Gmm.get, locate_eq h.inv, hfind, hm]
    · simp only [sstep, hm]
      exact h.cursor 0 (fun _ => rfl)
  · obtain ⟨hd, hty⟩ := hf _ hm
    have hl4 := h.inv.len4 i e hi
    have hiff := rank_iff hl4 hd junk hext
    refine ⟨{ s with cur := i + 1 }, ?_, ?_⟩
    · by_cases hr : rankOf junk e.l = rank ext
      · have hlu := hiff.1 hr
        have hty' : e.dtype = ext := hty hlu
        have hp' : pointer { s with cur := i + 1 } ext e.pti = some (some ad) := by
          rw [← hty']; exact hp
        simp [step, sstep, Gmm.get, locate_eq h.inv, hfind, hm, hi, hr, hp', hlu, fieldOf, bare]
      · have hlu : ¬ (lastUsed (fieldOf e ad).l (ext % 10) = true) := fun hx => hr (hiff.2 hx)
        simp [step, sstep, Gmm.get, locate_eq h.inv, hfind, hm, hi, hr, hlu]
    · have : (sstep sp (.get ext name junk)).1 = sp := by
        simp only [sstep, hm]
        split <;> rfl
      rw [this]
      exact h.cursor _ (nonempty_of hi _)

theorem sim_getmeta {s : S} {sp : Spec} (h : Rel s sp) {name : Name}
    (ht : fixed name ≠ tomb) : Simulates s sp (.getmeta name) := by
  rcases lookup h ht with ⟨hm, hfind, -⟩ | ⟨i, e, ad, arr, hi, hn, hp, ha, hm, hfind⟩
  · refine ⟨{ s with cur := 0 }, ?_, ?_⟩
    · simp [step, sstep, getmeta, hfind, hm]
    · simp only [sstep, hm]
      exact h.cursor 0 (fun _ => rfl)
  · refine ⟨{ s with cur := i + 1 }, ?_, ?_⟩
    · have hk : ¬ (keyOf i e.dtype = -2) := by simp only [keyOf]; omega
      simp [step, sstep, getmeta, hfind, hm, hk, hi, fieldOf, bare]
    · simp only [sstep, hm]
      exact h.cursor _ (nonempty_of hi _)

theorem sim_update {s : S} {sp : Spec} (h : Rel s sp) {name : Name} {m : Meta}
    (hpre : Pre sp (.update name m)) : Simulates s sp (.update name m) := by
  obtain ⟨ht, hl⟩ := hpre
  rcases lookup h ht with ⟨hm, hfind, -⟩ | ⟨i, e, ad, arr, hi, hn, hp, ha, hm, hfind⟩
  · refine ⟨{ s with cur := 0 }, ?_, ?_⟩
    · simp [step, sstep, updatemeta, locate_eq h.inv, hfind, hm]
    · simp only [sstep, hm]
      exact h.cursor 0 (fun _ => rfl)
  · have hset := set_entry h (e' := { e with
        l := List.zipWith updateDim e.l m.l
        a := { e.a with uuid1 := m.a.uuid1, uuid2 := m.a.uuid2, flags := m.a.flags } }) hi
      (by rw [hn]; exact ht) hp rfl rfl rfl
      (by simp [h.inv.len4 i e hi, hl]) (by show e.name ≠ tomb; rw [hn]; exact ht)
      (fun j e2 hj hne => h.inv.uniq j i e2 e hj hi hne (by
        have : e2.name = e.name := hne
        rw [this, hn]; exact ht))
    refine ⟨{ s with
        dir := s.dir.set i { e with
          l := List.zipWith updateDim e.l m.l
          a := { e.a with uuid1 := m.a.uuid1, uuid2 := m.a.uuid2, flags := m.a.flags } }
        cur := i + 1 }, ?_, ?_⟩
    · simp [step, sstep, updatemeta, locate_eq h.inv, hfind, hm, hi]
    · have : (sstep sp (.update name m)).1 = { sp with
          map := put (del sp.map e.name) e.name (fieldOf { e with
            l := List.zipWith updateDim e.l m.l
            a := { e.a with uuid1 := m.a.uuid1, uuid2 := m.a.uuid2, flags := m.a.flags } } ad) } := by
        simp only [sstep, hm]
        congr 1
        funext k
        rw [hn]
        unfold put del
        by_cases hk : k = fixed name
        · rw [if_pos hk, if_pos hk]; rfl
        · rw [if_neg hk, if_neg hk, if_neg hk]
      rw [this]
      exact hset

theorem sim_delete {s : S} {sp : Spec} (h : Rel s sp) {name : Name}
    (ht : fixed name ≠ tomb) : Simulates s sp (.delete name) := by
  rcases lookup h ht with ⟨hm, hfind, -⟩ | ⟨i, e, ad, arr, hi, hn, hp, ha, hm, hfind⟩
  · refine ⟨{ s with cur := 0 }, ?_, ?_⟩
    · simp [step, sstep, delete, locate_eq h.inv, hfind, hm]
    · simp only [sstep, hm]
      exact h.cursor 0 (fun _ => rfl)
  · have hlive : e.name ≠ tomb := by rw [hn]; exact ht
    have hdel := del_entry h (c := i + 1) (e' := { e with
      name := tomb, l := List.replicate 4 nullDim, a := nullAttr }) hi hlive hp rfl rfl rfl
    have hty := (h.inv.own i e hi hlive).1
    have hp' : pointer { s with cur := i + 1 } e.dtype e.pti = some (some ad) := hp
    refine ⟨⟨s.dir.set i { e with
          name := tomb, l := List.replicate 4 nullDim, a := nullAttr }, i + 1,
        fun t => if t = e.dtype then (s.ptrs t).set (e.pti - 1) none else s.ptrs t,
        s.heap.set ad none, s.restart⟩, ?_, ?_⟩
    · simp [step, sstep, delete, locate_eq h.inv, hfind, hm, hi, hty, dealloc, hp', S.at, ha]
    · have : (sstep sp (.delete name)).1
          = { sp with map := del sp.map e.name, heap := sp.heap.set ad none } := by
        simp only [sstep, hm, hn]
        rfl
      rw [this]
      exact hdel

theorem sim_rename {s : S} {sp : Spec} (h : Rel s sp) {old new : Name}
    (ho : fixed old ≠ tomb) (hw : fixed new ≠ tomb) : Simulates s sp (.rename old new) := by
  rcases lookup h hw with ⟨hm, hfind, hno⟩ | ⟨i, e, ad, arr, hi, hn, hp, ha, hm, hfind⟩
  · have h0 := h.cursor 0 (fun _ => rfl)
    rcases lookup h0 ho with ⟨hm2, hfind2, -⟩ | ⟨i, e, ad, arr, hi, hn, hp, ha, hm2, hfind2⟩
    · refine ⟨{ s with cur := 0 }, ?_, ?_⟩
      · simp [step, sstep, rename, hfind, hfind2, hm2]
      · simp only [sstep, hm2]
        exact h0
    · have hset := set_entry h0 (e' := { e with name := fixed new }) hi
        (by rw [hn]; exact ho) hp rfl rfl rfl (h0.inv.len4 i e hi) hw
        (fun j e2 hj hne => absurd hne (hno j e2 hj))
      refine ⟨{ s with dir := s.dir.set i { e with name := fixed new }, cur := i + 1 }, ?_, ?_⟩
      · have hk : ¬ (keyOf i e.dtype = -2) := by simp only [keyOf]; omega
        have hmod : s.dir.modify i (fun e => { e with name := fixed new })
            = s.dir.set i { e with name := fixed new } := by
          apply List.ext_getElem?
          intro j
          rw [List.getElem?_modify, List.getElem?_set]
          by_cases hj : i = j
          · subst hj
            have hi' : s.dir[i]? = some e := hi
            have hlt := (List.getElem?_eq_some_iff.1 hi').1
            simp only [if_true, if_pos hlt, hi', Option.map_some, Option.map_eq_map]
          · simp [hj]
        simp [step, sstep, rename, hfind, hfind2, hm, hm2, hk, hmod]
      · have : (sstep sp (.rename old new)).1 = { sp with
            map := put (del sp.map e.name) (fixed new) (fieldOf { e with name := fixed new } ad) } := by
          simp only [sstep, hm, hm2, hn]
          rfl
        rw [this]
        exact hset
  · refine ⟨{ s with cur := i + 1 }, ?_, ?_⟩
    · have hk : (0 : Int) ≤ keyOf i e.dtype := by simp only [keyOf]; omega
      have : (sstep sp (.rename old new)).2 = ⟨-1, none, none⟩ := by
        simp only [sstep, hm]
        cases sp.map (fixed old) <;> rfl
      rw [this]
      simp [step, rename, hfind, hk]
    · have : (sstep sp (.rename old new)).1 = sp := by
        simp only [sstep, hm]
        cases sp.map (fixed old) <;> rfl
      rw [this]
      exact h.cursor _ (nonempty_of hi _)

theorem set_append_last {α : Type} (l : List α) (a b : α) : (l ++ [a]).set l.length b = l ++ [b] := by
  rw [List.set_append_right _ _ (Nat.le_refl _)]
  simp

/-- The entry of a new variable. -/
def newEntry (s : S) (ext : Nat) (name : Name) (m : Meta) : Entry :=
  { l := m.l.take (rank ext) ++ List.replicate (4 - rank ext) nullDim
    a := { m.a with key := keyOf s.dir.length ext, flags := (m.a.flags &&& 7) ||| 32 }
    dtype := ext
    pti := (s.ptrs ext).length + 1
    name := fixed name }

theorem createNew_null {s : S} {ext : Nat} {name : Name} {m : Meta} {junk : Nat → Nat} {nan : Nat}
    (hc : s.dir.length < 2048) :
    createNew ext name none m junk nan s =
      some (⟨s.dir ++ [newEntry s ext name m], s.dir.length + 1,
        fun t => if t = ext then s.ptrs ext ++ [some s.heap.length] else s.ptrs t,
        s.heap ++ [some ⟨boundsOf ext m.l, (List.range (total (boundsOf ext m.l))).map
          (start m.a.flags nan junk)⟩], s.restart⟩,
        ⟨0, some s.heap.length, ⟨(newEntry s ext name m).l, (newEntry s ext name m).a⟩⟩) := by
  have hst : ((List.range (total (boundsOf ext m.l))).map junk).map (start m.a.flags nan id)
      = (List.range (total (boundsOf ext m.l))).map (start m.a.flags nan junk) := by
    rw [List.map_map]
    apply List.map_congr_left
    intro k _
    rfl
  have h1 : ¬ (s.dir.length ≥ 2048) := by omega
  simp only [createNew, addEntry, if_neg h1, Option.bind_eq_bind, Option.bind_some,
    Nat.add_sub_cancel, Option.getD_none, Option.isSome_none, Bool.false_eq_true, if_false,
    set_append_last, List.getElem?_concat_length, Option.join_some, fill_eq, hst]
  rfl

theorem createNew_given {s : S} {ext : Nat} {name : Name} {m : Meta} {junk : Nat → Nat} {nan : Nat}
    {ad : Nat} {arr : Arr} (hc : s.dir.length < 2048) (ha : s.heap[ad]? = some (some arr)) :
    createNew ext name (some ad) m junk nan s =
      some (⟨s.dir ++ [newEntry s ext name m], s.dir.length + 1,
        fun t => if t = ext then s.ptrs ext ++ [some ad] else s.ptrs t,
        s.heap.set ad (some { arr with data := arr.data.map (start m.a.flags nan id) }), s.restart⟩,
        ⟨0, some ad, ⟨(newEntry s ext name m).l, (newEntry s ext name m).a⟩⟩) := by
  have h1 : ¬ (s.dir.length ≥ 2048) := by omega
  simp only [createNew, addEntry, if_neg h1, Option.bind_eq_bind, Option.bind_some,
    Nat.add_sub_cancel, Option.getD_some, Option.isSome_some, if_true,
    set_append_last, ha, Option.join_some, fill_eq]
  rfl

theorem fits_eq {heap : List (Option Arr)} {ad ext : Nat} {l : List Dim} {arr : Arr}
    (h : heap[ad]? = some (some arr)) : fits heap ad ext l = consistent ext arr l := by
  simp [fits, h]

theorem modify_eq_set {α : Type} {l : List α} {i : Nat} {a : α} (f : α → α) (h : l[i]? = some a) :
    l.modify i f = l.set i (f a) := by
  apply List.ext_getElem?
  intro j
  rw [List.getElem?_modify, List.getElem?_set]
  by_cases hj : i = j
  · subst hj
    have hlt := (List.getElem?_eq_some_iff.1 h).1
    simp only [if_true, if_pos hlt, h, Option.map_some, Option.map_eq_map]
  · simp [hj]

theorem newEntry_len {s : S} {ext : Nat} {name : Name} {m : Meta} (hl : m.l.length = 4)
    (hext : ext ∈ exts) : (newEntry s ext name m).l.length = 4 := by
  obtain ⟨-, -, h1, h4⟩ := exts_pos hext
  simp [newEntry, hl]
  omega

theorem sim_create {s : S} {sp : Spec} (h : Rel s sp) {ext : Nat} {name : Name} {p : Option Nat}
    {m : Meta} {junk : Nat → Nat} {nan : Nat} (hpre : Pre sp (.create ext name p m junk nan)) :
    Simulates s sp (.create ext name p m junk nan) := by
  obtain ⟨ht, hext, hl, hpp, hty, hcap⟩ := hpre
  have hheap := h.heap
  have h0 := h.cursor 0 (fun _ => rfl)
  cases p with
  | none =>
    rcases lookup h ht with ⟨hm, hfind, hno⟩ | ⟨i, e, ad, arr, hi, hn, hp, ha, hm, hfind⟩
    · have hc : s.dir.length < 2048 := by rw [← h.cnt]; exact hcap hm
      have hadd := add_entry h (e := newEntry s ext name m) (ad := s.heap.length)
        (c := s.dir.length + 1) (r := s.restart)
        (heap' := s.heap ++ [some ⟨boundsOf ext m.l, (List.range (total (boundsOf ext m.l))).map
          (start m.a.flags nan junk)⟩]) ht hno hext rfl rfl (newEntry_len hl hext)
        (fun j x hj hx hpx => by
          obtain ⟨-, a, arr, hpa, harr⟩ := h.inv.own j x hj hx
          rw [hpx] at hpa
          simp at hpa
          rw [← hpa] at harr
          simp at harr)
        (fun a arr harr => ⟨arr, by
          have hlt := (List.getElem?_eq_some_iff.1 harr).1
          rw [List.getElem?_append_left hlt]
          exact harr⟩)
        ⟨_, List.getElem?_concat_length⟩
      refine ⟨_, ?_, hadd.congr ?_⟩
      · simp only [step, create, hfind, Option.bind_eq_bind, Option.bind_some,
          Bool.true_eq_false, if_false, if_true,
          createNew_null (s := { s with cur := 0 }) hc, Option.map_some]
        simp only [sstep, hm, hheap]
        rfl
      · simp only [sstep, hm, hheap]
        rfl
    · have hd : e.dtype = ext := hty _ hm
      have hp' : pointer { s with cur := i + 1 } ext e.pti = some (some ad) := by
        rw [← hd]; exact hp
      have hfit : fits sp.heap ad ext m.l = consistent ext arr m.l := by
        rw [hheap]; exact fits_eq ha
      have hfit' : fits sp.heap (fieldOf e ad).ptr ext m.l = consistent ext arr m.l := hfit
      have hb5 := bit5 e.a.flags
      have hb5' : (fieldOf e ad).a.flags[5] = e.a.flags[5] := rfl
      by_cases hcon : consistent ext arr m.l = false
      · refine ⟨{ s with cur := i + 1 }, ?_, ?_⟩
        · simp [step, create, hfind, hi, hp', S.at, ha, sstep, hm, hfit', hcon]
        · have : (sstep sp (.create ext name none m junk nan)).1 = sp := by
            simp [sstep, hm, hfit', hcon]
          rw [this]
          exact h.cursor _ (nonempty_of hi _)
      · by_cases hfl : e.a.flags.getLsbD 5 = true
        · have hfl' : ¬ (e.a.flags &&& 32#32 = 0#32) := hb5.2 hfl
          have hfl : e.a.flags[5] = true := hfl
          refine ⟨{ s with cur := i + 1 }, ?_, ?_⟩
          · simp [step, create, hfind, hi, hp', S.at, ha, sstep, hm, hfit', hcon, hfl', hb5', hfl]
          · have : (sstep sp (.create ext name none m junk nan)).1 = sp := by
              simp [sstep, hm, hfit', hcon, hb5', hfl]
            rw [this]
            exact h.cursor _ (nonempty_of hi _)
        · have hfl' : ¬ (e.a.flags &&& 32 ≠ 0) := fun hx => hfl (hb5.1 hx)
          have hset := set_entry h (e' := { e with a := { e.a with
              flags := (m.a.flags &&& 7) ||| e.a.flags ||| 32 } }) hi
            (by rw [hn]; exact ht) hp rfl rfl rfl
            (h.inv.len4 i e hi) (by show e.name ≠ tomb; rw [hn]; exact ht)
            (fun j e2 hj hne => h.inv.uniq j i e2 e hj hi hne (by
              have : e2.name = e.name := hne
              rw [this, hn]; exact ht))
          refine ⟨_, ?_, hset.congr ?_⟩
          · have hfl' : e.a.flags &&& 32#32 = 0#32 := by
              rw [ne_eq, Decidable.not_not] at hfl'
              exact hfl'
            have hfl : ¬ (e.a.flags[5] = true) := hfl
            simp [step, create, hfind, hi, hp', S.at, ha, sstep, hm, hfit', hcon, hfl', hb5', hfl]
            rfl
          · have hfl : ¬ (e.a.flags[5] = true) := hfl
            simp [sstep, hm, hfit', hcon, hb5', hfl]
            funext k
            rw [hn]
            unfold put del
            by_cases hk : k = fixed name
            · rw [if_pos hk, if_pos hk]; rfl
            · rw [if_neg hk, if_neg hk, if_neg hk]
  | some ad0 =>
    obtain ⟨⟨arr0, harr0⟩, hfree⟩ := hpp ad0 rfl
    rw [hheap] at harr0
    have hfit : fits sp.heap ad0 ext m.l = consistent ext arr0 m.l := by
      rw [hheap]; exact fits_eq harr0
    have hfit0 : fits s.heap ad0 ext m.l = consistent ext arr0 m.l := fits_eq harr0
    have hat : s.at ad0 = some arr0 := by simp [S.at, harr0]
    by_cases hcon : consistent ext arr0 m.l = false
    · refine ⟨s, ?_, ?_⟩
      · simp [step, create, hat, sstep, hfit, hcon]
      · have : (sstep sp (.create ext name (some ad0) m junk nan)).1 = sp := by
          simp [sstep, hfit, hcon]
        rw [this]
        exact h
    · rw [Bool.not_eq_false] at hcon
      rcases lookup h ht with ⟨hm, hfind, hno⟩ | ⟨i, e, ad, arr, hi, hn, hp, ha, hm, hfind⟩
      · have hc : s.dir.length < 2048 := by rw [← h.cnt]; exact hcap hm
        have hlt0 := (List.getElem?_eq_some_iff.1 harr0).1
        have hadd := add_entry h (e := newEntry s ext name m) (ad := ad0)
          (c := s.dir.length + 1) (r := s.restart)
          (heap' := s.heap.set ad0
            (some { arr0 with data := arr0.data.map (start m.a.flags nan id) }))
          ht hno hext rfl rfl (newEntry_len hl hext)
          (fun j x hj hx hpx => hfree x.name _ hx
            ((h.map x.name hx _).2 ⟨j, x, ad0, hj, rfl, hpx, rfl⟩) rfl)
          (fun a arr harr => by
            by_cases haa : a = ad0
            · subst haa
              exact ⟨_, List.getElem?_set_self hlt0⟩
            · exact ⟨arr, by rw [List.getElem?_set_ne (Ne.symm haa)]; exact harr⟩)
          ⟨_, List.getElem?_set_self hlt0⟩
        refine ⟨_, ?_, hadd.congr ?_⟩
        · simp only [step, create, hat, hfind, Option.bind_eq_bind, Option.bind_some, hcon,
            Bool.true_eq_false, if_false, if_true, Option.map_some,
            createNew_given (s := { s with cur := 0 }) hc harr0]
          simp only [sstep, hm, hfit, hcon, Option.any_some, Bool.not_true, Bool.false_eq_true,
            if_false]
          rfl
        · simp only [sstep, hm, hfit0, hcon, Option.any_some, Bool.not_true, Bool.false_eq_true,
            if_false, hheap, modify_eq_set _ harr0]
          rfl
      · refine ⟨{ s with cur := i + 1 }, ?_, ?_⟩
        · simp [step, create, hat, hfind, hi, sstep, hm, hfit, hcon]
        · have : (sstep sp (.create ext name (some ad0) m junk nan)).1 = sp := by
            simp [sstep, hm, hfit, hcon]
          rw [this]
          exact h.cursor _ (nonempty_of hi _)

theorem sim {s : S} {sp : Spec} (h : Rel s sp) (op : Op) (hpre : Pre sp op) :
    Simulates s sp op := by
  cases op with
  | alloc arr => exact sim_alloc h arr
  | store ad data => exact sim_store h ad data
  | create ext name p m junk nan => exact sim_create h hpre
  | get ext name junk => exact sim_get h hpre
  | delete name => exact sim_delete h hpre
  | rename old new => exact sim_rename h hpre.1 hpre.2
  | getmeta name => exact sim_getmeta h hpre
  | update name m => exact sim_update h hpre

/-- A whole program with the modelled code. -/
def run (s : S) : List Op → Option (S × List Reply)
  | [] => some (s, [])
  | op :: ops => do
    let (s, r) ← step s op
    let (s, rs) ← run s ops
    some (s, r :: rs)

/-- The same program with the specification. -/
def srun (sp : Spec) : List Op → Spec × List Reply
  | [] => (sp, [])
  | op :: ops =>
    let (sp, r) := sstep sp op
    let (sp, rs) := srun sp ops
    (sp, r :: rs)

/-- The program respects the conditions all along. -/
def Allowed (sp : Spec) : List Op → Prop
  | [] => True
  | op :: ops => Pre sp op ∧ Allowed (sstep sp op).1 ops

/-- Nothing has been made yet. -/
def empty : Spec := ⟨fun _ => none, [], 0⟩

theorem rel_init : Rel init empty := by
  refine ⟨⟨fun _ => rfl, ?_, ?_, ?_, ?_, ?_, ?_⟩, rfl, rfl, ?_⟩
  · intro i e h; simp [init] at h
  · intro i j e e' h; simp [init] at h
  · intro i e h; simp [init] at h
  · intro i j e e' ad h; simp [init] at h
  · intro i e h; simp [init] at h
  · intro i e h; simp [init] at h
  · intro n _ f
    constructor
    · intro h; simp [empty] at h
    · rintro ⟨i, e, ad, h, -⟩; simp [init] at h

theorem run_rel : ∀ (ops : List Op) {s : S} {sp : Spec}, Rel s sp → Allowed sp ops →
    ∃ s', run s ops = some (s', (srun sp ops).2) ∧ Rel s' (srun sp ops).1
  | [], s, sp, h, _ => ⟨s, rfl, h⟩
  | op :: ops, s, sp, h, ha => by
    obtain ⟨s1, hs, h1⟩ := sim h op ha.1
    obtain ⟨s2, hr, h2⟩ := run_rel ops h1 ha.2
    exact ⟨s2, by simp [run, srun, hs, hr], h2⟩

/-- **C70** Whatever program calls `gmm_create`, `gmm_get`, `gmm_delete`, `gmm_rename`,
`gmm_getmeta` and `gmm_updatemeta`, in whatever order, it gets the answers of a map from names
to arrays: a variable is found under its name until it is deleted or renamed, with its own
array and metadata, and no call changes another variable or its array. -/
theorem C70_map_partial (ops : List Op) (h : Allowed empty ops) :
    ∃ s, run init ops = some (s, (srun empty ops).2) ∧
      ∀ n, n ≠ tomb → ∀ f, (srun empty ops).1.map n = some f ↔ Has s n f := by
  obtain ⟨s, hr, hs⟩ := run_rel ops rel_init h
  exact ⟨s, hr, hs.map⟩

/-- The names a call may change something about. -/
def changes : Op → List Name
  | .create _ name _ _ _ _ => [fixed name]
  | .delete name => [fixed name]
  | .rename old new => [fixed old, fixed new]
  | .update name _ => [fixed name]
  | _ => []

/-- The address a program stores to. -/
def stores : Op → Option Nat
  | .store ad _ => some ad
  | _ => none

theorem other_map {sp : Spec} {op : Op} {n : Name} (h : n ∉ changes op) :
    (sstep sp op).1.map n = sp.map n := by
  cases op with
  | alloc arr => rfl
  | store ad data => rfl
  | create ext name p m junk nan =>
    simp only [changes, List.mem_singleton] at h
    simp only [sstep]
    split
    · rfl
    · split
      · rfl
      · split
        · rfl
        · split
          · rfl
          · simp [put, h]
      · simp [put, h]
  | get ext name junk =>
    simp only [sstep]
    split
    · rfl
    · split <;> rfl
  | delete name =>
    simp only [changes, List.mem_singleton] at h
    simp only [sstep]
    split
    · rfl
    · simp [del, h]
  | rename old new =>
    simp only [changes, List.mem_cons, List.not_mem_nil, or_false, not_or] at h
    simp only [sstep]
    split
    · simp [put, del, h]
    · rfl
  | getmeta name =>
    simp only [sstep]
    split <;> rfl
  | update name m =>
    simp only [changes, List.mem_singleton] at h
    simp only [sstep]
    split
    · rfl
    · simp [put, h]

theorem other_map_run : ∀ (ops : List Op) {sp : Spec} {n : Name},
    (∀ op ∈ ops, n ∉ changes op) → (srun sp ops).1.map n = sp.map n
  | [], _, _, _ => rfl
  | op :: ops, sp, n, h => by
    have h1 := other_map_run ops (sp := (sstep sp op).1) (n := n)
      (fun o ho => h o (List.mem_cons_of_mem _ ho))
    exact h1.trans (other_map (h op (List.mem_cons_self ..)))

theorem srun_append (a b : List Op) (sp : Spec) : srun sp (a ++ b)
    = ((srun (srun sp a).1 b).1, (srun sp a).2 ++ (srun (srun sp a).1 b).2) := by
  induction a generalizing sp with
  | nil => rfl
  | cons op a ih => simp [srun, ih]

/-- **C70** `gmm_get` answers the same before and after any calls about other names. -/
theorem C70_get_later (ops mid : List Op) (ext : Nat) (name : Name) (junk : Nat)
    (h1 : Allowed empty (ops ++ [.get ext name junk]))
    (h2 : Allowed empty (ops ++ mid ++ [.get ext name junk]))
    (hmid : ∀ op ∈ mid, fixed name ∉ changes op) :
    ∃ s s' rs rs' r, run init (ops ++ [.get ext name junk]) = some (s, rs ++ [r]) ∧
      run init (ops ++ mid ++ [.get ext name junk]) = some (s', rs' ++ [r]) := by
  obtain ⟨s, hr, -⟩ := C70_map_partial _ h1
  obtain ⟨s', hr', -⟩ := C70_map_partial _ h2
  refine ⟨s, s', (srun empty ops).2, (srun empty (ops ++ mid)).2,
    (sstep (srun empty ops).1 (.get ext name junk)).2, ?_, ?_⟩
  · rw [hr, srun_append]; rfl
  · rw [hr', srun_append]
    have hm : (srun empty (ops ++ mid)).1.map (fixed name) = (srun empty ops).1.map (fixed name) := by
      rw [srun_append]
      exact other_map_run mid hmid
    have : (sstep (srun empty (ops ++ mid)).1 (.get ext name junk)).2
        = (sstep (srun empty ops).1 (.get ext name junk)).2 := by
      simp only [sstep, hm]
      cases (srun empty ops).1.map (fixed name) with
      | none => rfl
      | some f => cases hlu : lastUsed f.l (ext % 10) <;> simp [hlu]
    rw [← this]
    rfl

/-- Two variables never share an array. -/
theorem Rel.apart {s : S} {sp : Spec} (h : Rel s sp) {n k : Name} {f g : Field} (hn : n ≠ tomb)
    (hk : k ≠ tomb) (hf : sp.map n = some f) (hg : sp.map k = some g) (hfg : f.ptr = g.ptr) :
    n = k := by
  obtain ⟨i, e, a, hi, he, hp, rfl⟩ := (h.map n hn f).1 hf
  obtain ⟨j, x, b, hj, hx, hq, rfl⟩ := (h.map k hk g).1 hg
  have hab : a = b := hfg
  subst hab
  have := h.inv.sep i j e x a hi hj (by rw [he]; exact hn) (by rw [hx]; exact hk) hp hq
  subst this
  rw [hi] at hj
  obtain rfl := Option.some.inj hj
  rw [← he, ← hx]

/-- **C70** No call changes the array of a variable it does not name; in particular deleting
or creating another one does not. -/
theorem C70_array_kept {s : S} {sp : Spec} (h : Rel s sp) (op : Op) (hpre : Pre sp op)
    {n : Name} {f : Field} (hn : n ≠ tomb) (hf : sp.map n = some f) (hc : n ∉ changes op)
    (hs : stores op ≠ some f.ptr) :
    ∃ s' r, step s op = some (s', r) ∧ s'.heap[f.ptr]? = s.heap[f.ptr]? ∧ Has s' n f := by
  obtain ⟨s', hst, hrel⟩ := sim h op hpre
  refine ⟨s', _, hst, ?_, (hrel.map n hn f).1 ((other_map hc).trans hf)⟩
  rw [← hrel.heap, ← h.heap]
  obtain ⟨i, e, a, hi, he, hp, hfe⟩ := (h.map n hn f).1 hf
  have hlt : f.ptr < sp.heap.length := by
    obtain ⟨-, b, arr, hb, harr⟩ := h.inv.own i e hi (by rw [he]; exact hn)
    rw [hp] at hb
    simp at hb
    rw [h.heap, hfe]
    show a < s.heap.length
    rw [hb]
    exact (List.getElem?_eq_some_iff.1 harr).1
  cases op with
  | alloc arr =>
    show (sp.heap ++ [some arr])[f.ptr]? = _
    rw [List.getElem?_append_left hlt]
  | store ad data =>
    show (sp.heap.modify ad _)[f.ptr]? = _
    have : ad ≠ f.ptr := fun hx => hs (by simp [stores, hx])
    rw [List.getElem?_modify]
    simp [this]
  | create ext name p m junk nan =>
    obtain ⟨ht, hext, hl, hpp, hty, hcap⟩ := hpre
    cases p with
    | none =>
      simp only [sstep, Option.any_none, Bool.false_eq_true, if_false]
      cases hm : sp.map (fixed name) with
      | none =>
        show (sp.heap ++ [_])[f.ptr]? = _
        rw [List.getElem?_append_left hlt]
      | some g =>
        simp only
        split
        · rfl
        · split <;> rfl
    | some ad =>
      simp only [sstep]
      split
      · rfl
      · cases hm : sp.map (fixed name) with
        | none =>
          show (sp.heap.modify ad _)[f.ptr]? = _
          have : ad ≠ f.ptr := fun hx => (hpp ad rfl).2 n f hn hf hx.symm
          rw [List.getElem?_modify]
          simp [this]
        | some g => rfl
  | get ext name junk =>
    simp only [sstep]
    split
    · rfl
    · split <;> rfl
  | delete name =>
    simp only [changes, List.mem_singleton] at hc
    simp only [sstep]
    split
    · rfl
    · rename_i g hg
      show (sp.heap.set g.ptr none)[f.ptr]? = _
      rw [List.getElem?_set_ne]
      intro hx
      exact hc (h.apart hn hpre hf hg hx.symm)
  | rename old new =>
    simp only [sstep]
    split <;> rfl
  | getmeta name =>
    simp only [sstep]
    split <;> rfl
  | update name m =>
    simp only [sstep]
    split <;> rfl

/-- **C70** Places in the directory are never used again: after 2048 variables have been made
no other one can be, even if all have been deleted. -/
theorem C70_directory_full {s : S} {sp : Spec} (h : Rel s sp) (hfull : sp.cnt = 2048) {ext : Nat}
    {name : Name} {m : Meta} {junk : Nat → Nat} {nan : Nat} (ht : fixed name ≠ tomb)
    (hnew : sp.map (fixed name) = none) : step s (.create ext name none m junk nan) = none := by
  rcases lookup h ht with ⟨hm, hfind, hno⟩ | ⟨i, e, ad, arr, hi, hn, hp, ha, hm, hfind⟩
  · have : s.dir.length ≥ 2048 := by rw [← h.cnt, hfull]; exact Nat.le_refl _
    simp [step, create, hfind, createNew, addEntry, this]
  · rw [hm] at hnew
    exact absurd hnew (by simp)

/-! ### Examples, and where the code is no map -/

def dims2 (a b : Int) : List Dim :=
  [⟨1, a, 0, 0, a⟩, ⟨1, b, 0, 0, b⟩, ⟨0, 0, 0, 0, 0⟩, ⟨0, 0, 0, 0, 0⟩]
def meta2 (a b : Int) (flags : BitVec 32) : Meta := ⟨dims2 a b, ⟨0, 7, 8, 0, flags⟩⟩
def nU : Name := "UU".toList
def nV : Name := "VV".toList
def nW : Name := "WW".toList

/-- A program which respects the conditions and gets sensible answers. -/
example : Allowed empty [.create 242 nU none (meta2 2 3 3) (fun k => k + 90) 5,
    .create 142 nV none (meta2 1 2 1) (fun k => k + 70) 5,
    .store 0 [1, 2, 3, 4, 5, 6], .get 242 nU 9, .rename nU nW, .delete nV, .get 242 nW 9,
    .get 242 nU 9] ∧
    ((run init [.create 242 nU none (meta2 2 3 3) (fun k => k + 90) 5,
      .create 142 nV none (meta2 1 2 1) (fun k => k + 70) 5,
      .store 0 [1, 2, 3, 4, 5, 6], .get 242 nU 9, .rename nU nW, .delete nV, .get 242 nW 9,
      .get 242 nU 9]).map fun r => r.2.map fun q => (q.code, q.p))
    = some [(0, some 0), (0, some 1), (0, none), (0, some 0), (0, none), (0, none), (0, some 0),
        (-3, none)] := by
  refine ⟨?_, by decide +kernel⟩
  refine ⟨⟨by decide, by decide, by decide, fun ad h => by simp at h, fun f h => by
      simp [empty] at h, fun _ => by decide⟩, ⟨by decide, by decide, by decide,
      fun ad h => by simp at h, fun f h => ?_, fun _ => by decide⟩, ?_, ?_, ?_, ?_, ?_, ?_, trivial⟩
  · have h2 : (none : Option Field) = some f := h
    exact absurd h2 (by simp)
  · intro arr h
    obtain rfl : arr = ⟨[(1, 2), (1, 3)], [0, 0, 0, 0, 0, 0]⟩ := by
      have h2 : some (some arr) = some (some ⟨[(1, 2), (1, 3)], [0, 0, 0, 0, 0, 0]⟩) := h.symm
      simpa using h2
    rfl
  · refine ⟨by decide, by decide, fun f h => ?_⟩
    obtain rfl : f = ⟨242, dims2 2 3, ⟨0, 7, 8, 0, 35⟩, 0⟩ := by
      have h2 : some f = some ⟨242, dims2 2 3, ⟨0, 7, 8, 0, 35⟩, 0⟩ := h.symm
      simpa using h2
    exact ⟨⟨_, by simp [dims2]; exact Or.inl rfl, by decide⟩, fun _ => rfl⟩
  · exact ⟨by decide, by decide⟩
  · exact (by decide : fixed nV ≠ tomb)
  · refine ⟨by decide, by decide, fun f h => ?_⟩
    obtain rfl : f = ⟨242, dims2 2 3, ⟨0, 7, 8, 0, 35⟩, 0⟩ := by
      have h2 : some f = some ⟨242, dims2 2 3, ⟨0, 7, 8, 0, 35⟩, 0⟩ := h.symm
      simpa using h2
    exact ⟨⟨_, by simp [dims2]; exact Or.inl rfl, by decide⟩, fun _ => rfl⟩
  · refine ⟨by decide, by decide, fun f h => ?_⟩
    have h2 : (none : Option Field) = some f := h
    exact absurd h2 (by simp)

/-- **C70** The type is not looked at: an integer and a real variable of two dimensions are
made; asked for the integer one with the function for reals, `gmm_get` reports success and
hands back the array of the *other* variable. -/
theorem C70_type_confusion_witness :
    ((run init [.create 142 nU none (meta2 2 3 0) (fun k => k) 5,
      .create 242 nV none (meta2 4 5 0) (fun k => k) 5, .get 242 nU 0]).map
      fun r => r.2.map fun q => (q.code, q.p))
    = some [(0, some 0), (0, some 1), (0, some 1)] := by decide +kernel

/-- **C70** ... and without a second variable it hands back an undefined pointer. -/
theorem C70_undefined_pointer_witness :
    run init [.create 142 nU none (meta2 2 3 0) (fun k => k) 5, .get 242 nU 0] = none := by
  rfl

/-- **C70** The name under which deleted variables are kept is an ordinary name: it can be
deleted (again), which deallocates a null pointer. -/
theorem C70_deleted_twice_witness :
    (run init [.create 142 nU none (meta2 2 3 0) (fun k => k) 5, .delete nU]).isSome ∧
    run init [.create 142 nU none (meta2 2 3 0) (fun k => k) 5, .delete nU,
      .delete "Variable deleted upon request".toList] = none := by
  exact ⟨by decide +kernel, by rfl⟩

/-- **C70** `gmm_keys` before anything has been made leaves a cursor behind which sends
`gmm_get` to page zero of the directory. -/
theorem C70_keys_empty_witness :
    (keys 0 init).2 = (0, []) ∧ Gmm.get 242 nU 0 init ≠ none ∧
      Gmm.get 242 nU 0 (keys 0 init).1 = none := by
  refine ⟨by decide, by decide, rfl⟩

/-- **C70** Deleted variables are still counted and listed. -/
theorem C70_keys_deleted_witness :
    (run init [.create 142 nU none (meta2 2 3 0) (fun k => k) 5, .delete nU]).map
      (fun r => (nkeys r.1, (keys 5 r.1).2.2)) = some (1, [tomb]) := by
  decide +kernel

end Props.NamedArrays
